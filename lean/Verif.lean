import Verif.Lemmas.BytesLemmas
import Verif.Lemmas.CellLemmas
import Verif.Lemmas.Ed25519Curve
import Verif.Lemmas.Ed25519Lemmas
import Verif.Lemmas.EdwardsGroup
import Verif.Lemmas.EdwardsLaw
import Verif.Lemmas.EdwardsOrderPrime
import Verif.Lemmas.EdwardsPrime
import Verif.Lemmas.EmbedLemmas
import Verif.Lemmas.EntryFloat
import Verif.Lemmas.FactorialLemmas
import Verif.Lemmas.FeatureTotal
import Verif.Lemmas.FeatureWithin
import Verif.Lemmas.FileTreeLemmas
import Verif.Lemmas.Float32
import Verif.Lemmas.FloatCalc
import Verif.Lemmas.FloatInstances
import Verif.Lemmas.FloatNear
import Verif.Lemmas.FloatSign
import Verif.Lemmas.HaarError
import Verif.Lemmas.HaarLemmas
import Verif.Lemmas.LdpcBytes
import Verif.Lemmas.LdpcErrors
import Verif.Lemmas.LdpcFill
import Verif.Lemmas.LdpcInverse
import Verif.Lemmas.LdpcLanes
import Verif.Lemmas.LdpcLemmas
import Verif.Lemmas.LdpcMasks
import Verif.Lemmas.LdpcPairs
import Verif.Lemmas.LdpcPairsTC
import Verif.Lemmas.LdpcPairsTM2048P1
import Verif.Lemmas.LdpcPairsTM2048P2
import Verif.Lemmas.LdpcPairsTM2048P3
import Verif.Lemmas.LdpcPairsTM2048P4
import Verif.Lemmas.LdpcPairsTM8192P01
import Verif.Lemmas.LdpcPairsTM8192P02
import Verif.Lemmas.LdpcPairsTM8192P03
import Verif.Lemmas.LdpcPairsTM8192P04
import Verif.Lemmas.LdpcPairsTM8192P05
import Verif.Lemmas.LdpcPairsTM8192P06
import Verif.Lemmas.LdpcPairsTM8192P07
import Verif.Lemmas.LdpcPairsTM8192P08
import Verif.Lemmas.LdpcPairsTM8192P09
import Verif.Lemmas.LdpcPairsTM8192P10
import Verif.Lemmas.LdpcPairsTM8192P11
import Verif.Lemmas.LdpcPairsTM8192P12
import Verif.Lemmas.LdpcPairsTM8192P13
import Verif.Lemmas.LdpcPairsTM8192P14
import Verif.Lemmas.LdpcPairsTM8192P15
import Verif.Lemmas.LdpcPairsTM8192P16
import Verif.Lemmas.LdpcPairsTM8192P17
import Verif.Lemmas.LdpcPairsTM8192P18
import Verif.Lemmas.LdpcPairsTM8192P19
import Verif.Lemmas.LdpcPairsTM8192P20
import Verif.Lemmas.LdpcPairsTM8192P21
import Verif.Lemmas.LdpcPairsTM8192P22
import Verif.Lemmas.LdpcPairsTM8192P23
import Verif.Lemmas.LdpcUnique
import Verif.Lemmas.LdpcWords
import Verif.Lemmas.Lists
import Verif.Lemmas.MomentFloat
import Verif.Lemmas.PipelineLemmas
import Verif.Lemmas.PolarFloat
import Verif.Lemmas.QuantLemmas
import Verif.Lemmas.RadialBound
import Verif.Lemmas.RadialFloat
import Verif.Lemmas.RectLemmas
import Verif.Lemmas.RoundLemmas
import Verif.Lemmas.StegoLemmas
import Verif.Lemmas.ZernikeFloatLemmas
import Verif.Lemmas.ZernikeLemmas
import Verif.Model.Basic
import Verif.Model.Bytes
import Verif.Model.Cli
import Verif.Model.CliReport
import Verif.Model.CliTree
import Verif.Model.Concurrent
import Verif.Model.DataRecord
import Verif.Model.DynamicImage
import Verif.Model.Ed25519Rfc
import Verif.Model.Embedding
import Verif.Model.Encoding
import Verif.Model.Equalize
import Verif.Model.FileTree
import Verif.Model.Float
import Verif.Model.FloatReal
import Verif.Model.FolderRace
import Verif.Model.Getopts
import Verif.Model.Haar
import Verif.Model.HardFolders
import Verif.Model.HardLinks
import Verif.Model.Hex
import Verif.Model.LdpcCcsds
import Verif.Model.LinkFolders
import Verif.Model.LinkMain
import Verif.Model.LinkTree
import Verif.Model.Log
import Verif.Model.Machine
import Verif.Model.Program
import Verif.Model.PseudoRandom
import Verif.Model.Quantization
import Verif.Model.SharedOutputs
import Verif.Model.Signature
import Verif.Model.Steganography
import Verif.Model.TreeProcesses
import Verif.Model.Utils
import Verif.Model.WasmObjects
import Verif.Model.WatermarkRecord
import Verif.Model.Watermarking
import Verif.Model.Web
import Verif.Model.Zernike
import Verif.Model.ZernikeFloat
import Verif.Props.BlankProps
import Verif.Props.BlockProps
import Verif.Props.BrightnessProps
import Verif.Props.BytesProps
import Verif.Props.CarrierCli
import Verif.Props.CarrierProps
import Verif.Props.ChannelProps
import Verif.Props.CliAuthExamples
import Verif.Props.CliAuthProps
import Verif.Props.CliExamples
import Verif.Props.CliProps
import Verif.Props.CliReportProps
import Verif.Props.ColourProps
import Verif.Props.CommandLineProps
import Verif.Props.ConcurrentExamples
import Verif.Props.ConcurrentProps
import Verif.Props.DamageProps
import Verif.Props.DepthProps
import Verif.Props.DistortionProps
import Verif.Props.DriftExamples
import Verif.Props.DriftImageProps
import Verif.Props.DriftProps
import Verif.Props.Ed25519Examples
import Verif.Props.Ed25519Props
import Verif.Props.EmbedProps
import Verif.Props.EncodingProps
import Verif.Props.EqualizeExactProps
import Verif.Props.EqualizeProps
import Verif.Props.ExitProps
import Verif.Props.FactorialFloatProps
import Verif.Props.FeatureBounds
import Verif.Props.FeatureFiniteExamples
import Verif.Props.FeatureFiniteProps
import Verif.Props.FlatProps
import Verif.Props.FloatIeee
import Verif.Props.FloatProps
import Verif.Props.FloatSpecial
import Verif.Props.FolderProps
import Verif.Props.FolderRaceExamples
import Verif.Props.FolderRaceProps
import Verif.Props.FolderRaceSafety
import Verif.Props.ForgeryProps
import Verif.Props.GenerationExamples
import Verif.Props.GenerationProps
import Verif.Props.HaarProps
import Verif.Props.HardLinkExamples
import Verif.Props.HardLinkProps
import Verif.Props.HardRunExamples
import Verif.Props.HardRunProps
import Verif.Props.IdempotenceProps
import Verif.Props.ImageProps
import Verif.Props.LargeStepProps
import Verif.Props.LdpcPipeline
import Verif.Props.LdpcProps
import Verif.Props.LibmExamples
import Verif.Props.LinkExamples
import Verif.Props.LinkFolderProps
import Verif.Props.LinkMainProps
import Verif.Props.LinkRecoveryExamples
import Verif.Props.LinkRecoveryProps
import Verif.Props.LinkResumeExamples
import Verif.Props.LinkResumeProps
import Verif.Props.LinkRunExamples
import Verif.Props.LinkRunProps
import Verif.Props.LinkSafetyProps
import Verif.Props.LinkTreeProps
import Verif.Props.LocalityProps
import Verif.Props.LogExamples
import Verif.Props.LogLines
import Verif.Props.LogProps
import Verif.Props.MachineExamples
import Verif.Props.MachineProps
import Verif.Props.NoisyCliProps
import Verif.Props.NoisyExamples
import Verif.Props.NoisyGenerationProps
import Verif.Props.NoisyImageProps
import Verif.Props.PipelineExamples
import Verif.Props.PipelineProps
import Verif.Props.PixelFloatExamples
import Verif.Props.PixelFloatProps
import Verif.Props.ProgramExamples
import Verif.Props.ProgramProps
import Verif.Props.QuantFarProps
import Verif.Props.QuantFloatProps
import Verif.Props.QuantProps
import Verif.Props.RandomProps
import Verif.Props.ReadExamples
import Verif.Props.ReadProps
import Verif.Props.RecordProps
import Verif.Props.RecoveryProps
import Verif.Props.RejectProps
import Verif.Props.ReplaceImageProps
import Verif.Props.ReplaceProps
import Verif.Props.SharedOutputsApart
import Verif.Props.SharedOutputsBytes
import Verif.Props.SharedOutputsEnds
import Verif.Props.SharedOutputsExamples
import Verif.Props.SharedOutputsProps
import Verif.Props.StdoutProps
import Verif.Props.StegoProps
import Verif.Props.StepProps
import Verif.Props.StepSizeProps
import Verif.Props.SymmetricProps
import Verif.Props.TamperExamples
import Verif.Props.TamperProps
import Verif.Props.TransplantProps
import Verif.Props.TreeExamples
import Verif.Props.TreeMainProps
import Verif.Props.TreeOutputProps
import Verif.Props.TreeProcessesProps
import Verif.Props.TreeProcessesResult
import Verif.Props.TreeProcessesSafety
import Verif.Props.TreeProps
import Verif.Props.TreeSafetyProps
import Verif.Props.UtilsProps
import Verif.Props.WasmExamples
import Verif.Props.WasmProps
import Verif.Props.WaveletBands
import Verif.Props.WebAuthProps
import Verif.Props.WebExamples
import Verif.Props.WebProps
import Verif.Props.WebSchedule
import Verif.Props.WebShown
import Verif.Props.ZernikeFloatProps
import Verif.Props.ZernikeProps
import Verif.Spec.BinarySpec
import Verif.Spec.CliSpec
import Verif.Spec.CommandLineSpec
import Verif.Spec.ConcurrentSpec
import Verif.Spec.DriftSpec
import Verif.Spec.EmbedSpec
import Verif.Spec.EncodingSpec
import Verif.Spec.FileTreeSpec
import Verif.Spec.FolderRaceSpec
import Verif.Spec.GenerationSpec
import Verif.Spec.HardLinksSpec
import Verif.Spec.ImageSpec
import Verif.Spec.LawfulFloat
import Verif.Spec.LdpcSpec
import Verif.Spec.LibmSpec
import Verif.Spec.LinkMainSpec
import Verif.Spec.LinkRecoverySpec
import Verif.Spec.LinkTreeSpec
import Verif.Spec.LocalitySpec
import Verif.Spec.LogSpec
import Verif.Spec.MachineSpec
import Verif.Spec.MatSpec
import Verif.Spec.PipelineSpec
import Verif.Spec.QuantSpec
import Verif.Spec.SharedOutputsSpec
import Verif.Spec.SignatureSpec
import Verif.Spec.SpecialFloatSpec
import Verif.Spec.TamperSpec
import Verif.Spec.TreeProcessesSpec
import Verif.Spec.WasmSpec
import Verif.Spec.ZernikeSpec
import Verif.Tests.RepoTests
