import Verif.Model.Log
import Verif.Spec.EncodingSpec

/-! Specification of the library's output (C77) and of the tool on a failing standard output (C78). -/
namespace Sia

/-- The labels of a marking call, in order, up to the choice of a code. -/
def markLabels : List String :=
  ["Zernike moments indices: ", "Zernike moments: ", "features: ", "quantized_features: ", "perturbation_vector: ", "signature: ",
    "watermark: ", "watermark data: ", "domain capacity: ", "data: ", "serialized data bytes: ",
    "bytes to be encoded with length header: ", "binary length of the data to be encoded: "]

/-- The two labels that follow if the capacity is one the channel code supports. -/
def markCodeLabels : List String := ["use LDPC code: (", "words to be encoded: "]

/-- The labels of an authentication, in order, before the choice of a code. -/
def authLabels : List String :=
  ["Zernike moments indices: ", "Zernike moments: ", "features: ", "domain capacity: ", "bits length: "]

/-- The three labels that follow if the capacity is one the channel code supports. -/
def authCodeLabels : List String := ["use LDPC code: (", "codewords to be decoded: ", "expected data bytes length: "]

/-- The rest of the labels of an authentication. -/
def authLabels' : List String :=
  ["serialized data bytes: ", "data length: ", "data bytes: (", "deserialized data: ", "extracted watermark data: ",
    "deserialized watermark data: ", "restored quantized features: ", "restored quantized features bytes: "]

/-- The labels of some lines. -/
def labels {F : Type} (lines : List (LogLine F)) : List String := lines.map LogLine.label

/-- A byte string with its length in front, as two bytes, the lower first. -/
def dataRecord (bytes : List UInt8) : List UInt8 :=
  [UInt8.ofNat (bytes.length % 256), UInt8.ofNat (bytes.length / 256)] ++ bytes

/-- The odd numbers 1, 3, .., 2a-1. -/
def oddNumbers (a : Nat) : List Nat := (List.range a).map fun k => 2 * k + 1

/-- The lines of a marking call before the record is embedded: the moments' indices, the moments twice, the cells, the
perturbation bits, the signature, the record and its bytes. -/
def recordLines {F : Type} (a : Nat) (fs : List F) (q : List Int) (p : List Bool) (sig data : List UInt8) : List (LogLine F) :=
  [.momentIndices (oddNumbers a), .moments fs, .features fs, .quantized q, .perturbation p, .signature sig,
    .watermark ⟨p, sig, "Hello world!"⟩, .watermarkData data]

/-- The lines of embedding `data` in a domain of `cap` bytes. -/
def embedLines {F : Type} (cap : Nat) (data : List UInt8) : List (LogLine F) :=
  [.capacity cap, .data data, .serialized (dataRecord data), .toBeEncoded (frame (dataRecord data)), .binaryLength (8 * (data.length + 4))] ++
    if SupportedCapacity cap then [.code (8 * dataBytes cap) (8 * blockBytes cap), .wordsToEncode (blockCount cap (dataRecord data))] else []

/-- The lines of extracting from a domain of `cap` bytes, of which the coder returned `decoded` (with `length` in its frame) and the
data record `data`. -/
def extractLines {F : Type} (cap length : Nat) (decoded data : List UInt8) : List (LogLine F) :=
  [.capacity cap, .bitsLength (8 * cap)] ++
    (if SupportedCapacity cap then
      [.code (8 * dataBytes cap) (8 * blockBytes cap), .wordsToDecode ((cap + blockBytes cap - 1) / blockBytes cap), .expectedLength length] else []) ++
    [.serialized decoded, .dataLength data.length, .dataRange 2 (2 + data.length), .deserialized data]

/-- The lines of the tool itself among some effects. -/
def Effect.prints {F : Type} [FloatOps F] {W : World F} (as : List (Effect W)) : List String :=
  as.filterMap fun a => match a with | .print l => some l | _ => none

/-- How many lines some effects write to standard output. -/
def Effect.outputs {F : Type} [FloatOps F] {W : World F} (as : List (Effect W)) : Nat := (as.filter Effect.isOutput).length

end Sia
