import Verif.Model.Equalize
import Verif.Model.LdpcCcsds
import Verif.Model.Ed25519Rfc
import Verif.Model.ZernikeFloat

/-! The pipeline with every library it uses put in: the codes of `labrador_ldpc`, the signatures of `ed25519_dalek`, the histogram
equalisation of `imageproc` and the moments as the code computes them in double precision. What stays open is the mathematical library of
the platform (`Libm`). -/
namespace Sia

/-- The libraries of watermarking/src/process.rs:1-12 with the moments of zernike/src/calc.rs:8-31 and zernike/src/lib.rs:22-25. A moment
the code aborts on is never asked for by `channelFeatures` (proved in Verif/Props/ProgramProps.lean), so its value does not matter. -/
noncomputable def Deps.program (M : Libm F64) : Deps F64 where
  ldpc := Ldpc.ccsds
  ed := Ed25519.rfc8032
  equalize c := equalizeSingle c.raw
  momentAbs order index image :=
    match zernikeMomentF M order index image with
    | .ok w => M.hypot w.1 w.2
    | .error _ => F64.nan
  equalize_length _ := List.length_map _

end Sia
