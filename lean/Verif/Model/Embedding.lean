import Verif.Model.DataRecord
import Verif.Model.Encoding
import Verif.Model.Steganography
import Verif.Model.Haar

/-! Model of `lib/sia/rust/embedding/src/lib.rs`. -/
namespace Sia
open FloatOps

/-- `get_domain_capacity`, embedding/src/lib.rs:11-20. -/
def getDomainCapacity (w h : Nat) : Res Nat :=
  let capacity := getCapacity w h
  match getCodeForEncode capacity with
  | none => .error .capacityBelowMinimum
  | some _ => .ok capacity

section
variable {F : Type} [FloatOps F]

/-- `elem as f64`, embedding/src/lib.rs:31. -/
def pixelToFloat (p : UInt8) : F := ofInt p.toNat

/-- `elem.round() as u8`, embedding/src/lib.rs:54. -/
def floatToPixel (x : F) : UInt8 := UInt8.ofNat (truncSat 0 255 (FloatOps.round x)).toNat

/-- The low-low corner view `ll3`, embedding/src/lib.rs:35-43: same entries, smaller dimensions
(`2_i32.pow(dwt_levels)` overflows from 31 levels on; the forward transform has then already panicked or overflows
here). -/
def lowLow (m : Mat F) (levels : Nat) : Mat F :=
  { rows := m.rows / 2 ^ levels, cols := m.cols / 2 ^ levels, get := m.get }

/-- `embed`, embedding/src/lib.rs:22-55. Writes through the view land in the same coordinates of the full matrix. -/
def embed (L : Ldpc) (image : Mat UInt8) (bytes : List UInt8) (depth : F) (levels : Nat) : Res (Mat UInt8) := do
  let coefficients ← dwt2d (image.map (pixelToFloat (F := F))) levels false
  if 31 ≤ levels then throw .arithOverflow
  let ll := lowLow coefficients levels
  let capacity ← getDomainCapacity ll.rows ll.cols
  let serialized ← dataSerialize bytes
  let encoded := encode L serialized capacity
  let ll' ← write ll encoded depth
  let restored ← dwt2d { coefficients with get := ll'.get } levels true
  return restored.map floatToPixel

/-- `extract`, embedding/src/lib.rs:57-82. -/
def extract (L : Ldpc) (image : Mat UInt8) (depth : F) (levels : Nat) : Res (List UInt8) := do
  let coefficients ← dwt2d (image.map (pixelToFloat (F := F))) levels false
  if 31 ≤ levels then throw .arithOverflow
  let ll := lowLow coefficients levels
  let extracted ← read ll depth
  let capacity ← getDomainCapacity ll.rows ll.cols
  let decoded ← decode L extracted capacity
  dataDeserialize decoded

end
end Sia
