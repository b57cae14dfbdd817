import Verif.Model.Basic
import Verif.Model.Float

/-! Model of `lib/sia/rust/embedding/src/io/steganography.rs` and `io/mod.rs`.
A domain is a matrix; what the code calls `width` is Axis 0 (`rows`), `height` is Axis 1 (`cols`). -/
namespace Sia
open FloatOps

/-- `get_capacity`, steganography.rs:18-20, in bytes; exact for sizes below 2^53. -/
def getCapacity (width height : Nat) : Nat := width * height / 8

/-- `get_column_and_row`, steganography.rs:22-26. The `f64` quotient's floor is the integer quotient for operands
below 2^53 (proved for `F64` in Verif/Props/FloatProps.lean). Never called with zero dimensions: the capacity is
then 0 and no bit is read or written. -/
def getColumnAndRow (offset width height : Nat) : Nat × Nat := (offset % width, offset / height)

section
variable {F : Type} [FloatOps F]

/-- The value assigned by `write_bit`, steganography.rs:59 and 66-67. -/
def writeCell (depth : F) (bit : Bool) (coefficient : F) : F :=
  let reminder : F := if bit then lit (1 / 4) else lit (-1 / 4)
  mul depth (add (FloatOps.round (div coefficient depth)) reminder)

/-- The comparison made by `read_bit`, steganography.rs:137-141. -/
def readCell (depth : F) (coefficient : F) : Bool :=
  ge (sub coefficient (mul depth (FloatOps.round (div coefficient depth)))) (ofInt 0)

/-- `write_bit`, steganography.rs:58-79, on (offset, domain). `get_mut(..).unwrap()` panics out of bounds. -/
def writeBit (depth : F) (st : Nat × Mat F) (bit : Bool) : Res (Nat × Mat F) :=
  let (offset, domain) := st
  let (column, row) := getColumnAndRow offset domain.rows domain.cols
  if row < domain.rows ∧ column < domain.cols then
    .ok (offset + 1, domain.set row column (writeCell depth bit (domain.get row column)))
  else .error .unwrapNone

/-- `WatermarkToDwtCoefficientsWriter::write`, steganography.rs:37-51, from offset 0; with `io::write`
(io/mod.rs:10-18; `close` does nothing). -/
def write (domain : Mat F) (bytes : List UInt8) (depth : F) : Res (Mat F) := do
  let capacity := getCapacity domain.rows domain.cols
  if capacity < bytes.length then throw .dataExceedsCapacity
  let st ← (bytesBits bytes).foldlM (writeBit depth) (0, domain)
  return st.2

/-- `read_bit` at a given offset, steganography.rs:129-147. -/
def readBit (domain : Mat F) (depth : F) (offset : Nat) : Res Bool :=
  let (column, row) := getColumnAndRow offset domain.rows domain.cols
  if row < domain.rows ∧ column < domain.cols then .ok (readCell depth (domain.get row column))
  else .error .cellOutOfBounds

/-- `read_next`, steganography.rs:122-127: eight bits from `8 * k` on, least significant first. The reader's
offset is `8 * k` when the `k`-th byte is read. -/
def readByte (domain : Mat F) (depth : F) (k : Nat) : Res UInt8 := do
  let bits ← (List.range 8).mapM fun i => readBit domain depth (8 * k + i)
  return bitsByte bits

/-- `WatermarkFromDwtCoefficientsReader::read`, steganography.rs:107-120, with `io::read` (io/mod.rs:20-23). -/
def read (domain : Mat F) (depth : F) : Res (List UInt8) :=
  (List.range (getCapacity domain.rows domain.cols)).mapM (readByte domain depth)

end
end Sia
