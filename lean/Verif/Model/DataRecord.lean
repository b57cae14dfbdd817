import Verif.Model.Basic
import Verif.Model.Bytes

/-! Model of `lib/sia/rust/embedding/src/io/data.rs`. `Data { bytes }` is its byte list. -/
namespace Sia

/-- `Data::serialize`, embedding/src/io/data.rs:14-26. -/
def dataSerialize (bytes : List UInt8) : Res (List UInt8) :=
  if bytes.length > 65535 then .error .tooLongData
  else .ok (vecU16ToBytes [UInt16.ofNat bytes.length] ++ bytes)

/-- `deserialize`, embedding/src/io/data.rs:29-50. -/
def dataDeserialize (bytes : List UInt8) : Res (List UInt8) := do
  if bytes.length < 3 then throw .tooShortData
  let lengthBytes ← slice bytes 0 2
  let lengths ← vecU16FromBytes lengthBytes
  match lengths[0]? with
  | none => throw .unwrapNone
  | some dataLength =>
    let dataStart := 2
    let dataEnd := dataStart + dataLength.toNat
    slice bytes dataStart dataEnd

end Sia
