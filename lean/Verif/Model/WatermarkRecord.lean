import Verif.Model.Basic
import Verif.Model.Quantization

/-! Model of `lib/sia/rust/watermarking/src/watermark.rs`. A Rust `String` is a Lean `String` (both are valid UTF-8
byte sequences); its bytes are `utf8Bytes`. -/
namespace Sia

/-- `str::as_bytes`. watermarking/src/watermark.rs:32, 38. -/
def utf8Bytes (s : String) : List UInt8 := s.toByteArray.data.toList

/-- `String::from_utf8` (Rust std). watermarking/src/watermark.rs:79. -/
def fromUtf8? (bs : List UInt8) : Option String := String.fromUTF8? ⟨bs.toArray⟩

/-- `Watermark`, watermarking/src/watermark.rs:6-10. -/
structure Watermark where
  perturbationVector : List Bool
  signature : List UInt8
  text : String
  deriving DecidableEq

/-- `Watermark::serialize`, watermarking/src/watermark.rs:21-50. -/
def Watermark.serialize (w : Watermark) : Res (List UInt8) :=
  let pLength := w.perturbationVector.length
  if pLength > 255 then .error .tooLongPerturbation else
  let sLength := w.signature.length
  if sLength > 255 then .error .tooLongSignature else
  let tLength := (utf8Bytes w.text).length
  if tLength > 255 then .error .tooLongText else
  .ok ([UInt8.ofNat pLength] ++ [UInt8.ofNat sLength] ++ [UInt8.ofNat tLength]
    ++ perturbationVectorAsBytes w.perturbationVector ++ w.signature ++ utf8Bytes w.text)

/-- `deserialize`, watermarking/src/watermark.rs:53-82. `(p as f64 / 8.).ceil()` on a byte `p` is exact. -/
def deserializeWatermark (bytes : List UInt8) : Res Watermark := do
  if bytes.length < 3 then throw .tooShortWatermark
  let pLength := (bytes.getD 0 0).toNat
  let sLength := (bytes.getD 1 0).toNat
  let tLength := (bytes.getD 2 0).toNat
  let pStart := 3
  let pEnd := pStart + (pLength + 7) / 8
  let sStart := pEnd
  let sEnd := sStart + sLength
  let tStart := sEnd
  let tEnd := tStart + tLength
  let pBytes ← slice bytes pStart pEnd
  let p := perturbationVectorFromBytes pBytes pLength
  let s ← slice bytes sStart sEnd
  let tBytes ← slice bytes tStart tEnd
  match fromUtf8? tBytes with
  | none => throw .invalidUtf8
  | some t => return { perturbationVector := p, signature := s, text := t }

end Sia
