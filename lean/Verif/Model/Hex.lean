import Verif.Model.Basic

/-! Model of `lib/sia/rust/utils/src/format.rs`. A `&str` is the list of its UTF-8 bytes. -/
namespace Sia

/-- `str::is_char_boundary` (Rust std). utils/src/format.rs:6. -/
def isCharBoundary (s : List UInt8) (i : Nat) : Bool :=
  i == 0 || i == s.length || (match s[i]? with | some b => b &&& 0xC0 != 0x80 | none => false)

/-- `&s[a..b]` on a `&str`: panics outside the string or off a character boundary (Rust std). utils/src/format.rs:6. -/
def strSlice (s : List UInt8) (a b : Nat) : Res (List UInt8) :=
  if a ≤ b ∧ b ≤ s.length ∧ isCharBoundary s a ∧ isCharBoundary s b then .ok ((s.drop a).take (b - a))
  else .error .sliceOutOfRange

/-- Value of an ASCII hex digit of either case. utils/src/format.rs:6. -/
def hexDigit? (c : UInt8) : Option Nat :=
  if 48 ≤ c.toNat ∧ c.toNat ≤ 57 then some (c.toNat - 48)
  else if 97 ≤ c.toNat ∧ c.toNat ≤ 102 then some (c.toNat - 87)
  else if 65 ≤ c.toNat ∧ c.toNat ≤ 70 then some (c.toNat - 55)
  else none

/-- `u8::from_str_radix(src, 16)` (Rust std) for sources of at most two bytes: a leading `+` is accepted if
something follows, `-` is not a digit of an unsigned type, every remaining byte must be a hex digit. utils/src/format.rs:6. -/
def u8FromStrRadix16 (src : List UInt8) : Option UInt8 :=
  match src with
  | [a] => (hexDigit? a).map UInt8.ofNat
  | [a, b] =>
    if a = 43 then (hexDigit? b).map UInt8.ofNat
    else match hexDigit? a, hexDigit? b with
      | some x, some y => some (UInt8.ofNat (16 * x + y))
      | _, _ => none
  | _ => none

/-- Loop of `decode_hex`: stops at the first parse error, panics on a bad slice. utils/src/format.rs:4-7. -/
def decodeHexLoop (s : List UInt8) : List Nat → Res (Option (List UInt8))
  | [] => .ok (some [])
  | i :: is => do
    let piece ← strSlice s i (i + 2)
    match u8FromStrRadix16 piece with
    | none => .ok none
    | some b => do
      match ← decodeHexLoop s is with
      | none => .ok none
      | some bs => .ok (some (b :: bs))

/-- `decode_hex`, utils/src/format.rs:3-8. `none` is `Err(ParseIntError)`. -/
def decodeHex (s : List UInt8) : Res (Option (List UInt8)) :=
  decodeHexLoop s ((List.range ((s.length + 1) / 2)).map (2 * ·))

/-- Lower-case hex digit of a number below 16. utils/src/format.rs:13. -/
def hexChar (n : Nat) : UInt8 := if n < 10 then UInt8.ofNat (48 + n) else UInt8.ofNat (87 + n)

/-- `encode_hex`, utils/src/format.rs:10-16 (`{:02x}` per byte); result as UTF-8 bytes. -/
def encodeHex (bs : List UInt8) : List UInt8 :=
  bs.flatMap fun b => [hexChar (b.toNat / 16), hexChar (b.toNat % 16)]

end Sia
