/-
`f64` arithmetic. All numeric model code is written over `FloatOps`; the instances are `ℝ`
(ideal arithmetic, Verif/Model/FloatReal.lean) and `F64` (IEEE binary64, below).
-/
import Mathlib.Data.Rat.Floor
import Mathlib.Data.Int.Log

namespace Sia

/-- The `f64` operations used by the code in /repo. lib/sia/rust/**/*.rs. -/
class FloatOps (F : Type) where
  /-- integer `as f64` -/
  ofInt : ℤ → F
  /-- a literal -/
  lit : ℚ → F
  add : F → F → F
  sub : F → F → F
  mul : F → F → F
  div : F → F → F
  /-- `f64::round`: nearest integer, halves away from zero -/
  round : F → F
  /-- `f64::floor` -/
  floor : F → F
  /-- `a >= b` -/
  ge : F → F → Bool
  /-- `x as <integer type with range lo..=hi>`: truncation, saturating, NaN to 0 -/
  truncSat : (lo hi : ℤ) → F → ℤ
  /-- `std::f64::consts::FRAC_1_SQRT_2` -/
  frac1Sqrt2 : F

/-- Nearest integer, halves away from zero, on any ordered field with floor.
embedding/src/lib.rs:54; embedding/src/io/steganography.rs:66-67, 137-141. -/
def roundAway {K : Type} [Field K] [LinearOrder K] [FloorRing K] (x : K) : ℤ :=
  if 0 ≤ x then ⌊x + 1 / 2⌋ else ⌈x - 1 / 2⌉

/-- Truncation towards zero. `as` casts, embedding/src/lib.rs:54; three-bit-quantization/src/lib.rs:39-44. -/
def truncZ {K : Type} [Field K] [LinearOrder K] [FloorRing K] (x : K) : ℤ :=
  if 0 ≤ x then ⌊x⌋ else ⌈x⌉

/-- Clamp an integer into `lo..=hi`. `as` casts, embedding/src/lib.rs:54; three-bit-quantization/src/lib.rs:39-44. -/
def clampZ (lo hi z : ℤ) : ℤ := if z < lo then lo else if hi < z then hi else z

/-- Nearest integer, halves to even. All `f64` arithmetic of lib/sia/rust/**/*.rs. -/
def rneInt (x : ℚ) : ℤ :=
  let f := ⌊x⌋
  if x - f < 1 / 2 then f
  else if 1 / 2 < x - f then f + 1
  else if f % 2 = 0 then f else f + 1

/-- Exponent of the unit in the last place of binary64 at magnitude `|x|` (subnormals: `-1074`).
All `f64` arithmetic of lib/sia/rust/**/*.rs. -/
def ulpExp (x : ℚ) : ℤ := max (Int.log 2 |x| - 52) (-1074)

/-- IEEE 754 binary64 round-to-nearest-even, before the overflow check. All `f64` arithmetic of lib/sia/rust/**/*.rs. -/
def rne64 (x : ℚ) : ℚ :=
  if x = 0 then 0 else (rneInt (x / (2 : ℚ) ^ ulpExp x) : ℚ) * (2 : ℚ) ^ ulpExp x

/-- IEEE binary64 data. Simplification: the two zeros are identified (no code in /repo distinguishes
them except by dividing by a zero depth or step) and NaN payloads are dropped. All `f64` values of lib/sia/rust/**/*.rs. -/
inductive F64 where
  | nan
  | inf (neg : Bool)
  | fin (x : ℚ)
  deriving DecidableEq, Repr

namespace F64

/-- Round an exact result to binary64, overflowing to infinity. All `f64` arithmetic of lib/sia/rust/**/*.rs. -/
def ofRat (x : ℚ) : F64 :=
  let r := rne64 x
  if (2 : ℚ) ^ (1024 : ℕ) ≤ |r| then inf (decide (x < 0)) else fin r

/-- `f64` negation, lib/sia/rust/**/*.rs. -/
def neg : F64 → F64
  | nan => nan
  | inf s => inf (!s)
  | fin x => fin (-x)

/-- `f64` addition, lib/sia/rust/**/*.rs. -/
def add : F64 → F64 → F64
  | fin a, fin b => ofRat (a + b)
  | inf s, inf t => if s = t then inf s else nan
  | inf s, fin _ => inf s
  | fin _, inf t => inf t
  | nan, _ => nan
  | _, nan => nan

/-- `f64` subtraction, lib/sia/rust/**/*.rs. -/
def sub (a b : F64) : F64 := add a (neg b)

/-- `f64` multiplication, lib/sia/rust/**/*.rs. -/
def mul : F64 → F64 → F64
  | fin a, fin b => ofRat (a * b)
  | inf s, inf t => inf (s != t)
  | inf s, fin b => if b = 0 then nan else inf (s != decide (b < 0))
  | fin a, inf t => if a = 0 then nan else inf (decide (a < 0) != t)
  | nan, _ => nan
  | _, nan => nan

/-- `f64` division, lib/sia/rust/**/*.rs. -/
def div : F64 → F64 → F64
  | fin a, fin b => if b = 0 then (if a = 0 then nan else inf (decide (a < 0))) else ofRat (a / b)
  | inf _, inf _ => nan
  | inf s, fin b => inf (s != decide (b < 0))
  | fin _, inf _ => fin 0
  | nan, _ => nan
  | _, nan => nan

/-- The integer part of a binary64 is representable, so `round` and `floor` are exact. embedding/src/lib.rs:54. -/
def round : F64 → F64
  | fin x => fin (roundAway x)
  | y => y

/-- `f64::floor`, three-bit-quantization/src/lib.rs:39-44. -/
def floor : F64 → F64
  | fin x => fin ⌊x⌋
  | y => y

/-- `>=` on `f64`, three-bit-quantization/src/lib.rs:53-64. -/
def ge : F64 → F64 → Bool
  | fin a, fin b => decide (b ≤ a)
  | inf s, inf t => !s || t
  | inf s, fin _ => !s
  | fin _, inf t => t
  | nan, _ => false
  | _, nan => false

/-- `as` casts from `f64`, embedding/src/lib.rs:54; three-bit-quantization/src/lib.rs:39-44. -/
def truncSat (lo hi : ℤ) : F64 → ℤ
  | nan => 0
  | inf s => if s then lo else hi
  | fin x => clampZ lo hi (truncZ x)

/-- The operations of lib/sia/rust/**/*.rs on `f64`. -/
instance : FloatOps F64 where
  ofInt n := ofRat n
  lit q := ofRat q
  add := add
  sub := sub
  mul := mul
  div := div
  round := round
  floor := floor
  ge := ge
  truncSat := truncSat
  -- 0x3FE6A09E667F3BCD = 6369051672525773 * 2^-53
  frac1Sqrt2 := fin (6369051672525773 / 9007199254740992)

end F64
end Sia
