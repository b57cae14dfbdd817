import Verif.Model.Basic

/-! Model of `lib/sia/rust/utils/src/bytes.rs`. -/
namespace Sia

/-- `to_le_bytes` of a `k`-byte unsigned integer given by its value (Rust std). utils/src/bytes.rs:4, 23. -/
def leBytes : (k : Nat) → Nat → List UInt8
  | 0, _ => []
  | k + 1, n => UInt8.ofNat (n % 256) :: leBytes k (n / 256)

/-- `from_le_bytes` (Rust std), as the value of the unsigned integer. utils/src/bytes.rs:14, 33. -/
def leNat : List UInt8 → Nat
  | [] => 0
  | b :: bs => b.toNat + 256 * leNat bs

/-- The unsigned 64-bit pattern of an `i64` (two's complement). utils/src/bytes.rs:23. -/
def i64Pattern (z : Int) : Nat := (z % 2 ^ 64).toNat

/-- The `i64` with a given 64-bit pattern. utils/src/bytes.rs:33. -/
def i64OfPattern (n : Nat) : Int := if n < 2 ^ 63 then n else (n : Int) - 2 ^ 64

/-- `vec_u16_to_bytes`, utils/src/bytes.rs:1-9. A `u16` is given as `UInt16`. -/
def vecU16ToBytes (xs : List UInt16) : List UInt8 := xs.flatMap fun x => leBytes 2 x.toNat

/-- `vec_u16_from_bytes`, utils/src/bytes.rs:11-18: `chunks(2)`, `try_into().unwrap()` panics on a short chunk. -/
def vecU16FromBytes (bs : List UInt8) : Res (List UInt16) :=
  (chunks 2 bs).mapM fun c => if c.length = 2 then .ok (UInt16.ofNat (leNat c)) else .error .chunkLength

/-- `vec_i64_to_bytes`, utils/src/bytes.rs:20-28. An `i64` is an `Int` (meant to be in the `i64` range). -/
def vecI64ToBytes (xs : List Int) : List UInt8 := xs.flatMap fun x => leBytes 8 (i64Pattern x)

/-- `vec_i64_from_bytes`, utils/src/bytes.rs:30-37. -/
def vecI64FromBytes (bs : List UInt8) : Res (List Int) :=
  (chunks 8 bs).mapM fun c => if c.length = 8 then .ok (i64OfPattern (leNat c)) else .error .chunkLength

end Sia
