import Verif.Model.Basic
import Verif.Model.Float

/-! Model of `lib/sia/rust/utils/src/pseudo_random.rs`, in IEEE binary64. -/
namespace Sia

/-- The `%` operator on `f64`: the exact remainder, with the sign of the dividend. utils/src/pseudo_random.rs:23. -/
def F64.rem : F64 → F64 → F64
  | .fin a, .fin b => if b = 0 then .nan else .fin (a - b * (truncZ (a / b) : ℤ))
  | .fin a, .inf _ => .fin a
  | _, _ => .nan

/-- `PseudoRandom`, pseudo_random.rs:7-9. `seed` is a `usize`. -/
structure PseudoRandom where
  seed : Nat
  deriving DecidableEq, Repr

/-- `seed`, pseudo_random.rs:12-14. -/
def PseudoRandom.reseed (_ : PseudoRandom) (n : Nat) : PseudoRandom := ⟨n⟩

/-- `generate_unit`, pseudo_random.rs:20-24: the number and the generator afterwards. Adding 1 to `usize::MAX` overflows: a
panic in debug builds (a release build would wrap around to 0). -/
def PseudoRandom.generateUnit (g : PseudoRandom) : Res (F64 × PseudoRandom) :=
  if g.seed + 1 < 2 ^ 64 then
    let a : F64 := F64.mul (FloatOps.ofInt ((g.seed + 1 : ℕ) : ℤ)) (FloatOps.lit 15485863)
    .ok (F64.div (F64.rem (F64.mul (F64.mul a a) a) (FloatOps.lit 2038074743)) (FloatOps.lit 2038074743), ⟨g.seed + 1⟩)
  else .error .arithOverflow

/-- `generate`, pseudo_random.rs:16-18. -/
def PseudoRandom.generate (g : PseudoRandom) (lower upper : F64) : Res (F64 × PseudoRandom) := do
  let (u, g') ← g.generateUnit
  return (F64.add (F64.mul u (F64.sub upper lower)) lower, g')

/-- A sequence of `n` calls of `generate_unit`. utils/src/pseudo_random.rs:18-24. -/
def PseudoRandom.units (g : PseudoRandom) : Nat → Res (List F64 × PseudoRandom)
  | 0 => .ok ([], g)
  | n + 1 => do
    let (u, g') ← g.generateUnit
    let (us, g'') ← g'.units n
    return (u :: us, g'')

end Sia
