import Verif.Model.ZernikeFloat
import Verif.Spec.LawfulFloat
import Verif.Model.Watermarking

/-! What is assumed of the mathematical library (C65–C67): an error of at most one unit in the last place, which every common
`libm` guarantees. Angles are only required modulo full turns, because the two zeros are identified (`atan2(-0.0, -1.0) = -π`). -/
namespace Sia
open LawfulFloat

/-- One unit in the last place, relative. -/
noncomputable def ulp : ℝ := 1 / 2 ^ 52

/-- Exactness of the four operations when the exact result is a whole number of at most 53 bits. -/
class IntExact (F : Type) [FloatOps F] [LawfulFloat F] : Prop where
  add_int : ∀ (a b : F) (n : ℤ), fin a → fin b → |n| ≤ 2 ^ 53 → val a + val b = n → val (FloatOps.add a b) = n
  sub_int : ∀ (a b : F) (n : ℤ), fin a → fin b → |n| ≤ 2 ^ 53 → val a - val b = n → val (FloatOps.sub a b) = n
  mul_int : ∀ (a b : F) (n : ℤ), fin a → fin b → |n| ≤ 2 ^ 53 → val a * val b = n → val (FloatOps.mul a b) = n
  div_int : ∀ (a b : F) (n : ℤ), fin a → fin b → val b ≠ 0 → |n| ≤ 2 ^ 53 → val a / val b = n → val (FloatOps.div a b) = n

/-- Contract of the mathematical library. -/
structure Libm.Lawful {F : Type} [FloatOps F] [LawfulFloat F] (M : Libm F) : Prop where
  powf : ∀ (x y : F) (k : ℕ), fin x → fin y → val y = k → |val x| ^ k ≤ 2 ^ 100 →
    fin (M.powf x y) ∧ |val (M.powf x y) - val x ^ k| ≤ ulp * (|val x| ^ k + omega)
  sqrt : ∀ x : F, fin x → 0 ≤ val x → val x ≤ 2 ^ 200 →
    fin (M.sqrt x) ∧ |val (M.sqrt x) - Real.sqrt (val x)| ≤ ulp * (Real.sqrt (val x) + omega)
  atan2 : ∀ y x : F, fin y → fin x → ¬ (val y = 0 ∧ val x = 0) →
    fin (M.atan2 y x) ∧ |val (M.atan2 y x)| ≤ 4 ∧
      ∃ turns : ℤ, |val (M.atan2 y x) - (Complex.arg ⟨val x, val y⟩ + 2 * Real.pi * turns)| ≤ ulp * 4
  hypot : ∀ x y : F, fin x → fin y → |val x| ≤ 2 ^ 100 → |val y| ≤ 2 ^ 100 →
    fin (M.hypot x y) ∧ |val (M.hypot x y) - ‖(⟨val x, val y⟩ : ℂ)‖| ≤ ulp * (‖(⟨val x, val y⟩ : ℂ)‖ + omega)
  exp : ∀ x : F, fin x → |val x| ≤ 1 → fin (M.exp x) ∧ |val (M.exp x) - Real.exp (val x)| ≤ ulp * Real.exp (val x)
  cos : ∀ x : F, fin x → |val x| ≤ 2 ^ 20 → fin (M.cos x) ∧ |val (M.cos x) - Real.cos (val x)| ≤ ulp
  sin : ∀ x : F, fin x → |val x| ≤ 2 ^ 20 → fin (M.sin x) ∧ |val (M.sin x) - Real.sin (val x)| ≤ ulp

/-- The moments of the pipeline are the ones the code computes with the mathematical library `M` (C66). -/
def Deps.Computed {F : Type} [FloatOps F] (D : Deps F) (M : Libm F) : Prop :=
  ∀ order index image w, zernikeMomentF M order index image = .ok w → D.momentAbs order index image = M.hypot w.1 w.2

end Sia
