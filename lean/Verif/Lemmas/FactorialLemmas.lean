import Verif.Model.Zernike
import Verif.Lemmas.CellLemmas
import Mathlib.Data.Nat.Factorial.Basic

/-! Lemmas about the model of `factorial` and of the radial function. -/
namespace Sia

theorem roundAway_intCast (z : ℤ) : roundAway (z : ℝ) = z := roundAway_eq _ z (by simp)

theorem factorialFuel_int (fuel : Nat) (z : ℤ) : factorialFuel (fuel + 1) (z : ℝ) =
    if z = 0 ∨ z = 1 then some 1 else (factorialFuel fuel ((z - 1 : ℤ) : ℝ)).map (· * (z : ℝ)) := by
  conv_lhs => unfold factorialFuel
  rw [if_neg (by simp), roundAway_intCast]
  have h : (clampZ (-(2 ^ 63)) (2 ^ 63 - 1) z = 0 ∨ clampZ (-(2 ^ 63)) (2 ^ 63 - 1) z = 1) ↔ (z = 0 ∨ z = 1) := by
    unfold clampZ; split_ifs <;> omega
  simp only [h]
  push_cast
  rfl

theorem factorialFuel_mono : ∀ (fuel : Nat) (x r : ℝ), factorialFuel fuel x = some r → factorialFuel (fuel + 1) x = some r := by
  intro fuel
  induction fuel with
  | zero => intro x r h; simp [factorialFuel] at h
  | succ fuel ih =>
    intro x r h
    unfold factorialFuel at h ⊢
    split_ifs at h ⊢ with h1
    · exact h
    · dsimp only at h ⊢
      split_ifs at h ⊢ with h2
      · exact h
      · rw [Option.map_eq_some_iff] at h ⊢
        obtain ⟨a, ha, rfl⟩ := h
        exact ⟨a, ih _ _ ha, rfl⟩

theorem factorialFuel_mono_le {a b : Nat} (h : a ≤ b) (x r : ℝ) (hr : factorialFuel a x = some r) : factorialFuel b x = some r := by
  induction h with
  | refl => exact hr
  | step _ ih => exact factorialFuel_mono _ _ _ ih

theorem factorial_of_fuel (fuel : Nat) (x r : ℝ) (h : factorialFuel fuel x = some r) : factorial x = .ok r := by
  unfold factorial
  have hex : ∃ r fuel, factorialFuel fuel x = some r := ⟨r, fuel, h⟩
  rw [dif_pos hex]
  congr 1
  obtain ⟨fuel', h'⟩ := hex.choose_spec
  have h1 := factorialFuel_mono_le (le_max_left fuel fuel') _ _ h
  have h2 := factorialFuel_mono_le (le_max_right fuel fuel') _ _ h'
  rw [h1] at h2
  exact (Option.some.inj h2).symm

theorem factorialFuel_nat : ∀ n : Nat, factorialFuel (n + 1) (n : ℝ) = some (n.factorial : ℝ) := by
  intro n
  induction n with
  | zero =>
    have := factorialFuel_int 0 0
    simpa using this
  | succ n ih =>
    have := factorialFuel_int (n + 1) ((n + 1 : ℕ) : ℤ)
    rw [show (((n + 1 : ℕ) : ℤ) : ℝ) = ((n + 1 : ℕ) : ℝ) by norm_cast] at this
    rw [this]
    rw [show ((((n + 1 : ℕ) : ℤ) - 1 : ℤ) : ℝ) = (n : ℝ) by push_cast; ring, ih]
    by_cases hn : n = 0
    · subst hn; simp
    · rw [if_neg (by omega), Option.map_some, Nat.factorial_succ]
      push_cast
      congr 1; ring

theorem factorialFuel_neg : ∀ (fuel : Nat) (z : ℤ), z < 0 → factorialFuel fuel (z : ℝ) = none := by
  intro fuel
  induction fuel with
  | zero => intro z _; rfl
  | succ fuel ih =>
    intro z hz
    rw [factorialFuel_int, if_neg (by omega), ih (z - 1) (by omega)]
    rfl

theorem factorial_nat (n : Nat) : factorial (n : ℝ) = .ok (n.factorial : ℝ) := factorial_of_fuel _ _ _ (factorialFuel_nat n)

theorem factorial_eq_nat (x : ℝ) (n : Nat) (h : x = n) : factorial x = .ok (n.factorial : ℝ) := by rw [h]; exact factorial_nat n

end Sia
