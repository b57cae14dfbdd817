import Verif.Props.FloatIeee
import Verif.Model.Utils
import Mathlib.Data.EReal.Inv

/-! The arithmetic of `F64` on infinities and NaN is that of the extended real numbers, with NaN where IEEE 754 asks for it. -/
namespace Sia

/-- The extended real number a double stands for; NaN stands for none. -/
noncomputable def F64.value : F64 → Option EReal
  | .nan => none
  | .inf true => some ⊥
  | .inf false => some ⊤
  | .fin x => some (((x : ℝ)) : EReal)

/-- Infinite. -/
def IsInfinite (x : EReal) : Prop := x = ⊤ ∨ x = ⊥

/-- Arithmetic with NaN gives NaN; comparisons with NaN are false. -/
theorem f64_nan (a b : F64) (h : a.value = none ∨ b.value = none) :
    F64.add a b = .nan ∧ F64.sub a b = .nan ∧ F64.mul a b = .nan ∧ F64.div a b = .nan ∧ F64.ge a b = false ∧ F64.lt a b = false := by
  rcases a with _ | s | x <;> rcases b with _ | t | y <;> rcases h with h | h <;> (try cases s) <;> (try cases t) <;>
    simp_all [F64.value, F64.add, F64.sub, F64.neg, F64.mul, F64.div, F64.ge, F64.lt]

/-- Comparisons are those of the extended real numbers. -/
theorem f64_compare (a b : F64) (x y : EReal) (ha : a.value = some x) (hb : b.value = some y) :
    (F64.ge a b = true ↔ y ≤ x) ∧ (F64.lt a b = true ↔ x < y) := by
  rcases a with _ | s | p <;> rcases b with _ | t | q <;> (try cases s) <;> (try cases t) <;>
    simp only [F64.value, Option.some.injEq, reduceCtorEq] at ha hb <;> subst ha <;> subst hb <;>
    simp [F64.ge, F64.lt, EReal.coe_le_coe_iff, EReal.coe_lt_coe_iff]

/-- Addition and subtraction with an infinite operand: NaN for opposite infinities, otherwise the sum of extended real numbers. -/
theorem f64_add_infinite (a b : F64) (x y : EReal) (ha : a.value = some x) (hb : b.value = some y) (h : IsInfinite x ∨ IsInfinite y) :
    (F64.add a b = .nan ↔ (x = ⊤ ∧ y = ⊥) ∨ (x = ⊥ ∧ y = ⊤)) ∧ (F64.add a b ≠ .nan → (F64.add a b).value = some (x + y)) := by
  unfold IsInfinite at h
  rcases a with _ | s | p <;> rcases b with _ | t | q <;> (try cases s) <;> (try cases t) <;>
    simp only [F64.value, Option.some.injEq, reduceCtorEq] at ha hb <;> subst ha <;> subst hb <;>
    simp_all [F64.add, F64.value]

theorem f64_sub_infinite (a b : F64) (x y : EReal) (ha : a.value = some x) (hb : b.value = some y) (h : IsInfinite x ∨ IsInfinite y) :
    (F64.sub a b = .nan ↔ (x = ⊤ ∧ y = ⊤) ∨ (x = ⊥ ∧ y = ⊥)) ∧ (F64.sub a b ≠ .nan → (F64.sub a b).value = some (x - y)) := by
  unfold IsInfinite at h
  rcases a with _ | s | p <;> rcases b with _ | t | q <;> (try cases s) <;> (try cases t) <;>
    simp only [F64.value, Option.some.injEq, reduceCtorEq] at ha hb <;> subst ha <;> subst hb <;>
    simp_all [F64.sub, F64.neg, F64.add, F64.value]

/-- Multiplication with an infinite operand: NaN for zero times infinity, otherwise the product of extended real numbers. -/
theorem f64_mul_infinite (a b : F64) (x y : EReal) (ha : a.value = some x) (hb : b.value = some y) (h : IsInfinite x ∨ IsInfinite y) :
    (F64.mul a b = .nan ↔ x = 0 ∨ y = 0) ∧ (F64.mul a b ≠ .nan → (F64.mul a b).value = some (x * y)) := by
  have key : ∀ r : ℚ, r ≠ 0 → (0 < (r : ℝ) ∧ ¬ r < 0) ∨ ((r : ℝ) < 0 ∧ r < 0) := by
    intro r hr
    rcases lt_or_gt_of_ne hr with h | h
    · exact Or.inr ⟨by exact_mod_cast h, h⟩
    · exact Or.inl ⟨by exact_mod_cast h, not_lt.mpr h.le⟩
  unfold IsInfinite at h
  rcases a with _ | s | p <;> rcases b with _ | t | q <;> (try cases s) <;> (try cases t) <;>
    simp only [F64.value, Option.some.injEq, reduceCtorEq] at ha hb <;> subst ha <;> subst hb
  case fin.fin => simp at h
  case inf.fin.false | inf.fin.true =>
    by_cases hq : q = 0
    · subst hq; simp [F64.mul]
    · rcases key q hq with ⟨h1, h2⟩ | ⟨h1, h2⟩ <;>
        simp [F64.mul, hq, h2, F64.value, EReal.top_mul_coe_of_pos, EReal.top_mul_coe_of_neg, EReal.bot_mul_coe_of_pos,
          EReal.bot_mul_coe_of_neg, h1]
  case fin.inf.false | fin.inf.true =>
    by_cases hq : p = 0
    · subst hq; simp [F64.mul]
    · rcases key p hq with ⟨h1, h2⟩ | ⟨h1, h2⟩ <;>
        simp [F64.mul, hq, h2, F64.value, EReal.coe_mul_top_of_pos, EReal.coe_mul_top_of_neg, EReal.coe_mul_bot_of_pos,
          EReal.coe_mul_bot_of_neg, h1]
  all_goals simp [F64.mul, F64.value]

/-- Division with an infinite operand or by zero: NaN for two infinities and for two zeros; an infinite dividend gives the infinity of
the sign (of the dividend, if the divisor is zero); an infinite divisor gives zero; a finite number other than zero, divided by zero,
gives the infinity of its sign. -/
theorem f64_div_special (a b : F64) (x y : EReal) (ha : a.value = some x) (hb : b.value = some y)
    (h : IsInfinite x ∨ IsInfinite y ∨ y = 0) :
    (F64.div a b = .nan ↔ (IsInfinite x ∧ IsInfinite y) ∨ (x = 0 ∧ y = 0)) ∧
    (F64.div a b ≠ .nan → (F64.div a b).value = some (if y = 0 then (if 0 < x then ⊤ else ⊥) else x / y)) := by
  have key : ∀ r : ℚ, r ≠ 0 → (0 < (r : ℝ) ∧ ¬ r < 0) ∨ ((r : ℝ) < 0 ∧ r < 0) := by
    intro r hr
    rcases lt_or_gt_of_ne hr with h | h
    · exact Or.inr ⟨by exact_mod_cast h, h⟩
    · exact Or.inl ⟨by exact_mod_cast h, not_lt.mpr h.le⟩
  unfold IsInfinite at *
  rcases a with _ | s | p <;> rcases b with _ | t | q <;> (try cases s) <;> (try cases t) <;>
    simp only [F64.value, Option.some.injEq, reduceCtorEq] at ha hb <;> subst ha <;> subst hb
  case fin.fin =>
    have hq : q = 0 := by simpa using h
    subst hq
    by_cases hp : p = 0
    · subst hp; simp [F64.div]
    · rcases key p hp with ⟨h1, h2⟩ | ⟨h1, h2⟩
      · simp [F64.div, hp, h2, F64.value, h1]
      · simp [F64.div, hp, h2, F64.value, not_lt.mpr h1.le]
  case inf.fin.false | inf.fin.true =>
    by_cases hq : q = 0
    · subst hq; simp [F64.div, F64.value]
    · rcases key q hq with ⟨h1, h2⟩ | ⟨h1, h2⟩
      · simp [F64.div, hq, h2, F64.value, EReal.top_div_of_pos_ne_top, EReal.bot_div_of_pos_ne_top, h1]
      · simp [F64.div, hq, h2, F64.value, EReal.top_div_of_neg_ne_bot, EReal.bot_div_of_neg_ne_bot, h1]
  all_goals simp [F64.div, F64.value, EReal.div_top, EReal.div_bot]

example : F64.mul (.inf true) (.inf true) = .inf false ∧ F64.mul (.inf true) (.fin 0) = .nan ∧ F64.div (.fin 1) (.inf true) = .fin 0 ∧
    F64.sub (.inf false) (.inf false) = .nan := by decide

end Sia
