import Verif.Props.FeatureFiniteProps
import Verif.Props.LibmExamples

/-! C79 on concrete pictures and a concrete mathematical library. -/
namespace Sia
open FloatOps LawfulFloat

/-- The library with exact values rounded to nearest, and the usual results for NaN and infinities. -/
noncomputable def carefulLibm : Libm F64 :=
  { idealLibm with
    powf := fun x y => if x = .nan ∧ y ≠ .fin 0 then .nan else idealLibm.powf x y
    sqrt := fun x => if x = .nan then .nan else idealLibm.sqrt x
    hypot := fun x y =>
      match x, y with
      | .fin p, .fin q => idealLibm.hypot (.fin p) (.fin q)
      | _, _ => .nan }

theorem fin_ne_nan {x : F64} (h : fin x) : x ≠ .nan := by rintro rfl; exact h

theorem carefulLibm_lawful : carefulLibm.Lawful where
  powf x y k hx hy hk hb := by
    have e : carefulLibm.powf x y = idealLibm.powf x y := if_neg (fun h => fin_ne_nan hx h.1)
    rw [e]; exact idealLibm_lawful.powf x y k hx hy hk hb
  sqrt x hx h0 hb := by
    have e : carefulLibm.sqrt x = idealLibm.sqrt x := if_neg (fin_ne_nan hx)
    rw [e]; exact idealLibm_lawful.sqrt x hx h0 hb
  atan2 := idealLibm_lawful.atan2
  hypot x y hx hy h1 h2 := by
    have e : carefulLibm.hypot x y = idealLibm.hypot x y := by
      cases x with
      | nan => exact hx.elim
      | inf _ => exact hx.elim
      | fin p =>
        cases y with
        | nan => exact hy.elim
        | inf _ => exact hy.elim
        | fin q => rfl
    rw [e]; exact idealLibm_lawful.hypot x y hx hy h1 h2
  exp := idealLibm_lawful.exp
  cos := idealLibm_lawful.cos
  sin := idealLibm_lawful.sin

/-- `C79`: the contract about numbers that are lost can be met together with the contract of C65. -/
theorem carefulLibm_special : carefulLibm.Special where
  powf_nan y hy := if_pos ⟨rfl, hy⟩
  sqrt_nan := by simp [carefulLibm]
  hypot_lost x y hx hy := by
    cases x with
    | fin q => exact (not_lost_fin q hx).elim
    | nan => cases y <;> exact lost_nan
    | inf s => cases y <;> exact lost_nan
  hypot_fin x y hx hy := by
    have key : ∀ r : ℝ, |r| ≤ 2 ^ 501 → ∃ z, roundF64 r = .fin z := by
      intro r hr
      have hq := nearQ_spec r
      have hqa : |(nearQ r : ℝ)| ≤ |r| + 1 / 2 ^ 255 := by
        have := abs_add_le ((nearQ r : ℝ) - r) r
        rw [sub_add_cancel] at this
        linarith
      have h1 : (1 : ℝ) / 2 ^ 255 ≤ 2 ^ 501 := by
        refine le_trans (b := 1) ?_ (one_le_pow₀ (by norm_num))
        rw [div_le_one (by positivity)]
        exact one_le_pow₀ (by norm_num)
      have h2 : |(nearQ r : ℝ)| ≤ 2 ^ 502 := by
        have e : (2 : ℝ) ^ 502 = 2 ^ 501 + 2 ^ 501 := by rw [pow_succ (2 : ℝ) 501, mul_two]
        rw [e]
        exact hqa.trans (add_le_add hr h1)
      have h3 : |nearQ r| ≤ (2 : ℚ) ^ 502 := by exact_mod_cast h2
      obtain ⟨z, hz, _⟩ := ofRat_within (isDouble_two_pow 502 (by norm_num)) h3
      exact ⟨z, hz⟩
    refine key _ ?_
    rw [abs_of_nonneg (norm_nonneg _)]
    have h1 := Complex.norm_le_abs_re_add_abs_im (⟨val (F64.fin x), val (F64.fin y)⟩ : ℂ)
    have hx' : |((x : ℚ) : ℝ)| ≤ 2 ^ 500 := by exact_mod_cast hx
    have hy' : |((y : ℚ) : ℝ)| ≤ 2 ^ 500 := by exact_mod_cast hy
    have e : (2 : ℝ) ^ 501 = 2 ^ 500 + 2 ^ 500 := by rw [pow_succ (2 : ℝ) 500, mul_two]
    rw [e]
    exact h1.trans (add_le_add hx' hy')

/-- 85 features of a 2 x 2 picture are finite. -/
example : ∃ fs, zernikeFeaturesF carefulLibm cornerImage 85 = .ok fs ∧ fs.length = 85 ∧ ∀ f ∈ fs, ∃ x : ℚ, f = .fin x :=
  features_finite _ carefulLibm_lawful carefulLibm_special _ _ (by decide) le_rfl le_rfl (by decide) le_rfl (by decide)

/-- 86 are not. -/
example : ∃ fs, zernikeFeaturesF carefulLibm cornerImage 86 = .ok fs ∧ fs.length = 86 ∧ ∀ f ∈ fs, f.Lost :=
  many_features_lost _ carefulLibm_special _ _ le_rfl (by norm_num) le_rfl (by decide)

/-- Nor is the one feature of a picture with a single pixel. -/
example : ∃ fs, zernikeFeaturesF carefulLibm ⟨1, 1, fun _ _ => 200⟩ 1 = .ok fs ∧ fs.length = 1 ∧ ∀ f ∈ fs, f.Lost :=
  single_pixel_lost _ carefulLibm_special _ _ le_rfl (by norm_num) rfl rfl

/-- Nor those of a picture without pixels. -/
example : ∃ fs, zernikeFeaturesF carefulLibm ⟨7, 0, fun _ _ => 200⟩ 4 = .ok fs ∧ fs.length = 4 ∧ ∀ f ∈ fs, f.Lost :=
  empty_picture_lost _ carefulLibm_special _ _ (by decide) (by norm_num) rfl

end Sia
