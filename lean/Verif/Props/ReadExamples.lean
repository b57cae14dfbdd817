import Verif.Props.ReadProps
import Verif.Props.LibmExamples

/-! C86, C87: the hypotheses on the mathematical library and on the pictures can be met. -/
namespace Sia
open FloatOps LawfulFloat

/-- The exact library rounded to nearest never returns a negative modulus. -/
theorem idealLibm_moduli (x y : F64) : idealLibm.hypot x y = .nan ∨ FloatOps.ge (idealLibm.hypot x y) (.fin 0) = true := by
  right
  have h := (exists_rat_btwn (show ‖(⟨val x, val y⟩ : ℂ)‖ < ‖(⟨val x, val y⟩ : ℂ)‖ + 1 / 2 ^ 255 by
    have : (0 : ℝ) < 1 / 2 ^ 255 := by positivity
    linarith)).choose_spec
  have hq : (0 : ℝ) < (nearQ ‖(⟨val x, val y⟩ : ℂ)‖ : ℝ) := lt_of_le_of_lt (norm_nonneg _) h.1
  have hq' : (0 : ℚ) < nearQ ‖(⟨val x, val y⟩ : ℂ)‖ := by exact_mod_cast hq
  show F64.ge (F64.ofRat (nearQ ‖(⟨val x, val y⟩ : ℂ)‖)) (F64.fin 0) = true
  generalize nearQ ‖(⟨val x, val y⟩ : ℂ)‖ = r at hq'
  have hr := rne64_nonneg r hq'.le
  unfold F64.ofRat
  dsimp only
  split_ifs with hbig
  · rw [decide_eq_false (not_lt.mpr hq'.le)]
    rfl
  · simpa [F64.ge] using hr

/-- With that library, a picture that is marked into itself and accepted. -/
example : ∃ c : GrayImage, c.IsSquare 512 ∧ watermarkChannel (Deps.program idealLibm) c (.fin 100) (.fin 1) 11 3 = .ok c ∧
    authenticateChannel (Deps.program idealLibm) c (.fin 100) (.fin 1) 11 3 = .ok true := by
  obtain ⟨c, h1, _, _, h4⟩ := self_marking_picture
  obtain ⟨a, b, _⟩ := h4 idealLibm idealLibm_lawful idealLibm_moduli
  exact ⟨c, h1, a, b⟩

/-- The flat picture of level 128 can be turned into an accepted one. -/
example : ∃ x : GrayImage, x.IsSquare 512 ∧
    (∀ i < 512, ∀ j < 512, |((x.pixels.get i j).toNat : ℤ) - 128| ≤ 9) ∧
    authenticateChannel (Deps.program idealLibm) x (.fin 100) (.fin 1) 11 3 = .ok true := by
  have e : (128 : UInt8).toNat = 128 := by decide
  obtain ⟨x, h1, _, h3, h4⟩ := symmetric_pictures_forgeable (flatChannel 128) (flatChannel_square 128)
    (fun i hi j hj => by rw [flatChannel_pixels _ _ _ (by omega) (by omega), flatChannel_pixels _ _ _ hi hj])
    (fun i hi j hj => by rw [flatChannel_pixels _ _ _ hi hj, e]; omega)
  refine ⟨x, h1, fun i hi j hj => ?_, h4 idealLibm idealLibm_lawful idealLibm_moduli⟩
  have := h3 i hi j hj
  rw [flatChannel_pixels _ _ _ hi hj, e] at this
  exact this

end Sia
