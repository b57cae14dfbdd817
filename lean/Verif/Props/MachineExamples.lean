import Verif.Props.MachineProps
import Verif.Props.PixelFloatExamples

/-! C75 on a concrete picture. -/
namespace Sia

theorem roundF64_nonneg (x : ℝ) (hx : 0 ≤ x) : FloatOps.ge (roundF64 x) (.fin 0) = true := by
  have h := (exists_rat_btwn (show x < x + 1 / 2 ^ 255 by have : (0 : ℝ) < 1 / 2 ^ 255 := by positivity
                                                          linarith)).choose_spec
  change x < (nearQ x : ℝ) ∧ (nearQ x : ℝ) < x + 1 / 2 ^ 255 at h
  have hq : 0 ≤ nearQ x := by
    have : (0 : ℝ) < (nearQ x : ℝ) := lt_of_le_of_lt hx h.1
    exact_mod_cast this.le
  show F64.ge (F64.ofRat (nearQ x)) (.fin 0) = true
  unfold F64.ofRat
  dsimp only
  split_ifs
  · have : decide (nearQ x < 0) = false := decide_eq_false (by linarith)
    rw [this]; rfl
  · exact decide_eq_true (rne64_nonneg _ hq)

theorem computedDouble_moduli : Deps.computedDouble.Moduli := by
  intro order index image
  show (match zernikeMomentF idealLibm order index image with | .ok w => idealLibm.hypot w.1 w.2 | .error _ => F64.nan) = .nan ∨
    FloatOps.ge (match zernikeMomentF idealLibm order index image with | .ok w => idealLibm.hypot w.1 w.2 | .error _ => F64.nan) (.fin 0) = true
  cases zernikeMomentF idealLibm order index image with
  | error e => exact .inl rfl
  | ok w => exact .inr (roundF64_nonneg _ (norm_nonneg _))

theorem fits_512 (T : Target) (hT : T.Valid) : FitsSquare T 512 512 := by
  have := two_pow_le_bits T hT 32 le_rfl
  exact ⟨⟨by norm_num, by norm_num, by norm_num, by omega⟩, by omega⟩

/-- C75 on a concrete picture: in every build, on every target, the channel is marked, to the same bytes, and authenticates. -/
theorem splitChannel_every_build : ∃ out, ∀ T : Target, T.Valid →
    T.watermarkChannel Deps.computedDouble splitChannel (.fin 50) (.fin 10000) 1 3 = .ok out ∧
    T.authenticateChannel Deps.computedDouble out (.fin 50) (.fin 10000) 1 3 = .ok true := by
  obtain ⟨out, h1, h2, h3⟩ := splitChannel_authenticates
  refine ⟨out, fun T hT => ?_⟩
  have hs : FloatOps.ge (F64.fin 10000) (.fin 0) = true := by decide +kernel
  have key : ∀ c : GrayImage, c.IsSquare 512 → FitsSquare T c.width c.height := by
    intro c hc
    rw [hc.1, hc.2.1]
    exact fits_512 T hT
  obtain ⟨_, _, a3, _⟩ := builds_agree T T hT hT _ computedDouble_moduli splitChannel (.fin 50) (.fin 10000) hs 1 3
    (key _ splitChannel_square) (key _ splitChannel_square) (by norm_num) (by norm_num)
  obtain ⟨_, _, _, a4⟩ := builds_agree T T hT hT _ computedDouble_moduli out (.fin 50) (.fin 10000) hs 1 3
    (key _ h2) (key _ h2) (by norm_num) (by norm_num)
  exact ⟨(a3 out).2 h1, (a4 true).2 (h3 out h2 ⟨⟨h2.1, h2.2.1⟩, fun i _ j _ => by simp⟩)⟩

end Sia
