import Verif.Model.ZernikeFloat

/-! What "not a finite number" means, and what is assumed of the mathematical library about such numbers (C79): the rules of
IEEE 754 / C99 Annex F for NaN and infinities that every common `libm` follows. -/
namespace Sia

/-- NaN or an infinity. -/
def F64.Lost (x : F64) : Prop := ∀ q : ℚ, x ≠ .fin q

/-- NaN goes through `powf` (unless the exponent is zero) and `sqrt`; `hypot` of two numbers that are NaN or infinite is NaN or
infinite; `hypot` of two finite numbers is finite unless it overflows. -/
structure Libm.Special (M : Libm F64) : Prop where
  powf_nan : ∀ y : F64, y ≠ .fin 0 → M.powf .nan y = .nan
  sqrt_nan : M.sqrt .nan = .nan
  hypot_lost : ∀ x y : F64, x.Lost → y.Lost → (M.hypot x y).Lost
  hypot_fin : ∀ x y : ℚ, |x| ≤ 2 ^ 500 → |y| ≤ 2 ^ 500 → ∃ z, M.hypot (.fin x) (.fin y) = .fin z

end Sia
