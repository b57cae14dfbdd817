import Verif.Lemmas.FactorialLemmas
import Verif.Lemmas.Lists
import Verif.Spec.ZernikeSpec
import Verif.Spec.MatSpec

/-! The model of the Zernike code computes the specified moments. -/
namespace Sia
open Finset

/-- A fold that adds up. -/
theorem foldlM_add {α M : Type} [AddCommMonoid M] {g : M → α → Res M} {h : α → M} : ∀ (l : List α) (acc : M),
    (∀ a ∈ l, ∀ acc, g acc a = .ok (acc + h a)) → l.foldlM g acc = .ok (acc + (l.map h).sum) := by
  intro l
  induction l with
  | nil => intro acc _; simp [pure, Except.pure]
  | cons a l ih =>
    intro acc hh
    rw [List.foldlM_cons, hh a (by simp) acc]
    show l.foldlM g (acc + h a) = _
    rw [ih _ (fun b hb => hh b (by simp [hb])), List.map_cons, List.sum_cons, add_assoc]

theorem zf_ok (n m s : Nat) (r : ℝ) (hm : m ≤ n) (hp : (n - m) % 2 = 0) (hs : s ≤ (n - m) / 2) :
    zf n m s r = .ok (((n - s).factorial : ℝ) /
      ((s.factorial : ℝ) * (((n + m) / 2 - s).factorial : ℝ) * (((n - m) / 2 - s).factorial : ℝ)) * r ^ (n - 2 * s)) := by
  unfold zf
  have e1 : (n : ℝ) - s = ((n - s : ℕ) : ℝ) := by rw [Nat.cast_sub (by omega)]
  have e2 : ((n : ℝ) + m) / 2 - s = (((n + m) / 2 - s : ℕ) : ℝ) := by
    rw [Nat.cast_sub (by omega), Nat.cast_div (by omega) (by norm_num)]; push_cast; ring
  have e3 : ((n : ℝ) - m) / 2 - s = (((n - m) / 2 - s : ℕ) : ℝ) := by
    rw [Nat.cast_sub (by omega), Nat.cast_div (by omega) (by norm_num), Nat.cast_sub hm]; push_cast; ring
  rw [e1, e2, e3, factorial_nat, factorial_nat, factorial_nat, factorial_nat]
  simp only [bind, Except.bind, pure, Except.pure]
  congr 2
  have e4 : (((n : ℤ) - 2 * s : ℤ) : ℝ) = ((n - 2 * s : ℕ) : ℝ) := by
    rw [Nat.cast_sub (by omega)]; push_cast; ring
  split_ifs with h
  · have : n - 2 * s = 0 := by
      have h2 : (n : ℝ) = ((2 * s : ℕ) : ℝ) := by push_cast; linarith [h.2]
      have : n = 2 * s := by exact_mod_cast h2
      omega
    rw [this, pow_zero]
  · rw [e4, Real.rpow_natCast]

theorem coef_eq (n m s : Nat) (hm : m ≤ n) (hp : (n - m) % 2 = 0) (hs : s ≤ (n - m) / 2) :
    ((n - s).factorial : ℝ) /
      ((s.factorial : ℝ) * (((n + m) / 2 - s).factorial : ℝ) * (((n - m) / 2 - s).factorial : ℝ)) =
    ((n - s).choose s : ℝ) * ((n - 2 * s).choose ((n - m) / 2 - s) : ℝ) := by
  have c1 := Nat.choose_mul_factorial_mul_factorial (n := n - s) (k := s) (by omega)
  have c2 := Nat.choose_mul_factorial_mul_factorial (n := n - 2 * s) (k := (n - m) / 2 - s) (by omega)
  rw [show n - s - s = n - 2 * s by omega] at c1
  rw [show n - 2 * s - ((n - m) / 2 - s) = (n + m) / 2 - s by omega] at c2
  have f1 : (0 : ℝ) < (s.factorial : ℝ) := by exact_mod_cast Nat.factorial_pos _
  have f2 : (0 : ℝ) < (((n + m) / 2 - s).factorial : ℝ) := by exact_mod_cast Nat.factorial_pos _
  have f3 : (0 : ℝ) < (((n - m) / 2 - s).factorial : ℝ) := by exact_mod_cast Nat.factorial_pos _
  rw [div_eq_iff (by positivity)]
  have c1' : ((n - s).factorial : ℝ) = ((n - s).choose s : ℝ) * (s.factorial : ℝ) * ((n - 2 * s).factorial : ℝ) := by
    exact_mod_cast c1.symm
  have c2' : ((n - 2 * s).factorial : ℝ) = ((n - 2 * s).choose ((n - m) / 2 - s) : ℝ) * (((n - m) / 2 - s).factorial : ℝ) *
      (((n + m) / 2 - s).factorial : ℝ) := by exact_mod_cast c2.symm
  rw [c1', c2']
  ring

theorem radial_ok (n m : Nat) (r : ℝ) (hm : m ≤ n) (hp : (n - m) % 2 = 0) : radial n m r = .ok (zernikeRadial n m r) := by
  unfold radial
  have hlast : ⌊((n : ℝ) - m) / 2⌋.toNat = (n - m) / 2 := by
    have : ((n : ℝ) - m) / 2 = (((n - m) / 2 : ℕ) : ℝ) := by
      rw [Nat.cast_div (by omega) (by norm_num), Nat.cast_sub hm]; norm_num
    rw [this, Int.floor_natCast, Int.toNat_natCast]
  rw [hlast]
  dsimp only
  rw [foldlM_add (h := fun s : Nat => (-1 : ℝ) ^ (s : ℝ) * (((n - s).choose s : ℝ) * ((n - 2 * s).choose ((n - m) / 2 - s) : ℝ) * r ^ (n - 2 * s)))]
  · rw [zero_add]
    congr 1
    unfold zernikeRadial
    rw [Finset.sum_eq_multiset_sum]
    simp only [Finset.range_val, Multiset.range, Multiset.map_coe, Multiset.sum_coe]
    congr 1
    apply List.map_congr_left
    intro s _
    rw [Real.rpow_natCast]
    push_cast
    ring
  · intro s hs acc
    have hs' : s ≤ (n - m) / 2 := by have := List.mem_range.mp hs; omega
    rw [zf_ok n m s r hm hp hs', coef_eq n m s hm hp hs']
    rfl

/-- The polar coordinates of a pixel are those of its point. -/
theorem toPolar_eq (N i j : Nat) (hN : 2 ≤ N) :
    toPolar (((i + 1 : Nat) : ℝ)) (((j + 1 : Nat) : ℝ)) N = (‖pixelPoint N i j‖, Complex.arg (pixelPoint N i j)) := by
  have hN' : (1 : ℝ) < N := by exact_mod_cast hN
  have h2 : Real.sqrt 2 ≠ 0 := by positivity
  have hne : (N : ℝ) - 1 ≠ 0 := by linarith
  have hne' : (1 : ℝ) - N ≠ 0 := by linarith
  have hc : ∀ k : Nat, 1 / Real.sqrt 2 * (1 + (N : ℝ) - 2 * ((k + 1 : Nat) : ℝ)) / (1 - N) =
      (2 * (k : ℝ) - (N - 1)) / (Real.sqrt 2 * (N - 1)) := by
    intro k
    push_cast
    field_simp
    ring
  unfold toPolar
  dsimp only
  rw [hc i, hc j]
  unfold pixelPoint
  split_ifs with h
  · rw [h.1, h.2]
    have : (⟨0, 0⟩ : ℂ) = 0 := rfl
    rw [this]; simp
  · rw [Complex.norm_eq_sqrt_sq_add_sq]
    norm_num

theorem zernikeEntry_ok (n m N i : Nat) (hm : m ≤ n) (hp : (n - m) % 2 = 0) (hN : 2 ≤ N) :
    zernikeEntry n m N i = .ok ((starRingEnd ℂ) (zernikeV n m (pixelPoint N (i / N) (i % N)))) := by
  unfold zernikeEntry zv
  dsimp only
  rw [toPolar_eq N _ _ hN]
  dsimp only
  rw [radial_ok n m _ hm hp]
  simp only [bind, Except.bind, pure, Except.pure]
  congr 2
  unfold zernikeV
  congr 2
  ring

/-- Folding over the pixels with their positions. -/
theorem zipIdx_foldlM (matrix : List ℂ) (pixels : List UInt8) (h : pixels.length ≤ matrix.length) :
    pixels.zipIdx.foldlM (momentStep matrix) (0 : ℂ) =
    .ok (∑ k ∈ range pixels.length, matrix.getD k 0 * ((pixels.getD k 0).toNat : ℂ)) := by
  rw [foldlM_add (h := fun x : UInt8 × Nat => matrix.getD x.2 0 * (x.1.toNat : ℂ))]
  · rw [zero_add]
    congr 1
    rw [Finset.sum_eq_multiset_sum]
    simp only [Finset.range_val, Multiset.range, Multiset.map_coe, Multiset.sum_coe]
    congr 1
    apply List.ext_getElem?
    intro k
    rw [List.getElem?_map, List.getElem?_map, List.getElem?_zipIdx]
    by_cases hk : k < pixels.length
    · rw [List.getElem?_range hk, List.getElem?_eq_getElem hk]
      simp [hk]
    · rw [List.getElem?_eq_none (by omega), List.getElem?_eq_none (by simp; omega)]; rfl
  · rintro ⟨p, k⟩ hx acc
    have hk : k < matrix.length := by
      have := List.mem_zipIdx hx
      omega
    unfold momentStep
    dsimp only
    rw [List.getElem?_eq_getElem hk, List.getD_eq_getElem?_getD, List.getElem?_eq_getElem hk]
    rfl

end Sia
