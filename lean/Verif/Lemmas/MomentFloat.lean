import Verif.Lemmas.EntryFloat
import Verif.Props.ZernikeProps
import Mathlib.Analysis.Real.Pi.Bounds

/-! The moments in machine arithmetic. -/
namespace Sia
open FloatOps LawfulFloat Finset

section
variable {F : Type} [FloatOps F] [LawfulFloat F] [IntExact F]

/-- The machine constant for `π`. -/
theorem pi_rel : Rel 1 (piF : F) Real.pi := by
  have h := lit_dyadic (F := F) 884279719003555 48 (by norm_num) (by norm_num)
  have e : ((884279719003555 : ℤ) : ℚ) / 2 ^ 48 = 884279719003555 / 281474976710656 := by norm_num
  rw [e] at h
  refine ⟨h.1, ?_⟩
  show |val (lit (884279719003555 / 281474976710656) : F) - Real.pi| ≤ _
  rw [h.2]
  have h1 := Real.pi_gt_d20
  have h2 := Real.pi_lt_d20
  rw [abs_of_pos Real.pi_pos, abs_le]
  unfold ulp
  push_cast
  constructor <;> norm_num at h1 h2 ⊢ <;> linarith

theorem multiplier_rel (n : ℕ) (hn : n ≤ 40) : Rel 2 (FloatOps.div (FloatOps.add (ofInt (n : ℤ)) (ofInt 1)) piF : F) (((n : ℝ) + 1) / Real.pi) := by
  have hN : IsInt (ofInt (n : ℤ) : F) n := isInt_ofInt _ (nat_abs_le _ (by omega))
  have h1 : IsInt (ofInt 1 : F) 1 := isInt_ofInt _ (by norm_num)
  have t := (hN.add h1 (by rw [abs_of_nonneg (by omega)]; omega)).rel
  have hn' : (n : ℝ) ≤ 40 := by exact_mod_cast hn
  have hpi := Real.pi_pos
  have h3 : Real.pi ≤ 4 := Real.pi_le_four
  have h33 : 3 < Real.pi := Real.pi_gt_three
  have e : ((((n : ℤ) + 1 : ℤ)) : ℝ) = (n : ℝ) + 1 := by push_cast; rfl
  rw [e] at t
  have hq : |((n : ℝ) + 1) / Real.pi| = ((n : ℝ) + 1) / Real.pi := abs_of_pos (by positivity)
  have := t.div (pi_rel (F := F)) le_rfl (by norm_num) (by norm_num) (by norm_num) hpi.ne'
    (by
      rw [hq, le_div_iff₀ hpi]
      have : (1 : ℝ) / 2 ^ 100 * Real.pi ≤ 1 / 2 ^ 100 * 4 := mul_le_mul_of_nonneg_left h3 (by norm_num)
      refine this.trans ?_
      have : (0 : ℝ) ≤ n := by positivity
      norm_num
      linarith)
    (by
      rw [hq, div_le_iff₀ hpi]
      norm_num
      nlinarith)
  exact this.mono (by norm_num)

/-- Summation over the pixels. -/
theorem momentF_fold (matrix : List (F × F)) (V : ℕ → ℂ) (px : ℕ → UInt8) (E : ℝ) (hE0 : 0 ≤ E) (hE : E ≤ 2 ^ 39 + 1) (T : ℕ)
    (hT : T ≤ 2 ^ 28) (hlen : matrix.length = T)
    (hV : ∀ k (hk : k < matrix.length), Approx E matrix[k].1 (V k).re 1 ∧ Approx E matrix[k].2 (V k).im 1) :
    ∀ t : ℕ, t ≤ T → ∃ acc, ((List.range t).map fun k => (px k, k)).foldlM (momentStepF matrix) (ofInt 0, ofInt 0) = .ok acc ∧
      Approx (E + 1 + t) acc.1 (∑ k ∈ range t, (V k * ((px k).toNat : ℂ)).re) (255 * t) ∧
      Approx (E + 1 + t) acc.2 (∑ k ∈ range t, (V k * ((px k).toNat : ℂ)).im) (255 * t) := by
  intro t
  induction t with
  | zero =>
    intro _
    have h0 : IsInt (ofInt 0 : F) 0 := isInt_ofInt _ (by norm_num)
    have hA : ∀ c : ℝ, Approx c (ofInt 0 : F) 0 0 := fun c => ⟨h0.1, by rw [h0.2]; simp, by simp⟩
    refine ⟨_, rfl, ?_, ?_⟩ <;> simpa using hA _
  | succ t ih =>
    intro ht
    obtain ⟨acc, hacc, h1, h2⟩ := ih (by omega)
    have htr : (t : ℝ) ≤ 268435456 := by exact_mod_cast (by omega : t ≤ 268435456)
    have hE' : E ≤ 549755813889 := hE.trans (by norm_num)
    have ht0 : (0 : ℝ) ≤ t := by positivity
    obtain ⟨hre, him⟩ := hV t (by omega)
    have hpx : (px t).toNat ≤ 255 := by have := (px t).toNat_lt; omega
    have hpI : IsInt (ofInt (((px t).toNat : ℕ) : ℤ) : F) (px t).toNat := isInt_ofInt _ (nat_abs_le _ (by omega))
    have hpA : Approx 0 (ofInt (((px t).toNat : ℕ) : ℤ) : F) ((px t).toNat : ℝ) 255 := by
      refine ⟨hpI.1, ?_, ?_⟩
      · rw [hpI.2]; simp
      · rw [abs_of_nonneg (by positivity)]; exact_mod_cast hpx
    have step : ∀ (w : F) (v : ℝ) (a : F) (s : ℝ), Approx E w v 1 → Approx (E + 1 + t) a s (255 * t) →
        Approx (E + 1 + (t + 1)) (FloatOps.add a (FloatOps.mul w (ofInt (((px t).toNat : ℕ) : ℤ)))) (s + v * ((px t).toNat : ℝ)) (255 * (t + 1)) := by
      intro w v a s hw hs
      have m1 := hw.mul hpA hE0 le_rfl (hE.trans (by norm_num)) (by norm_num) (by simp) (by norm_num) (by norm_num)
      have m2 : Approx (E + 1 + t) (FloatOps.mul w (ofInt (((px t).toNat : ℕ) : ℤ))) (v * ((px t).toNat : ℝ)) 255 :=
        m1.mono (by norm_num) (by positivity) (by linarith)
      have m3 := hs.add m2 (le_trans (by linarith : _ ≤ (1000000000000 : ℝ)) (by norm_num)) (by positivity)
        (le_trans (by norm_num : _ ≤ (1 : ℝ)) (by linarith)) (le_trans (by linarith : _ ≤ (1000000000000 : ℝ)) (by norm_num))
      refine m3.mono (by linarith) (by positivity) (by linarith)
    refine ⟨(FloatOps.add acc.1 (FloatOps.mul matrix[t].1 (ofInt (((px t).toNat : ℕ) : ℤ))),
      FloatOps.add acc.2 (FloatOps.mul matrix[t].2 (ofInt (((px t).toNat : ℕ) : ℤ)))), ?_, ?_, ?_⟩
    · rw [List.range_succ, List.map_append, List.foldlM_append, hacc]
      show (momentStepF matrix acc (px t, t) >>= fun s' => pure s') = _
      rw [bind_pure]
      unfold momentStepF
      rw [List.getElem?_eq_getElem (by omega : t < matrix.length)]
    · rw [Finset.sum_range_succ]
      have e : (V t * ((px t).toNat : ℂ)).re = (V t).re * ((px t).toNat : ℝ) := by
        rw [← Complex.ofReal_natCast, Complex.re_mul_ofReal]
      rw [e]
      push_cast
      exact step _ _ _ _ hre h1
    · rw [Finset.sum_range_succ]
      have e : (V t * ((px t).toNat : ℂ)).im = (V t).im * ((px t).toNat : ℝ) := by
        rw [← Complex.ofReal_natCast, Complex.im_mul_ofReal]
      rw [e]
      push_cast
      exact step _ _ _ _ him h2

/-- The accuracy of a computed moment, in units in the last place of `255 (n+1) / π`. -/
def momentError (n m N : Nat) : ℝ := entryError n m + N * N + 7

theorem momentError_pos (n m N : Nat) : 0 ≤ momentError n m N := by
  have := entryError_pos n m
  unfold momentError
  positivity

theorem zipIdx_toList (image : Mat UInt8) : image.toList.zipIdx =
    (List.range (image.rows * image.cols)).map fun k => (image.get (k / image.cols) (k % image.cols), k) := by
  unfold Mat.toList
  apply List.ext_getElem
  · simp
  · intro i h1 h2
    simp

theorem zernikeMomentF_near (M : Libm F) (hM : M.Lawful) (n m N : ℕ) (image : Mat UInt8) (hn : n ≤ 40) (hm : m ≤ n) (hp : n % 2 = m % 2)
    (hK : entryError n m ≤ 2 ^ 39) (hN : 2 ≤ N) (hN2 : N ≤ 2 ^ 14) (hrows : image.rows = N) (hcols : image.cols ≤ N)
    (hcols1 : 1 ≤ image.cols) :
    ∃ w z, zernikeMomentF M n m image = .ok w ∧ zernikeMoment n m image = .ok z ∧ ‖z‖ ≤ ((n : ℝ) + 1) / Real.pi * 255 ∧
      Approx (momentError n m N) w.1 z.re (((n : ℝ) + 1) / Real.pi * 255) ∧
      Approx (momentError n m N) w.2 z.im (((n : ℝ) + 1) / Real.pi * 255) := by
  obtain ⟨P, hP⟩ : ∃ P, P = image.cols := ⟨_, rfl⟩
  rw [← hP] at hcols hcols1
  have hE := entryError_pos n m
  have hNN : N * N ≤ 2 ^ 28 := (Nat.mul_le_mul hN2 hN2).trans (by norm_num)
  set V : ℕ → ℂ := fun k => (starRingEnd ℂ) (zernikeV n m (pixelPoint N (k / N) (k % N))) with hVdef
  -- the matrix
  obtain ⟨matrix, hmat⟩ := (mapM_except_isOk (f := zernikeEntryF M n m N) (List.range (N * N))).mpr (fun i hi => by
    obtain ⟨w, hw, _⟩ := zernikeEntryF_near M hM n m N i hn hm hp hK hN hN2 (List.mem_range.mp hi)
    exact ⟨w, hw⟩)
  have hlen : matrix.length = N * N := by have := mapM_except_length _ _ hmat; simpa using this
  have hV : ∀ k (hk : k < matrix.length), Approx (entryError n m + 1) matrix[k].1 (V k).re 1 ∧
      Approx (entryError n m + 1) matrix[k].2 (V k).im 1 := by
    intro k hk
    have hg := mapM_except_get _ _ hmat k (by simpa using (by omega : k < N * N)) hk
    rw [List.getElem_range] at hg
    obtain ⟨w, hw, h1, h2⟩ := zernikeEntryF_near M hM n m N k hn hm hp hK hN hN2 (by omega)
    rw [hw] at hg
    have := Except.ok.inj hg
    rw [← this]
    exact ⟨h1, h2⟩
  have hNPle : N * P ≤ N * N := Nat.mul_le_mul_left _ hcols
  obtain ⟨acc, hacc, h1, h2⟩ := momentF_fold matrix V (fun k => image.get (k / P) (k % P)) (entryError n m + 1) (by positivity)
    (by linarith) (N * N) hNN hlen hV (N * P) hNPle
  -- the exact moment
  have hN0 : (0 : ℝ) < N := by exact_mod_cast (by omega : 0 < N)
  have hNr : (N : ℝ) ≤ 2 ^ 14 := by exact_mod_cast hN2
  have hNNr : (N : ℝ) * N ≤ 2 ^ 28 := by exact_mod_cast hNN
  have hP0 : (0 : ℝ) < P := by exact_mod_cast hcols1
  have hNPr : (N : ℝ) * P ≤ N * N := by exact_mod_cast hNPle
  set S : ℂ := ∑ k ∈ range (N * P), V k * (((image.get (k / P) (k % P)).toNat : ℕ) : ℂ) with hS
  set z : ℂ := (((((n : ℝ) + 1) / Real.pi : ℝ)) : ℂ) * S / ((((N * P : ℕ) : ℝ)) : ℂ) with hz
  have hspec : zernikeMoment n m image = .ok z := by
    rw [moment_general n m image hm hp (by rw [hrows]; exact hN) (by rw [hrows, ← hP]; exact hcols), hrows, ← hP]
  have hSn : ‖S‖ ≤ 255 * ((N : ℝ) * P) := by
    refine (norm_sum_le _ _).trans ((sum_le_sum (g := fun _ => (255 : ℝ)) fun k hk => ?_).trans (le_of_eq ?_))
    · have hk' : k < N * N := (mem_range.mp hk).trans_le hNPle
      have hN0' : 0 < N := by omega
      have hv := zernikeV_norm_le n m (pixelPoint N (k / N) (k % N)) hm hp
        (pixelPoint_norm_le N _ _ hN (Nat.div_lt_of_lt_mul hk') (Nat.mod_lt _ hN0'))
      rw [norm_mul, Complex.norm_natCast]
      have hpx : (((image.get (k / P) (k % P)).toNat : ℕ) : ℝ) ≤ 255 := by
        have := (image.get (k / P) (k % P)).toNat_lt
        exact_mod_cast (by omega : (image.get (k / P) (k % P)).toNat ≤ 255)
      have hv' : ‖V k‖ ≤ 1 := by rw [hVdef]; dsimp only; rw [RCLike.norm_conj]; exact hv
      calc ‖V k‖ * (((image.get (k / P) (k % P)).toNat : ℕ) : ℝ) ≤ 1 * 255 :=
            mul_le_mul hv' hpx (by positivity) (by norm_num)
        _ = 255 := one_mul _
    · simp; ring
  have hzn : ‖z‖ ≤ ((n : ℝ) + 1) / Real.pi * 255 := by
    rw [hz, norm_div, norm_mul, Complex.norm_real, Complex.norm_real, Real.norm_eq_abs, Real.norm_eq_abs,
      abs_of_pos (div_pos (by positivity) Real.pi_pos), abs_of_nonneg (by positivity), div_le_iff₀ (by positivity), mul_assoc]
    refine mul_le_mul_of_nonneg_left (hSn.trans (le_of_eq ?_)) (div_pos (by positivity) Real.pi_pos).le
    push_cast; ring
  have hre : z.re = (((n : ℝ) + 1) / Real.pi) * S.re / ((N * P : ℕ) : ℝ) := by
    rw [hz, Complex.div_ofReal_re, Complex.re_ofReal_mul]
  have him : z.im = (((n : ℝ) + 1) / Real.pi) * S.im / ((N * P : ℕ) : ℝ) := by
    rw [hz, Complex.div_ofReal_im, Complex.im_ofReal_mul]
  have hSre : S.re = ∑ k ∈ range (N * P), (V k * (((image.get (k / P) (k % P)).toNat : ℕ) : ℂ)).re := by rw [hS, Complex.re_sum]
  have hSim : S.im = ∑ k ∈ range (N * P), (V k * (((image.get (k / P) (k % P)).toNat : ℕ) : ℂ)).im := by rw [hS, Complex.im_sum]
  rw [← hSre] at h1
  rw [← hSim] at h2
  have hn' : (n : ℝ) ≤ 40 := by exact_mod_cast hn
  have hpi3 := Real.pi_gt_three
  have hpi4 := Real.pi_le_four
  have hmul := (multiplier_rel (F := F) n hn).approx
  have hq : |((n : ℝ) + 1) / Real.pi| = ((n : ℝ) + 1) / Real.pi := abs_of_pos (by positivity)
  rw [hq] at hmul
  have hq1 : 1 / 4 ≤ ((n : ℝ) + 1) / Real.pi := by
    rw [le_div_iff₀ Real.pi_pos]; have : (0 : ℝ) ≤ n := by positivity
    linarith
  have hq2 : ((n : ℝ) + 1) / Real.pi ≤ 41 := by
    rw [div_le_iff₀ Real.pi_pos]; nlinarith
  have hpix : IsInt (ofInt ((N * P : ℕ) : ℤ) : F) ((N * P : ℕ) : ℤ) := isInt_ofInt _ (nat_abs_le _ (by omega))
  have hN2r : (2 : ℝ) ≤ N := by exact_mod_cast hN
  have hP1r : (1 : ℝ) ≤ P := by exact_mod_cast hcols1
  have hNNl : (2 : ℝ) ≤ (N : ℝ) * P := by nlinarith
  have fin' : ∀ (s : F) (v : ℝ), Approx (entryError n m + 1 + 1 + ((N * P : ℕ) : ℝ)) s v (255 * ((N * P : ℕ) : ℝ)) →
      Approx (momentError n m N) (FloatOps.div (FloatOps.mul (FloatOps.div (FloatOps.add (ofInt (n : ℤ)) (ofInt 1)) piF)
        s) (ofInt ((N * P : ℕ) : ℤ))) (((n : ℝ) + 1) / Real.pi * v / ((N * P : ℕ) : ℝ)) (((n : ℝ) + 1) / Real.pi * 255) := by
    intro s v hs
    have cm : ((N * P : ℕ) : ℝ) = (N : ℝ) * P := Nat.cast_mul _ _
    rw [cm] at hs ⊢
    have hk40 : entryError n m + 1 + 1 + (N : ℝ) * P + 3 ≤ 2 ^ 40 := by
      have : (2 : ℝ) ^ 39 + 1 + 1 + 2 ^ 28 + 3 ≤ 2 ^ 40 := by norm_num
      linarith
    have t1 := hmul.mul hs (by norm_num) (by positivity) (by norm_num) (by linarith) (by
        have hu : ulp ≤ 1 / 2 ^ 52 := by unfold ulp; norm_num
        have : 2 * (entryError n m + 1 + 1 + (N : ℝ) * P) * ulp ≤ (2 * 2 ^ 40) * (1 / 2 ^ 52) :=
          mul_le_mul (by linarith) hu ulp_pos.le (by norm_num)
        refine this.trans ?_
        norm_num)
      (by
        have : (1 / 4 : ℝ) * (255 * 2) ≤ ((n : ℝ) + 1) / Real.pi * (255 * ((N : ℝ) * P)) :=
          mul_le_mul hq1 (by linarith) (by norm_num) (by linarith)
        refine le_trans ?_ this
        norm_num)
      (by
        have : ((n : ℝ) + 1) / Real.pi * (255 * ((N : ℝ) * P)) ≤ 41 * (255 * 2 ^ 28) :=
          mul_le_mul hq2 (by linarith) (by positivity) (by norm_num)
        refine this.trans ?_
        norm_num)
    have hNNz : ((((N * P : ℕ) : ℤ)) : ℝ) = (N : ℝ) * P := by push_cast; rfl
    have hNNne : (N : ℝ) * P ≠ 0 := by positivity
    have hscale : ((n : ℝ) + 1) / Real.pi * (255 * ((N : ℝ) * P)) / |(N : ℝ) * P| = ((n : ℝ) + 1) / Real.pi * 255 := by
      rw [abs_of_pos (by positivity)]; field_simp
    have hdr := hpix.rel
    rw [hNNz] at hdr
    have t2 := t1.div hdr (by positivity) le_rfl (by linarith) (by norm_num) hNNne
      (by rw [hscale]; refine le_trans ?_ (mul_le_mul_of_nonneg_right hq1 (by norm_num : (0 : ℝ) ≤ 255)); norm_num)
      (by rw [hscale]; refine (mul_le_mul_of_nonneg_right hq2 (by norm_num : (0 : ℝ) ≤ 255)).trans ?_; norm_num)
    rw [hscale] at t2
    refine t2.mono le_rfl (by positivity) ?_
    unfold momentError
    linarith
  refine ⟨(FloatOps.div (FloatOps.mul (FloatOps.div (FloatOps.add (ofInt (n : ℤ)) (ofInt 1)) piF) acc.1) (ofInt ((N * P : ℕ) : ℤ)),
      FloatOps.div (FloatOps.mul (FloatOps.div (FloatOps.add (ofInt (n : ℤ)) (ofInt 1)) piF) acc.2) (ofInt ((N * P : ℕ) : ℤ))), z, ?_, hspec, hzn, ?_, ?_⟩
  · unfold zernikeMomentF getZernikeMatrixF
    rw [zipIdx_toList, hrows, ← hP]
    dsimp only
    rw [hmat]
    simp only [bind, Except.bind]
    rw [hacc]
    rfl
  · rw [hre]; exact fin' _ _ h1
  · rw [him]; exact fin' _ _ h2

/-- The accuracy of a computed feature. -/
noncomputable def featureError (n m N : Nat) : ℝ := (17 / 12 * momentError n m N + 2) * ulp * (((n : ℝ) + 1) / Real.pi * 255)

theorem featureF_near (M : Libm F) (hM : M.Lawful) (n m N : ℕ) (image : Mat UInt8) (hn : n ≤ 40) (hm : m ≤ n) (hp : n % 2 = m % 2)
    (hK : entryError n m ≤ 2 ^ 39) (hN : 2 ≤ N) (hN2 : N ≤ 2 ^ 14) (hrows : image.rows = N) (hcols : image.cols ≤ N)
    (hcols1 : 1 ≤ image.cols) :
    ∃ w z, zernikeMomentF M n m image = .ok w ∧ zernikeMoment n m image = .ok z ∧ fin (M.hypot w.1 w.2) ∧
      |val (M.hypot w.1 w.2) - ‖z‖| ≤ featureError n m N := by
  obtain ⟨w, z, hw, hz, hB, h1, h2⟩ := zernikeMomentF_near M hM n m N image hn hm hp hK hN hN2 hrows hcols hcols1
  refine ⟨w, z, hw, hz, ?_⟩
  set B := ((n : ℝ) + 1) / Real.pi * 255 with hBdef
  set K := momentError n m N
  have hK0 : 0 ≤ K := momentError_pos n m N
  have hp1 := ulp_pos
  have hpi3 := Real.pi_gt_three
  have hpi4 := Real.pi_le_four
  have hn' : (n : ℝ) ≤ 40 := by exact_mod_cast hn
  have hq1 : 1 / 4 ≤ ((n : ℝ) + 1) / Real.pi := by
    rw [le_div_iff₀ Real.pi_pos]; have : (0 : ℝ) ≤ n := by positivity
    linarith
  have hq2 : ((n : ℝ) + 1) / Real.pi ≤ 41 := by
    rw [div_le_iff₀ Real.pi_pos]; nlinarith
  have hB1 : 1 ≤ B := by rw [hBdef]; linarith
  have hB2 : B ≤ 2 ^ 20 := by rw [hBdef]; norm_num; linarith
  have hNN : (N : ℝ) * N ≤ 2 ^ 28 := by
    have : N * N ≤ 2 ^ 28 := (Nat.mul_le_mul hN2 hN2).trans (by norm_num)
    exact_mod_cast this
  have hK40 : K ≤ 2 ^ 40 := by
    have : (2 : ℝ) ^ 39 + 2 ^ 28 + 7 ≤ 2 ^ 40 := by norm_num
    show momentError n m N ≤ _
    unfold momentError
    linarith
  have hKu := ulp_small hK40
  have a1 := h1.abs_le hK40
  have a2 := h2.abs_le hK40
  have b100 : (1 + 1 / 2 ^ 12) * B ≤ 2 ^ 100 := (mul_le_mul_of_nonneg_left hB2 (by norm_num)).trans (by norm_num)
  have hh := hM.hypot w.1 w.2 h1.1 h2.1 (a1.trans b100) (a2.trans b100)
  refine ⟨hh.1, ?_⟩
  have hd : ‖(⟨val w.1, val w.2⟩ : ℂ) - z‖ ≤ 17 / 12 * (K * ulp * B) := by
    rw [← Real.sqrt_sq (norm_nonneg _), Real.sqrt_le_left (by positivity)]
    have e : ‖(⟨val w.1, val w.2⟩ : ℂ) - z‖ ^ 2 = (val w.1 - z.re) ^ 2 + (val w.2 - z.im) ^ 2 := by
      rw [Complex.sq_norm, Complex.normSq_apply]
      simp only [Complex.sub_re, Complex.sub_im]
      ring
    rw [e, mul_pow]
    have s1 : (val w.1 - z.re) ^ 2 ≤ (K * ulp * B) ^ 2 := by
      rw [← sq_abs]; exact pow_le_pow_left₀ (abs_nonneg _) h1.2.1 2
    have s2 : (val w.2 - z.im) ^ 2 ≤ (K * ulp * B) ^ 2 := by
      rw [← sq_abs]; exact pow_le_pow_left₀ (abs_nonneg _) h2.2.1 2
    have s3 : 0 ≤ (K * ulp * B) ^ 2 := by positivity
    norm_num
    linarith
  have hwn : ‖(⟨val w.1, val w.2⟩ : ℂ)‖ ≤ 5 / 4 * B := by
    have := norm_add_le ((⟨val w.1, val w.2⟩ : ℂ) - z) z
    rw [sub_add_cancel] at this
    have t : K * ulp * B ≤ 1 / 2 ^ 12 * B := mul_le_mul_of_nonneg_right hKu (by linarith)
    norm_num at t
    linarith
  have ho : omega ≤ 1 / 4 * B := by have := omega_tiny; norm_num at this; linarith
  have t1 : ulp * (‖(⟨val w.1, val w.2⟩ : ℂ)‖ + omega) ≤ ulp * (2 * B) := mul_le_mul_of_nonneg_left (by linarith) hp1.le
  have t2 := abs_norm_sub_norm_le (⟨val w.1, val w.2⟩ : ℂ) z
  have t3 := abs_sub_le (val (M.hypot w.1 w.2)) ‖(⟨val w.1, val w.2⟩ : ℂ)‖ ‖z‖
  have hfe : featureError n m N = 17 / 12 * (K * ulp * B) + ulp * (2 * B) := by unfold featureError; ring
  rw [hfe]
  linarith [hh.2]

end
end Sia
