import Verif.Model.Program
import Verif.Props.EqualizeProps
import Verif.Props.LdpcPipeline
import Verif.Props.MachineExamples
import Verif.Props.FeatureFiniteProps

/-! C83: the program with all its libraries put in. Nothing is assumed about the codes, the signatures, the equalisation or the moments;
what is open is the mathematical library of the platform. -/
namespace Sia
open LawfulFloat

theorem foldlM_error_kind {α S : Type} {g : S → α → Res S} (E : Panic) (h : ∀ acc a e, g acc a = .error e → e = E) :
    ∀ (l : List α) (acc : S) (e : Panic), l.foldlM g acc = .error e → e = E := by
  intro l
  induction l with
  | nil => intro acc e h; simp [pure, Except.pure] at h
  | cons b l ih =>
    intro acc e he
    rw [List.foldlM_cons] at he
    cases hg : g acc b with
    | error e' =>
      rw [hg] at he
      have : (Except.error e' : Res S) = .error e := he
      exact Except.error.inj this ▸ h acc b e' hg
    | ok v =>
      rw [hg] at he
      exact ih v e he

theorem mapM_congr_res {α β : Type} {f g : α → Res β} : ∀ (l : List α), (∀ a ∈ l, f a = g a) → l.mapM f = l.mapM g := by
  intro l
  induction l with
  | nil => intro _; rfl
  | cons b l ih =>
    intro h
    rw [List.mapM_cons, List.mapM_cons, h b (by simp), ih fun a ha => h a (by simp [ha])]

/-- With more pixels than the square of the number of rows every moment aborts. -/
theorem zernikeMomentF_aborts (M : Libm F64) (n m : Nat) (image : Mat UInt8) (hn : n ≤ 2 ^ 52) (hm : m ≤ n) (hp : n % 2 = m % 2)
    (h : image.rows * image.rows < image.rows * image.cols) : zernikeMomentF M n m image = .error .unwrapNone := by
  unfold zernikeMomentF
  dsimp only
  rw [matrixF_total M n m _ hn hm hp, res_ok_bind]
  set matrix := (List.range (image.rows * image.rows)).map (entryValue M n m image.rows) with hmat
  have hl : matrix.length = image.rows * image.rows := by rw [hmat, List.length_map, List.length_range]
  obtain ⟨p, hp⟩ : ∃ p, (p, image.rows * image.rows) ∈ image.toList.zipIdx := by
    have hlen : image.toList.length = image.rows * image.cols := by unfold Mat.toList; simp
    have hlt : image.rows * image.rows < image.toList.length := by rw [hlen]; exact h
    refine ⟨image.toList[image.rows * image.rows], ?_⟩
    rw [List.mk_mem_zipIdx_iff_getElem?]
    exact List.getElem?_eq_getElem hlt
  obtain ⟨e, he⟩ := foldlM_error (g := momentStepF matrix) (p, image.rows * image.rows) (by
      intro acc
      refine ⟨.unwrapNone, ?_⟩
      unfold momentStepF
      rw [List.getElem?_eq_none (by omega)]) image.toList.zipIdx hp (FloatOps.ofInt 0, FloatOps.ofInt 0)
  have hk := foldlM_error_kind .unwrapNone (by
    intro acc a e h
    unfold momentStepF at h
    split at h
    · cases h; rfl
    · cases h) _ _ _ he
  rw [he, hk]
  rfl

/-- C83: the features the pipeline uses are the ones the code computes with its floats, also where it aborts. -/
theorem program_features (M : Libm F64) (image : Mat UInt8) (a : Nat) (ha : a ≤ 2 ^ 51) :
    channelFeatures (Deps.program M) image a = zernikeFeaturesF M image a := by
  unfold channelFeatures zernikeFeaturesF orderByFeaturesAmount
  rcases Nat.eq_zero_or_pos a with h0 | h0
  · rw [if_pos h0]; rfl
  · rw [if_neg (by omega), res_ok_bind, res_ok_bind, momentIndices_odd a (by omega), show 1 + 2 * (a - 1) = 2 * a - 1 by omega]
    apply mapM_congr_res
    intro index hidx
    obtain ⟨k, hk, rfl⟩ := List.mem_map.mp hidx
    have hk' := List.mem_range.mp hk
    split_ifs with h
    · rw [zernikeMomentF_aborts M _ _ image (by omega) (by omega) (by omega) h]
      rfl
    · show Except.ok (match zernikeMomentF M _ _ image with
        | .ok w => M.hypot w.1 w.2
        | .error _ => F64.nan) = _
      rw [momentF_total M _ _ image (by omega) (by omega) (by omega) (by omega)]
      rfl

theorem program_actual (M : Libm F64) : (Deps.program M).Actual := ⟨rfl, rfl⟩

theorem program_computed (M : Libm F64) : (Deps.program M).Computed M := by
  intro order index image w h
  show (match zernikeMomentF M order index image with
    | .ok w => M.hypot w.1 w.2
    | .error _ => F64.nan) = _
  rw [h]

theorem program_orderOnly (M : Libm F64) : (Deps.program M).OrderOnly := fun c p hp => equalizeSingle_orderOnly c.raw p hp

theorem program_histogramOnly (M : Libm F64) : (Deps.program M).HistogramOnly := by
  refine ⟨fun h v => equalizeLevel (∑ w ∈ Finset.range (v.toNat + 1), h (UInt8.ofNat w)) (∑ w ∈ Finset.range 256, h (UInt8.ofNat w)), ?_⟩
  intro c
  show equalizeSingle c.raw = _
  unfold equalizeSingle
  apply List.map_congr_left
  intro v hv
  have e1 : ∑ w ∈ Finset.range (v.toNat + 1), c.raw.count (UInt8.ofNat w) = cumulative c.raw v := by
    rw [countP_histogram _ _ (by
      intro w hw
      have := Finset.mem_range.mp hw
      have := v.toNat_lt
      omega)]
    unfold cumulative
    apply List.countP_congr
    intro x _
    rw [decide_eq_true_eq, decide_eq_true_eq, Finset.mem_range, UInt8.le_iff_toNat_le]
    omega
  have e2 : ∑ w ∈ Finset.range 256, c.raw.count (UInt8.ofNat w) = c.raw.length := by
    rw [countP_histogram _ _ (fun w hw => Finset.mem_range.mp hw), List.countP_eq_length]
    intro x _
    rw [decide_eq_true_eq, Finset.mem_range]
    exact x.toNat_lt
  dsimp only
  rw [e1, e2]

/-- The moduli are never negative when `hypot` is not. -/
theorem program_moduli (M : Libm F64) (hM : ∀ x y, M.hypot x y = .nan ∨ FloatOps.ge (M.hypot x y) (.fin 0) = true) :
    (Deps.program M).Moduli := by
  intro order index image
  show (match zernikeMomentF M order index image with | .ok w => M.hypot w.1 w.2 | .error _ => F64.nan) = .nan ∨
    FloatOps.ge (match zernikeMomentF M order index image with | .ok w => M.hypot w.1 w.2 | .error _ => F64.nan) (.fin 0) = true
  cases zernikeMomentF M order index image with
  | error e => exact .inl rfl
  | ok w => exact hM _ _

theorem equalizedPixels_program (M : Libm F64) (c : GrayImage) (n : Nat) (hc : c.IsSquare n) (i j : Nat) :
    (equalizedPixels (Deps.program M) c).get i j = (equalizeSingle c.raw).getD (i * n + j) 0 := by
  unfold equalizedPixels
  dsimp only
  rw [hc.2.1]
  rfl

/-- Every number is within a quarter of a multiple of a half. -/
theorem awayFromHalves_le (μ x : ℝ) (h : AwayFromHalves μ x) : μ ≤ 1 / 4 := by
  have h1 := h (round (2 * x))
  have h2 := abs_sub_round (2 * x)
  have e : x - (round (2 * x) : ℝ) / 2 = (2 * x - round (2 * x)) / 2 := by ring
  rw [e, abs_div, abs_of_pos (by norm_num : (0 : ℝ) < 2)] at h1
  linarith

theorem awayFromHalves_near (μ ν x y : ℝ) (h : AwayFromHalves (μ + ν) x) (hxy : |x - y| ≤ ν) : AwayFromHalves μ y := by
  intro k
  have h1 := h k
  have h2 := abs_sub_le x y ((k : ℝ) / 2)
  linarith

/-- The equalised pixels of two pictures that differ by at most `T` in each pixel. -/
theorem program_meanDifference (M : Libm F64) (c c' : GrayImage) (n T : Nat) (q : ℝ) (hn1 : 1 ≤ n) (hn : n ≤ 2 ^ 14) (hc : c.IsSquare n)
    (hc' : c'.IsSquare n) (hT : ∀ i < n, ∀ j < n, |((c'.pixels.get i j).toNat : ℝ) - ((c.pixels.get i j).toNat : ℝ)| ≤ T)
    (hq : ∀ lo, (c.raw.countP (fun v => decide (lo ≤ v.toNat ∧ v.toNat < lo + 2 * T)) : ℝ) ≤ q * (n * n)) :
    meanDifference n (equalizedPixels (Deps.program M) c) (equalizedPixels (Deps.program M) c') ≤ 255 * q + 1 + 1 / 2 ^ 12 := by
  have hpos : (0 : ℝ) < (n : ℝ) * n := by
    have : (0 : ℝ) < n := by exact_mod_cast hn1
    positivity
  have hlen : c.raw.length = n * n := hc.2.2
  have hlen' : c'.raw.length = n * n := hc'.2.2
  have key : ∀ i < n, ∀ j < n, |(((equalizedPixels (Deps.program M) c).get i j).toNat : ℝ) -
      (((equalizedPixels (Deps.program M) c').get i j).toNat : ℝ)| ≤ 255 * q + 1 + 1 / 2 ^ 12 := by
    intro i hi j hj
    rw [equalizedPixels_program M c n hc, equalizedPixels_program M c' n hc']
    have hlt : i * n + j < n * n := by nlinarith
    refine equalizeSingle_stable c.raw c'.raw T q (by omega) ?_ ?_ ?_ _ (by omega)
    · rw [hlen]
      calc n * n ≤ 2 ^ 14 * 2 ^ 14 := Nat.mul_le_mul hn hn
        _ < 2 ^ 32 := by norm_num
    · intro k hk
      rw [hlen] at hk
      have h1 : k / n < n := Nat.div_lt_of_lt_mul hk
      have h2 : k % n < n := Nat.mod_lt _ (by omega)
      have h3 := hT (k / n) h1 (k % n) h2
      have e : k / n * n + k % n = k := Nat.div_add_mod' k n
      have p1 : c.pixels.get (k / n) (k % n) = c.raw.getD k 0 := by
        show c.raw.getD (k / n * c.height + k % n) 0 = _
        rw [hc.2.1, e]
      have p2 : c'.pixels.get (k / n) (k % n) = c'.raw.getD k 0 := by
        show c'.raw.getD (k / n * c'.height + k % n) 0 = _
        rw [hc'.2.1, e]
      rw [p1, p2, abs_le] at h3
      obtain ⟨h4, h5⟩ := h3
      constructor
      · have : ((c.raw.getD k 0).toNat : ℝ) ≤ (c'.raw.getD k 0).toNat + T := by linarith
        exact_mod_cast this
      · have : ((c'.raw.getD k 0).toNat : ℝ) ≤ (c.raw.getD k 0).toNat + T := by linarith
        exact_mod_cast this
    · intro lo
      rw [hlen]
      push_cast
      exact hq lo
  unfold meanDifference
  rw [div_le_iff₀ hpos]
  refine (Finset.sum_le_sum fun i hi => Finset.sum_le_sum fun j hj => key i (Finset.mem_range.mp hi) j (Finset.mem_range.mp hj)).trans
    (le_of_eq ?_)
  simp only [Finset.sum_const, Finset.card_range, nsmul_eq_mul]
  ring

/-- C83: the whole program in double precision; all conditions are on the picture to be marked, before it is marked. If
- the depth is large enough for noise of `t` per pixel and no pixel is too close to black or white for it,
- no `2 T` consecutive grey levels hold more than the share `q` of the pixels, where marking and noise change no pixel by more than `T`,
- the moduli of the moments of the equalised picture, divided by the step, keep a distance to the multiples of `1/2`,

then marking succeeds and every received picture within `t` of the marked one authenticates. -/
theorem program_authenticates (M : Libm F64) (hM : M.Lawful) (c : GrayImage) (n levels a T : Nat) (x s : ℚ) (t q : ℝ)
    (hc : c.IsSquare n) (hg : EmbedGeometry n levels c.pixels) (hl : levels ≤ 3) (hn : n ≤ 2 ^ 14)
    (hsup : SupportedCapacity (domainBytes n levels)) (hal : blockBytes (domainBytes n levels) ∣ domainBytes n levels)
    (hfit : recordBytes a + 4 ≤ domainBytes n levels / 2) (ha1 : 1 ≤ a) (ha : a ≤ 11)
    (ht : 0 ≤ t) (hd : 2 ^ (levels + 1) * (2 * t + 1) < (1 - 1 / 2 ^ 24) * (x : ℝ))
    (hpix : ∀ i < n, ∀ j < n, (3 / 4 + 1 / 2 ^ 26) * (x : ℝ) / 2 ^ levels ≤ ((c.pixels.get i j).toNat : ℝ) ∧
      ((c.pixels.get i j).toNat : ℝ) ≤ 255 - (3 / 4 + 1 / 2 ^ 26) * (x : ℝ) / 2 ^ levels)
    (hT : (3 / 4 + 1 / 2 ^ 26) * (x : ℝ) / 2 ^ levels + 1 / 2 + t < T + 1)
    (hq : ∀ lo, (c.raw.countP (fun v => decide (lo ≤ v.toNat ∧ v.toNat < lo + 2 * T)) : ℝ) ≤ q * (n * n))
    (hs1 : 0 < s) (hs2 : (s : ℝ) ≤ 2 ^ 100)
    (hsrc : ∀ k < a, AwayFromHalves (1 / 400 / (s : ℝ) + 1 / 2 ^ 16 + 2 * a / Real.pi * (255 * q + 1 + 1 / 2 ^ 12) / (s : ℝ))
      (‖specMoment n (pixelReal (equalizedPixels (Deps.program M) c)) (2 * a - 1) (2 * k + 1)‖ / (s : ℝ))) :
    ∃ out, watermarkChannel (Deps.program M) c (.fin x) (.fin s) a levels = .ok out ∧ out.IsSquare n ∧
      ∀ noisy : GrayImage, noisy.IsSquare n → WithinNoise n t out.pixels noisy.pixels →
        authenticateChannel (Deps.program M) noisy (.fin x) (.fin s) a levels = .ok true := by
  have hs0 : (0 : ℝ) < s := by exact_mod_cast hs1
  have hn2 : 2 ≤ n := by
    have h2 := hg.capacity
    unfold domainBytes at h2
    rcases Nat.lt_or_ge n 2 with h | h
    · have : n / 2 ^ levels ≤ n := Nat.div_le_self _ _
      have : (n / 2 ^ levels) * (n / 2 ^ levels) ≤ 1 * 1 := Nat.mul_le_mul (by omega) (by omega)
      omega
    · exact h
  have hq0 : 0 ≤ q := by
    have h0 := hq 0
    by_contra hh
    push Not at hh
    have hN : (0 : ℝ) < (n : ℝ) * n := by
      have : (0 : ℝ) < n := by exact_mod_cast (by omega : 0 < n)
      positivity
    have h1 : q * ((n : ℝ) * n) < 0 := mul_neg_of_neg_of_pos hh hN
    have h2 : (0 : ℝ) ≤ (c.raw.countP (fun v => decide (0 ≤ v.toNat ∧ v.toNat < 0 + 2 * T)) : ℝ) := by positivity
    linarith
  set B : ℝ := 255 * q + 1 + 1 / 2 ^ 12 with hB
  have hB0 : 0 ≤ B := by positivity
  have ha0 : (0 : ℝ) < a := by exact_mod_cast ha1
  have hpi := Real.pi_pos
  set ν : ℝ := 2 * a / Real.pi * B / s with hν
  have hν0 : 0 ≤ ν := by positivity
  have hquarter := awayFromHalves_le _ _ (hsrc 0 (by omega))
  have h16 : (0 : ℝ) < 1 / 2 ^ 16 := by positivity
  have hs3 : (1 : ℝ) / 100 ≤ s := by
    have h1 : 1 / 400 / (s : ℝ) ≤ 1 / 4 := by linarith
    rw [div_le_iff₀ hs0] at h1
    linarith
  have hν4 : 1 / 400 / (s : ℝ) + ν ≤ 1 / 4 := by linarith
  have hbound : 2 * a / Real.pi * B ≤ s - 1 / 200 := by
    have h1 : (1 / 400 / (s : ℝ) + ν) * s ≤ 1 / 4 * s := mul_le_mul_of_nonneg_right hν4 hs0.le
    have h2 : (1 / 400 / (s : ℝ) + ν) * s = 1 / 400 + 2 * a / Real.pi * B := by
      rw [hν]
      field_simp
    rw [h2] at h1
    linarith
  have hx1 : (1 : ℝ) ≤ x := by
    have h1 : (1 : ℝ) ≤ 2 ^ (levels + 1) * (2 * t + 1) := by
      have : (1 : ℝ) ≤ 2 ^ (levels + 1) := one_le_pow₀ (by norm_num)
      nlinarith
    by_contra hh
    push Not at hh
    have h2 : (1 - 1 / 2 ^ 24 : ℝ) * x ≤ (1 - 1 / 2 ^ 24) * 1 := mul_le_mul_of_nonneg_left hh.le (by norm_num)
    norm_num at h2 hd
    linarith
  have hx2 : (x : ℝ) ≤ 2 ^ 100 := by
    obtain ⟨h1, h2⟩ := hpix 0 (by omega) 0 (by omega)
    have h3 : (3 / 4 + 1 / 2 ^ 26) * (x : ℝ) / 2 ^ levels ≤ 255 := h1.trans (by
      have : (0 : ℝ) ≤ (3 / 4 + 1 / 2 ^ 26) * (x : ℝ) / 2 ^ levels := by positivity
      linarith)
    have h4 : (2 : ℝ) ^ levels ≤ 2 ^ 3 := pow_le_pow_right₀ (by norm_num) hl
    rw [div_le_iff₀ (by positivity)] at h3
    have h5 : (x : ℝ) * (3 / 4) ≤ 255 * 2 ^ 3 := by
      have : (3 / 4 : ℝ) * x ≤ (3 / 4 + 1 / 2 ^ 26) * x := mul_le_mul_of_nonneg_right (by norm_num) (by linarith)
      linarith
    norm_num at h5 ⊢
    linarith
  obtain ⟨out, h1, h2, h3⟩ := marked_channel_authenticates_pixels_actual (Deps.program M) (program_actual M) M (program_computed M) hM
    c n levels a (.fin x) s t hc hg (signalOK_double n levels hl _ x t ht hd hpix) hsup hal hfit hn ha1 ha
    (le_trans (by norm_num) hs3) hs2 (fun k hk i => le_trans (by linarith) (hsrc k hk i))
  refine ⟨out, h1, h2, fun noisy hns hw => ?_⟩
  have hd' := (watermarkChannel_distortion_float (Deps.program M) c out n levels a (.fin x) (.fin s) (by omega) hc ⟨trivial, by
        show (1 : ℝ) / 2 ^ 100 ≤ ((x : ℚ) : ℝ)
        exact le_trans (by norm_num) hx1, hx2⟩ hx1 h1).2
  have hdiff : ∀ i < n, ∀ j < n, |((noisy.pixels.get i j).toNat : ℝ) - ((c.pixels.get i j).toNat : ℝ)| ≤ T := by
    intro i hi j hj
    have e1 := hd' i hi j hj
    have e2 := hw.2 i hi j hj
    have e3 := abs_sub_le ((noisy.pixels.get i j).toNat : ℝ) ((out.pixels.get i j).toNat : ℝ) ((c.pixels.get i j).toNat : ℝ)
    have e4 : (3 / 4 + embedSlack F64 levels) * (x : ℝ) / 2 ^ levels ≤ (3 / 4 + 1 / 2 ^ 26) * (x : ℝ) / 2 ^ levels := by
      apply div_le_div_of_nonneg_right _ (by positivity)
      exact mul_le_mul_of_nonneg_right (by linarith [embedSlack_double levels hl]) (by linarith)
    have e5 : |((noisy.pixels.get i j).toNat : ℝ) - ((c.pixels.get i j).toNat : ℝ)| < T + 1 := by
      have : val (F64.fin x) = (x : ℝ) := rfl
      rw [this] at e1
      linarith
    have e6 : |((noisy.pixels.get i j).toNat : ℤ) - ((c.pixels.get i j).toNat : ℤ)| < T + 1 := by exact_mod_cast e5
    have e7 : |((noisy.pixels.get i j).toNat : ℤ) - ((c.pixels.get i j).toNat : ℤ)| ≤ T := by omega
    exact_mod_cast e7
  have hmean := program_meanDifference M c noisy n T q (by omega) hn hc hns hdiff hq
  rw [← hB] at hmean
  refine h3 noisy hns hw (fun k hk => ?_) (hmean.trans ?_)
  · refine awayFromHalves_near _ ν _ _ (hsrc k hk) ?_
    rw [← sub_div, abs_div, abs_of_pos hs0, hν, div_le_div_iff_of_pos_right hs0]
    refine (abs_norm_sub_norm_le _ _).trans ?_
    rw [specMoment_sub]
    refine (specMoment_norm_le n _ _ _ hn2 (by omega) (by omega)).trans ?_
    have e1 : (((2 * a - 1 : ℕ) : ℝ) + 1) = 2 * a := by
      rw [Nat.cast_sub (by omega)]
      push_cast
      ring
    rw [e1]
    exact mul_le_mul_of_nonneg_left hmean (by positivity)
  · rw [le_div_iff₀ (by positivity)]
    have h5 : 2 * a / Real.pi * B * Real.pi ≤ (s - 1 / 200) * Real.pi := mul_le_mul_of_nonneg_right hbound hpi.le
    have h6 : 2 * a / Real.pi * B * Real.pi = B * (2 * a) := by field_simp
    rw [h6] at h5
    linarith

/-- C83, C53: an increasing change of the samples that moves none by more than `t` (a brightness offset, say) does not change the answer for
a marked channel, whatever the mathematical library does. -/
theorem program_brightness (M : Libm F64) (c : GrayImage) (n levels a : Nat) (depth step : F64) (t : ℝ) (hc : c.IsSquare n)
    (hg : EmbedGeometry n levels c.pixels) (hs : SignalOK n levels c.pixels depth t)
    (hsup : SupportedCapacity (domainBytes n levels)) (hal : blockBytes (domainBytes n levels) ∣ domainBytes n levels)
    (hfit : recordBytes a + 4 ≤ domainBytes n levels / 2) (out : GrayImage)
    (hout : watermarkChannel (Deps.program M) c depth step a levels = .ok out)
    (p : UInt8 → UInt8) (hp : ∀ v ∈ out.raw, ∀ w ∈ out.raw, v < w → p v < p w)
    (hpt : ∀ v ∈ out.raw, |((p v).toNat : ℝ) - (v.toNat : ℝ)| ≤ t) (step' : F64) (a' : Nat) :
    authenticateChannel (Deps.program M) ⟨out.width, out.height, out.raw.map p⟩ depth step' a' levels =
      authenticateChannel (Deps.program M) out depth step' a' levels :=
  brightness_tolerated _ (program_orderOnly M) (actual_contracts _ (program_actual M)).1 c n levels a depth step t hc hg hs hsup hal hfit out
    hout p hp hpt step' a'

/-- C83: equalising a picture before it is marked or authenticated does not change its features. -/
theorem program_equalised_features (M : Libm F64) (c : GrayImage) (a : Nat) :
    equalizedFeatures (Deps.program M) ⟨c.width, c.height, equalizeSingle c.raw⟩ a = equalizedFeatures (Deps.program M) c a := by
  have e : (Deps.program M).equalize ⟨c.width, c.height, equalizeSingle c.raw⟩ = (Deps.program M).equalize c :=
    equalizeSingle_idempotent c.raw
  unfold equalizedFeatures
  rw [e]

/-- C83, C75: all builds on all targets agree. -/
theorem program_builds (M : Libm F64) (hM : ∀ x y, M.hypot x y = .nan ∨ FloatOps.ge (M.hypot x y) (.fin 0) = true) (T : Target)
    (hT : T.Valid) (c : GrayImage) (depth step : F64) (hs : FloatOps.ge step (.fin 0) = true) (a levels : Nat)
    (hf : FitsSquare T c.width c.height) (ha : a < 2 ^ 28) (hl : levels < 2 ^ 32) :
    SameResult (T.watermarkChannel (Deps.program M) c depth step a levels) (watermarkChannel (Deps.program M) c depth step a levels) ∧
    SameResult (T.authenticateChannel (Deps.program M) c depth step a levels)
      (authenticateChannel (Deps.program M) c depth step a levels) := by
  obtain ⟨-, -, h1, h2⟩ := builds_agree T T hT hT _ (program_moduli M hM) c depth step hs a levels hf hf ha hl
  exact ⟨h1, h2⟩

end Sia
