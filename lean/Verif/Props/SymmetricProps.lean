import Verif.Props.FlatProps
import Verif.Props.RandomProps

/-! C86: unchanged features, and pictures without features. -/
namespace Sia
open FloatOps LawfulFloat Finset

section
variable {F : Type} [FloatOps F]

/-- Given its own bits, a feature is restored to itself. -/
theorem restored_self (step f : F) : restored step (bits3 step f) f = f := by
  unfold restored bits3 restoreOne
  dsimp only
  generalize (twoBitsFromInteger (modFour (quantizeOne step f - 1))).1 = b0
  generalize (twoBitsFromInteger (modFour (quantizeOne step f - 1))).2 = b1
  cases b0 <;> cases b1 <;> simp [integerFromTwoBits, bitsNat]

theorem zipWith_restored_self (step : F) (fs : List F) : List.zipWith (restored step) (fs.map (bits3 step)) fs = fs := by
  induction fs with
  | nil => rfl
  | cons f fs ih => rw [List.map_cons, List.zipWith_cons_cons, ih, restored_self]

/-- C86: features that did not change get their cells back, in every arithmetic and for all values (in doubles also at the borders of
cells, for infinities and for NaN). -/
theorem dequantization_unchanged (fs : List F) (step : F) (q : List Int) (p : List Bool)
    (h : threeBitQuantization fs step = .ok (q, p)) : threeBitDequantization fs p step = .ok q := by
  have hne : ∀ f ∈ fs, quantizeOne step f ≠ i64Min := by
    intro f hf hmin
    obtain ⟨e, he⟩ := threeBitQuantization_error fs step ⟨f, hf, hmin⟩
    rw [he] at h
    cases h
  rw [threeBitQuantization_ok fs step hne] at h
  obtain ⟨rfl, rfl⟩ := Prod.mk.inj (Except.ok.inj h)
  rw [threeBitDequantization_ok fs _ step hne (by rw [bits3_total]; exact Dvd.intro _ rfl) (by rw [bits3_total]; omega),
    chunks3_flatMap_bits3, zipWith_restored_self]

end

/-- C86: a marked channel, or anything within the noise bound of it, whose features have the cells and the bits of the source (in
particular: whose features are those of the source) authenticates; nothing is assumed about the values of the features or about the
step. -/
theorem same_features_authenticate {F : Type} [FloatOps F] [LawfulFloat F] (D : Deps F) (hD : D.Actual) (c : GrayImage)
    (n levels a : Nat) (depth step : F) (t : ℝ) (hc : c.IsSquare n)
    (hg : EmbedGeometry n levels c.pixels) (hs : SignalOK n levels c.pixels depth t)
    (hsup : SupportedCapacity (domainBytes n levels)) (hal : blockBytes (domainBytes n levels) ∣ domainBytes n levels)
    (hfit : recordBytes a + 4 ≤ domainBytes n levels / 2) (ha : a ≤ 85)
    (fs : List F) (hf : equalizedFeatures D c a = .ok fs) (q : List Int) (p : List Bool)
    (hq : threeBitQuantization fs step = .ok (q, p)) :
    ∃ out, watermarkChannel D c depth step a levels = .ok out ∧ out.IsSquare n ∧
      ∀ noisy : GrayImage, noisy.IsSquare n → WithinNoise n t out.pixels noisy.pixels →
        ∀ a' gs, equalizedFeatures D noisy a' = .ok gs → threeBitQuantization gs step = .ok (q, p) →
          authenticateChannel D noisy depth step a' levels = .ok true := by
  obtain ⟨h1, -, h2⟩ := actual_contracts D hD
  obtain ⟨out, e1, e2, e3⟩ := marked_channel_verdict D h1 h2 c n levels a depth step t hc hg hs hsup hal hfit ha fs hf q p hq
  refine ⟨out, e1, e2, fun noisy hn hnoise a' gs hgs hq' => ?_⟩
  rw [e3 noisy hn hnoise a' gs q hgs (dequantization_unchanged gs step q p hq'), h2.verifies]

/-- The cell and the bits of a feature between 0 and a quarter of the step. -/
theorem small_feature_bits (s r : ℚ) (hs1 : 1 / 2 ^ 100 ≤ (s : ℝ)) (hs2 : (s : ℝ) ≤ 2 ^ 100) (h0 : 0 ≤ r) (h1 : (r : ℝ) ≤ s / 4) :
    quantizeOne (F64.fin s) (F64.fin r) = 0 ∧ bits3 (F64.fin s) (F64.fin r) = [true, true, false] := by
  have hs0 : (0 : ℝ) < s := lt_of_lt_of_le (by positivity) hs1
  have hsq : (0 : ℚ) < s := by exact_mod_cast hs0
  have hgood : GoodDepth (F64.fin s) := ⟨trivial, hs1, hs2⟩
  have hx : (r : ℝ) / s ≤ 1 / 4 := by rw [div_le_iff₀ hs0]; linarith
  have hx0 : 0 ≤ (r : ℝ) / s := div_nonneg (by exact_mod_cast h0) hs0.le
  have hq : quantizeOne (F64.fin s) (F64.fin r) = 0 := by
    have hu := u_mul_le (F := F64) (1 + 1) (by norm_num) (by norm_num)
    obtain ⟨b1, b2⟩ := quantizeOne_near (F64.fin s) (F64.fin r) hgood trivial 1 (by norm_num) (by
      show |(r : ℝ) / (s : ℝ)| ≤ 1
      rw [abs_of_nonneg hx0]
      linarith)
    have b1' : (quantizeOne (F64.fin s) (F64.fin r) : ℝ) - u F64 * (1 + 1) ≤ (r : ℝ) / s := b1
    have hlt : (quantizeOne (F64.fin s) (F64.fin r) : ℝ) < 1 := by linarith
    have hlt2 : quantizeOne (F64.fin s) (F64.fin r) < 1 := by exact_mod_cast hlt
    have hge : 0 ≤ quantizeOne (F64.fin s) (F64.fin r) := by
      show 0 ≤ F64.truncSat i64Min i64Max (F64.floor (F64.div (F64.fin r) (F64.fin s)))
      unfold F64.div
      dsimp only
      rw [if_neg hsq.ne']
      have hr := rne64_nonneg (r / s) (div_nonneg h0 hsq.le)
      unfold F64.ofRat
      dsimp only
      split_ifs with hbig
      · rw [decide_eq_false (not_lt.mpr (div_nonneg h0 hsq.le))]
        show (0 : ℤ) ≤ i64Max
        decide
      · show 0 ≤ clampZ i64Min i64Max (truncZ ((⌊rne64 (r / s)⌋ : ℤ) : ℚ))
        have : (0 : ℤ) ≤ ⌊rne64 (r / s)⌋ := Int.floor_nonneg.mpr hr
        have ht : truncZ ((⌊rne64 (r / s)⌋ : ℤ) : ℚ) = ⌊rne64 (r / s)⌋ := by
          unfold truncZ
          split_ifs <;> simp
        rw [ht]
        unfold clampZ i64Min i64Max
        split_ifs <;> omega
    omega
  refine ⟨hq, ?_⟩
  unfold bits3
  rw [hq]
  have hup : upperHalf (F64.fin s) (F64.fin r) 0 = false := by
    by_contra h
    have := (upperHalf_near (F64.fin s) (F64.fin r) hgood trivial 1 (by norm_num) (by norm_num) 0 (by norm_num)).1 (by simpa using h)
    have hu := u_mul_le (F := F64) (3 * 1 + 6) (by norm_num) (by norm_num)
    have this' : ((0 : ℤ) : ℝ) + 1 / 2 - u F64 * (3 * 1 + 6) ≤ (r : ℝ) / s := this
    norm_num at this'
    linarith
  rw [hup]
  rfl

/-- Turned by 180 degrees the picture is the same. -/
def CentrallySymmetric (n : Nat) (c : GrayImage) : Prop :=
  ∀ i < n, ∀ j < n, c.pixels.get (n - 1 - i) (n - 1 - j) = c.pixels.get i j

theorem symmetric_equalized (M : Libm F64) (c : GrayImage) (n : Nat) (hc : c.IsSquare n) (h : CentrallySymmetric n c) :
    ∀ i < n, ∀ j < n, (equalizedPixels (Deps.program M) c).get (n - 1 - i) (n - 1 - j) = (equalizedPixels (Deps.program M) c).get i j := by
  intro i hi j hj
  have hlen : c.raw.length = n * n := hc.2.2
  have hlt : ∀ x < n, ∀ y < n, x * n + y < n * n := by
    intro x hx y hy
    have := Nat.mul_le_mul_right n (show x + 1 ≤ n by omega)
    rw [Nat.add_mul, Nat.one_mul] at this
    omega
  have key : ∀ x < n, ∀ y < n, (equalizedPixels (Deps.program M) c).get x y =
      equalizeLevel (cumulative c.raw (c.pixels.get x y)) c.raw.length := by
    intro x hx y hy
    have hk := hlt x hx y hy
    rw [equalizedPixels_program M c n hc, List.getD_eq_getElem _ _ (by rw [equalizeSingle_length, hlen]; exact hk),
      equalizeSingle_getElem _ _ (by rw [hlen]; exact hk), pixels_get_raw, hc.2.1, List.getD_eq_getElem _ _ (by rw [hlen]; exact hk)]
  rw [key _ (by omega) _ (by omega), key i hi j hj, h i hi j hj]

theorem symmetric_moment (image : Mat UInt8) (n a k : Nat) (hn : 2 ≤ n) (ha : 1 ≤ a) (hk : k < a) (hsq : image.IsSquare n)
    (h : ∀ i < n, ∀ j < n, image.get (n - 1 - i) (n - 1 - j) = image.get i j) :
    ‖specMoment n (pixelReal image) (2 * a - 1) (2 * k + 1)‖ = 0 := by
  have h1 := features_central n image a ha hn hsq h
  rw [features_square n _ a ha hn hsq] at h1
  have h2 := Except.ok.inj h1
  have h3 := congrArg (fun l : List ℝ => l.getD k 0) h2
  simpa [hk] using h3

/-- The features of the program are nonnegative numbers; those up to a quarter of the step have cell 0 and bits 110. -/
theorem small_cells (M : Libm F64) (hM : M.Lawful) (hM2 : ∀ x y, M.hypot x y = .nan ∨ FloatOps.ge (M.hypot x y) (.fin 0) = true)
    (c : GrayImage) (n a : Nat) (s : ℚ) (hc : c.IsSquare n) (hn2 : 2 ≤ n) (hn : n ≤ 2 ^ 14)
    (ha1 : 1 ≤ a) (ha : a ≤ 11) (hs1 : 1 / 100 ≤ (s : ℝ)) (hs2 : (s : ℝ) ≤ 2 ^ 100)
    (fs : List F64) (h1 : equalizedFeatures (Deps.program M) c a = .ok fs) (h2 : fs.length = a)
    (h3 : ∀ f ∈ fs, fin f ∧ |val f| ≤ s / 4) :
    threeBitQuantization fs (.fin s) = .ok (List.replicate a 0, (List.replicate a [true, true, false]).flatten) := by
  have hmod : ∀ f ∈ fs, quantizeOne (F64.fin s) f = 0 ∧ bits3 (F64.fin s) f = [true, true, false] := by
    intro f hf
    obtain ⟨k, hk, rfl⟩ := List.getElem_of_mem hf
    obtain ⟨hfin, hnear⟩ := h3 _ hf
    have hpos : fs[k] = .nan ∨ FloatOps.ge fs[k] (F64.fin 0) = true := by
      have hch := channelFeatures_eq (Deps.program M) (equalizedPixels (Deps.program M) c) a ha1 (by
        have hsq : (equalizedPixels (Deps.program M) c).IsSquare n := ⟨hc.1, hc.2.1⟩
        rw [hsq.1, hsq.2]
        omega)
      have hef : equalizedFeatures (Deps.program M) c a = channelFeatures (Deps.program M) (equalizedPixels (Deps.program M) c) a := by
        rw [equalizedFeatures_computed _ M (program_computed M) hM c n a hn2 hn ha1 ha hc, program_features M _ a (by omega)]
      rw [hef, hch] at h1
      have h1' := Except.ok.inj h1
      have hm0 : ∀ f, f ∈ fs → f ∈ _ := fun f hf => h1'.symm ▸ hf
      have hm := hm0 _ (List.getElem_mem hk)
      obtain ⟨x, _, hx⟩ := List.mem_map.mp hm
      rw [← hx]
      exact program_moduli M hM2 _ _ _
    cases hfk : fs[k] with
    | nan => rw [hfk] at hfin; exact absurd hfin (by intro h; cases h)
    | inf b => rw [hfk] at hfin; exact absurd hfin (by intro h; cases h)
    | fin r =>
      rw [hfk] at hpos hnear
      rcases hpos with hpos | hpos
      · cases hpos
      · have hr : (0 : ℚ) ≤ r := by simpa [FloatOps.ge, F64.ge] using hpos
        refine small_feature_bits s r (le_trans (by norm_num) hs1) hs2 hr ?_
        have : |(r : ℝ)| ≤ s / 4 := hnear
        have := le_abs_self (r : ℝ)
        linarith
  rw [threeBitQuantization_ok fs _ (fun f hf => by rw [(hmod f hf).1]; decide)]
  congr 2
  · rw [List.eq_replicate_iff]
    refine ⟨by rw [List.length_map, h2], fun x hx => ?_⟩
    obtain ⟨f, hf, rfl⟩ := List.mem_map.mp hx
    exact (hmod f hf).1
  · rw [List.flatMap_def, ← h2]
    congr 1
    rw [List.eq_replicate_iff]
    refine ⟨List.length_map _, fun x hx => ?_⟩
    obtain ⟨f, hf, rfl⟩ := List.mem_map.mp hx
    exact (hmod f hf).2

/-- C86: every centrally symmetric picture has the same cells, all zero, and the same bits, whatever it shows. -/
theorem symmetric_cells (M : Libm F64) (hM : M.Lawful) (hM2 : ∀ x y, M.hypot x y = .nan ∨ FloatOps.ge (M.hypot x y) (.fin 0) = true)
    (c : GrayImage) (n a : Nat) (s : ℚ) (hc : c.IsSquare n) (h : CentrallySymmetric n c) (hn2 : 2 ≤ n) (hn : n ≤ 2 ^ 14)
    (ha1 : 1 ≤ a) (ha : a ≤ 11) (hs1 : 1 / 100 ≤ (s : ℝ)) (hs2 : (s : ℝ) ≤ 2 ^ 100) :
    ∃ fs, equalizedFeatures (Deps.program M) c a = .ok fs ∧
      threeBitQuantization fs (.fin s) = .ok (List.replicate a 0, (List.replicate a [true, true, false]).flatten) := by
  obtain ⟨fs, h1, h2, h3, h4⟩ := program_feature_list M hM c n a s hc hn2 hn ha1 ha (le_trans (by norm_num) hs1)
  refine ⟨fs, h1, small_cells M hM hM2 c n a s hc hn2 hn ha1 ha hs1 hs2 fs h1 h2 fun f hf => ⟨(h3 f hf).1, ?_⟩⟩
  obtain ⟨k, hk, rfl⟩ := List.getElem_of_mem hf
  have hnear := h4 k hk
  rw [symmetric_moment _ n a k hn2 ha1 (by omega) ⟨hc.1, hc.2.1⟩ (symmetric_equalized M c n hc h), sub_zero] at hnear
  linarith

/-- C72 for the program: with a step of at least 16384 all pictures have the same cells and the same bits. -/
theorem large_step_cells (M : Libm F64) (hM : M.Lawful) (hM2 : ∀ x y, M.hypot x y = .nan ∨ FloatOps.ge (M.hypot x y) (.fin 0) = true)
    (c : GrayImage) (n a : Nat) (s : ℚ) (hc : c.IsSquare n) (hn2 : 2 ≤ n) (hn : n ≤ 2 ^ 14)
    (ha1 : 1 ≤ a) (ha : a ≤ 11) (hs1 : 16384 ≤ (s : ℝ)) (hs2 : (s : ℝ) ≤ 2 ^ 100) :
    ∃ fs, equalizedFeatures (Deps.program M) c a = .ok fs ∧
      threeBitQuantization fs (.fin s) = .ok (List.replicate a 0, (List.replicate a [true, true, false]).flatten) := by
  have hv : ((1 / 2 ^ 20 : ℚ) : ℝ) = 1 / 2 ^ 20 := by norm_num
  obtain ⟨fs, h1, h2, h3, _⟩ := program_feature_list M hM c n a (1 / 2 ^ 20) hc hn2 hn ha1 ha (by rw [hv])
  refine ⟨fs, h1, small_cells M hM hM2 c n a s hc hn2 hn ha1 ha (le_trans (by norm_num) hs1) hs2 fs h1 h2 fun f hf => ⟨(h3 f hf).1, ?_⟩⟩
  have := (h3 f hf).2
  have hv' : val (F64.fin (1 / 2 ^ 20)) = 1 / 2 ^ 20 := hv
  rw [hv'] at this
  refine le_trans this ?_
  have : (2 : ℝ) ^ 32 * (1 / 2 ^ 20) = 4096 := by norm_num
  rw [this]
  linarith

end Sia
