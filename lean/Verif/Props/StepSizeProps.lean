import Verif.Props.StepProps
import Verif.Props.FloatIeee
import Verif.Props.TransplantProps
import Mathlib.Analysis.Real.Pi.Bounds

/-! C72: steps that are too small or too large for the features switch content authentication off as well.

A step so small that feature / step leaves the 64-bit range puts every feature into the largest cell (double arithmetic). A step
larger than every possible feature makes all pictures acceptable that carry the record (exact arithmetic). -/
namespace Sia
open FloatOps

/-! ### Too small -/

/-- The feature is at least `2^64` steps (`step` a positive number of the double format). -/
def ManySteps (step f : F64) : Prop := ∃ x y : ℚ, f = .fin x ∧ step = .fin y ∧ IsDouble y ∧ 0 < y ∧ 2 ^ 64 * y ≤ x

theorem clampZ_top (z : ℤ) (h : 2 ^ 63 - 1 ≤ z) : clampZ i64Min i64Max z = 2 ^ 63 - 1 := by
  unfold clampZ i64Min i64Max
  split_ifs <;> omega

/-- What is left of a number that is at least `2^63 y`: infinity or again such a number. -/
theorem ofRat_big (x b : ℚ) (hb : OnGrid b) (h0 : 0 ≤ b) (h : b ≤ x) :
    F64.ofRat x = .inf false ∨ ∃ z, F64.ofRat x = .fin z ∧ b ≤ z := by
  have hm : b ≤ rne64 x := by
    have := rne64_mono h
    rwa [rne64_self b hb] at this
  unfold F64.ofRat
  dsimp only
  split_ifs with hc
  · left
    rw [decide_eq_false (not_lt.mpr (h0.trans h))]
  · exact Or.inr ⟨_, rfl, hm⟩

theorem quantize_big (x y : ℚ) (hy : 0 < y) (h : 2 ^ 63 * y ≤ x) : quantizeOne (F64.fin y) (F64.fin x) = 2 ^ 63 - 1 := by
  have hq : (2 : ℚ) ^ 63 ≤ x / y := by rwa [le_div_iff₀ hy]
  have hd : F64.div (.fin x) (.fin y) = F64.ofRat (x / y) := by simp [F64.div, ne_of_gt hy]
  unfold quantizeOne
  show F64.truncSat i64Min i64Max (F64.floor (F64.div (.fin x) (.fin y))) = _
  rw [hd]
  rcases ofRat_big (x / y) (2 ^ 63) ⟨1, 63, by norm_num, by norm_num, by norm_num⟩ (by positivity) hq with e | ⟨z, e, hz⟩
  · rw [e]; rfl
  · rw [e]
    show clampZ i64Min i64Max (truncZ ((⌊z⌋ : ℤ) : ℚ)) = _
    have h1 : (2 : ℤ) ^ 63 ≤ ⌊z⌋ := Int.le_floor.mpr (by push_cast; exact hz)
    have h2 : truncZ ((⌊z⌋ : ℤ) : ℚ) = ⌊z⌋ := by
      unfold truncZ
      split_ifs
      · exact Int.floor_intCast _
      · exact Int.ceil_intCast _
    rw [h2]
    exact clampZ_top _ (by omega)

theorem quantize_inf (y : ℚ) (hy : 0 < y) : quantizeOne (F64.fin y) (F64.inf false) = 2 ^ 63 - 1 := by
  have hd : F64.div (.inf false) (.fin y) = .inf false := by
    simp [F64.div, not_lt.2 hy.le]
  unfold quantizeOne
  show F64.truncSat i64Min i64Max (F64.floor (F64.div (.inf false) (.fin y))) = _
  rw [hd]
  rfl

/-- A feature of at least `2^64` steps lies in the largest cell. -/
theorem quantize_manySteps (step f : F64) (h : ManySteps step f) : quantizeOne step f = 2 ^ 63 - 1 := by
  obtain ⟨x, y, rfl, rfl, _, hy, hx⟩ := h
  exact quantize_big x y hy (by linarith)

/-- It stays there whatever the perturbation bits say. -/
theorem restored_manySteps (step f : F64) (h : ManySteps step f) (bits : List Bool) :
    quantizeOne step (restored step bits f) = 2 ^ 63 - 1 := by
  have h0 := quantize_manySteps step f h
  obtain ⟨x, y, rfl, rfl, ⟨m, e, hm, he, _, hy'⟩, hy, hx⟩ := h
  have hgrid : OnGrid (2 ^ 63 * y) := by
    refine ⟨m, e + 63, hm.le, by omega, ?_⟩
    rw [hy', zpow_add₀ (by norm_num)]
    norm_num
    ring
  have big : ∀ r : ℚ, 2 ^ 63 * y ≤ r → quantizeOne (F64.fin y) (F64.ofRat r) = 2 ^ 63 - 1 := by
    intro r hr
    rcases ofRat_big r _ hgrid (by positivity) hr with e | ⟨z, e, hz⟩
    · rw [e]; exact quantize_inf y hy
    · rw [e]; exact quantize_big z y hy hz
  have hadd : quantizeOne (F64.fin y) (FloatOps.add (F64.fin x) (F64.fin y)) = 2 ^ 63 - 1 :=
    big (x + y) (by linarith)
  have hsub : quantizeOne (F64.fin y) (FloatOps.sub (F64.fin x) (F64.fin y)) = 2 ^ 63 - 1 :=
    big (x + -y) (by linarith)
  unfold restored
  split
  · unfold restoreOne
    dsimp only
    split_ifs <;> assumption
  · exact h0

/-- C72: with a step too small for all features, dequantization gives the largest cell for every feature, whatever the features. -/
theorem dequantization_manySteps (fs : List F64) (step : F64) (hf : ∀ f ∈ fs, ManySteps step f) (p : List Bool) (h3 : 3 ∣ p.length)
    (hl : p.length / 3 ≤ fs.length) :
    threeBitDequantization fs p step = .ok (List.replicate (p.length / 3) (2 ^ 63 - 1)) := by
  have hm : ∀ f ∈ fs, quantizeOne step f ≠ i64Min := by
    intro f h; rw [quantize_manySteps step f (hf f h)]; decide
  rw [threeBitDequantization_ok fs p _ hm h3 hl]
  congr 1
  have hlen : (chunks 3 p).length = p.length / 3 := by rw [chunks_length (by omega)]; omega
  rw [← hlen] at hl ⊢
  generalize chunks 3 p = ts at *
  clear h3 hlen hm
  induction ts generalizing fs with
  | nil => rfl
  | cons t ts ih =>
    cases fs with
    | nil => simp at hl
    | cons f fs =>
      simp only [List.zipWith_cons_cons, List.map_cons, List.length_cons, List.replicate_succ]
      rw [restored_manySteps step f (hf f (by simp)), ih fs (fun g hg => hf g (by simp [hg])) (by simpa using hl)]

/-- C72: and quantization gives the same cells. -/
theorem quantization_manySteps (fs : List F64) (step : F64) (hf : ∀ f ∈ fs, ManySteps step f) :
    ∃ p, threeBitQuantization fs step = .ok (List.replicate fs.length (2 ^ 63 - 1), p) ∧ p.length = 3 * fs.length := by
  have hm : ∀ f ∈ fs, quantizeOne step f ≠ i64Min := by
    intro f h; rw [quantize_manySteps step f (hf f h)]; decide
  have he : quantize fs step = List.replicate fs.length (2 ^ 63 - 1) := by
    rw [List.eq_replicate_iff]
    refine ⟨by simp [quantize], ?_⟩
    intro z hz
    obtain ⟨f, hf', rfl⟩ := List.mem_map.mp hz
    exact quantize_manySteps step f (hf f hf')
  have h := threeBitQuantization_ok fs step hm
  rw [h]
  obtain ⟨h1, h2⟩ := threeBitQuantization_lengths fs step _ _ h
  exact ⟨_, by rw [← he, ← h1], h2⟩

/-- C72: with a step of at most `2^-64` of every feature, a marked channel authenticates after any change of its content that keeps
the embedded bits readable and the features that large. -/
theorem tiny_step_accepts_everything (D : Deps F64) (hL : D.ldpc.DecodesClean)
    (hk : D.ed.KeyPair builtinSecret builtinPublic) (c : GrayImage) (n levels a : Nat) (depth step : F64) (t : ℝ)
    (hc : c.IsSquare n) (hg : EmbedGeometry n levels c.pixels) (hs : SignalOK n levels c.pixels depth t)
    (hsup : SupportedCapacity (domainBytes n levels)) (hal : blockBytes (domainBytes n levels) ∣ domainBytes n levels)
    (hfit : recordBytes a + 4 ≤ domainBytes n levels / 2) (ha : a ≤ 85)
    (fs : List F64) (hf : equalizedFeatures D c a = .ok fs) (hbig : ∀ f ∈ fs, ManySteps step f) :
    ∃ out, watermarkChannel D c depth step a levels = .ok out ∧ out.IsSquare n ∧
      ∀ noisy : GrayImage, noisy.IsSquare n → WithinNoise n t out.pixels noisy.pixels →
        ∀ gs : List F64, equalizedFeatures D noisy a = .ok gs → (∀ g ∈ gs, ManySteps step g) →
          authenticateChannel D noisy depth step a levels = .ok true := by
  obtain ⟨p, hq, hp⟩ := quantization_manySteps fs step hbig
  obtain ⟨out, h1, h2, h3⟩ := marked_channel_verdict D hL hk c n levels a depth step t hc hg hs hsup hal hfit ha fs hf _ p hq
  refine ⟨out, h1, h2, ?_⟩
  intro noisy hn hw gs hgs hgpos
  have l1 := (equalizedFeatures_length D c a fs hf).2.1
  have l2 := (equalizedFeatures_length D noisy a gs hgs).2.1
  have hd := dequantization_manySteps gs step hgpos p (by omega) (by omega)
  rw [h3 noisy hn hw a gs _ hgs hd]
  have : p.length / 3 = fs.length := by omega
  rw [this, hk.verifies]

/-! ### Too large -/

/-- C72, exact arithmetic: with `a` features and a step of at least `510 a / π` (1786 for the 11 features the programs use), the
features are not checked at all: every square picture from which the record of a marked channel is extracted is accepted. -/
theorem large_step_ignores_content (D : Deps ℝ) (hD : D.Exact) (hL : D.ldpc.DecodesClean)
    (hk : D.ed.KeyPair builtinSecret builtinPublic) (c : GrayImage) (n levels a : Nat) (depth step : ℝ) (hc : c.IsSquare n)
    (hg : EmbedGeometry n levels c.pixels) (hd : 2 ^ (levels + 1) < depth)
    (hpix : ∀ i < n, ∀ j < n, 3 / 4 * depth / 2 ^ levels ≤ ((c.pixels.get i j).toNat : ℝ) ∧
      ((c.pixels.get i j).toNat : ℝ) ≤ 255 - 3 / 4 * depth / 2 ^ levels)
    (hsup : SupportedCapacity (domainBytes n levels)) (hal : blockBytes (domainBytes n levels) ∣ domainBytes n levels)
    (hfit : recordBytes a + 4 ≤ domainBytes n levels / 2) (ha1 : 1 ≤ a) (ha : a ≤ 85) (hstep : 510 * a / Real.pi ≤ step) :
    ∃ out data, watermarkChannel D c depth step a levels = .ok out ∧ extract D.ldpc out.pixels depth levels = .ok data ∧
      ∀ (B : GrayImage) (n' : Nat), 2 ≤ n' → B.IsSquare n' → ∀ (depth' : ℝ) (levels' : Nat),
        extract D.ldpc B.pixels depth' levels' = .ok data → authenticateChannel D B depth' step a levels' = .ok true := by
  have hn : 2 ≤ n := by
    have h2 := hg.capacity
    unfold domainBytes at h2
    rcases Nat.lt_or_ge n 2 with h | h
    · have : n / 2 ^ levels ≤ n := Nat.div_le_self _ _
      have : (n / 2 ^ levels) * (n / 2 ^ levels) ≤ 1 * 1 := Nat.mul_le_mul (by omega) (by omega)
      omega
    · exact h
  have hpos : 0 < step := by
    refine lt_of_lt_of_le ?_ hstep
    have : (1 : ℝ) ≤ a := by exact_mod_cast ha1
    have := Real.pi_pos
    positivity
  obtain ⟨c1, c2, c3⟩ := id hc
  have hraw : c.raw.length = c.width * c.height := by rw [c1, c2, c3]
  obtain ⟨fs, hf, hfb⟩ := exact_features_exist D hD c n a hn ha1 hc
  have close : ∀ gs : List ℝ, gs.length = a → (∀ g ∈ gs, 0 ≤ g ∧ g ≤ 510 * a / Real.pi) →
      List.Forall₂ (fun f g : ℝ => |g - f| ≤ step) fs gs := by
    intro gs hl hb
    rw [List.forall₂_iff_get]
    refine ⟨by rw [(equalizedFeatures_length D c a fs hf).2.1, hl], ?_⟩
    intro i hi1 hi2
    have a1 := hfb _ (List.get_mem fs ⟨i, hi1⟩)
    have a2 := hb _ (List.get_mem gs ⟨i, hi2⟩)
    rw [abs_le]
    constructor <;> linarith [a1.1, a1.2, a2.1, a2.2]
  have hfs : ∀ f ∈ fs, |f| ≤ 2 ^ 61 * step := by
    intro f hff
    obtain ⟨b1, b2⟩ := hfb f hff
    rw [abs_of_nonneg b1]
    linarith
  obtain ⟨q, p, hq, _⟩ := dequantization_undoes_noise step hpos fs fs hfs (close fs (equalizedFeatures_length D c a fs hf).2.1 hfb)
  obtain ⟨_, hq2⟩ := threeBitQuantization_lengths fs step q p hq
  obtain ⟨_, hl, _⟩ := equalizedFeatures_length D c a fs hf
  obtain ⟨record, _, hdes, hlen, hwm⟩ := watermarkChannel_split D c depth step a levels hraw fs hf q p hq hk.keypair
    (by rw [hq2, hl]; omega)
  obtain ⟨m, he, hm, hx⟩ := extract_tolerates_noise_exact D.ldpc hL n levels c.pixels record depth 0 hg le_rfl (by linarith) hpix
    hsup hal (by rw [hlen]; unfold recordBytes; omega) (by rw [hlen]; unfold recordBytes; omega) (by rw [hlen]; exact hfit)
  obtain ⟨r1, r2, r3⟩ := fromRaw_toList m n hm
  refine ⟨⟨n, n, m.toList⟩, record, ?_, ?_, ?_⟩
  · rw [hwm, he, c1, c2]; exact r1
  · apply hx
    refine ⟨⟨rfl, rfl⟩, fun i hi j hj => ?_⟩
    rw [r3 i hi j hj, sub_self, abs_zero]
  · intro B n' hn' hB depth' levels' hxB
    obtain ⟨gs, hgs, hgb⟩ := exact_features_exist D hD B n' a hn' ha1 hB
    obtain ⟨q', p', hq', hdq⟩ := dequantization_undoes_noise step hpos fs gs hfs
      (close gs (equalizedFeatures_length D B a gs hgs).2.1 hgb)
    rw [hq] at hq'
    cases hq'
    rw [authenticate_iff]
    have := hdes []
    rw [List.append_nil] at this
    exact ⟨by rw [hB.1, hB.2.1, hB.2.2], gs, record, _, q, hgs, hxB, this, hdq, hk.public_ok, hk.parses _, hk.verifies _⟩

/-- C72 on a concrete case (too large): the test channel marked with step 1786. -/
example : ∃ out data, watermarkChannel Deps.toyReal testChannel 100 1786 11 3 = .ok out ∧
    extract Ldpc.toy out.pixels (100 : ℝ) 3 = .ok data ∧
      ∀ (B : GrayImage) (n' : Nat), 2 ≤ n' → B.IsSquare n' → ∀ (depth' : ℝ) (levels' : Nat),
        extract Ldpc.toy B.pixels depth' levels' = .ok data → authenticateChannel Deps.toyReal B depth' 1786 11 levels' = .ok true :=
  large_step_ignores_content Deps.toyReal Deps.toyReal_exact Ldpc.toy_decodesClean (Ed25519.toy_keyPair _ _ rfl rfl)
    testChannel 512 3 11 100 1786 testChannel_square testChannel_geometry (by norm_num) (by
      intro i hi j hj
      obtain ⟨a, b⟩ := testChannel_range i hi j hj
      have a' : (100 : ℝ) ≤ ((testChannel.pixels.get i j).toNat : ℝ) := by exact_mod_cast a
      have b' : ((testChannel.pixels.get i j).toNat : ℝ) ≤ 131 := by exact_mod_cast b
      constructor <;> linarith) (by decide) (by decide) (by decide) (by decide) (by decide) (by
      rw [div_le_iff₀ Real.pi_pos]
      have := Real.pi_gt_d4
      push_cast
      nlinarith)

/-- The number 5 of the double format is at least `2^64` steps of `2^-62`. -/
theorem five_manySteps : ManySteps (.fin (1 / 2 ^ 62)) (.fin 5) :=
  ⟨5, 1 / 2 ^ 62, rfl, rfl, ⟨1, -62, by norm_num, by norm_num, by norm_num, by norm_num⟩, by norm_num, by norm_num⟩

/-- C72 on a concrete case (too small): the test channel marked with step `2^-64` in doubles. -/
example : ∃ out, watermarkChannel Deps.toyDouble testChannel (.fin 100) (.fin (1 / 2 ^ 64)) 11 3 = .ok out ∧ out.IsSquare 512 ∧
    ∀ noisy : GrayImage, noisy.IsSquare 512 → WithinNoise 512 2 out.pixels noisy.pixels →
      ∀ gs, equalizedFeatures Deps.toyDouble noisy 11 = .ok gs →
        authenticateChannel Deps.toyDouble noisy (.fin 100) (.fin (1 / 2 ^ 64)) 11 3 = .ok true := by
  have hs : SignalOK 512 3 testChannel.pixels (F64.fin 100) 2 := by
    refine signalOK_double 512 3 le_rfl _ 100 2 (by norm_num) (by norm_num) ?_
    intro i hi j hj
    obtain ⟨h1, h2⟩ := testChannel_range i hi j hj
    have h1' : (100 : ℝ) ≤ ((testChannel.pixels.get i j).toNat : ℝ) := by exact_mod_cast h1
    have h2' : ((testChannel.pixels.get i j).toNat : ℝ) ≤ 131 := by exact_mod_cast h2
    constructor
    · refine le_trans ?_ h1'; norm_num
    · refine le_trans h2' ?_; norm_num
  have many : ∀ (c : GrayImage) (a : Nat) (fs : List F64), equalizedFeatures Deps.toyDouble c a = .ok fs →
      ∀ f ∈ fs, ManySteps (.fin (1 / 2 ^ 64)) f := by
    intro c a fs h f hf
    obtain ⟨k, rfl⟩ := toyDouble_natural c a fs h f hf
    refine ⟨_, 1 / 2 ^ 64, rfl, rfl, ⟨1, -64, by norm_num, by norm_num, by norm_num, by norm_num⟩, by norm_num, ?_⟩
    push_cast
    have : (0 : ℚ) ≤ k := by positivity
    linarith
  obtain ⟨fs, hf, _⟩ := equalizedFeatures_square Deps.toyDouble testChannel 512 11 testChannel_square (by decide)
  obtain ⟨out, h1, h2, h3⟩ := tiny_step_accepts_everything Deps.toyDouble Ldpc.toy_decodesClean
    (Ed25519.toy_keyPair _ _ rfl rfl) testChannel 512 3 11 (.fin 100) (.fin (1 / 2 ^ 64)) 2 testChannel_square testChannel_geometry hs
    (by decide) (by decide) (by decide) (by decide) fs hf (many _ _ _ hf)
  exact ⟨out, h1, h2, fun noisy hn hw gs hg => h3 noisy hn hw gs hg (many _ _ _ hg)⟩

end Sia
