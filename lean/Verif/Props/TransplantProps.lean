import Verif.Props.PipelineExamples
import Verif.Props.RejectProps

/-! C71: what the signature in a record does not cover. A record is bound to a picture only through the feature cells: whoever can
read one accepted picture can put its record, with another text, into other pictures without knowing the secret key; in exact
arithmetic the mirrored or rotated picture always has the same record. -/
namespace Sia
open LawfulFloat

section
variable {F : Type} [FloatOps F] [LawfulFloat F]

/-- C71: let the channel `A` be accepted. It carries a record `w` whose bits restore the features of `A` to some cells `q`. Then
for every text of at most 255 bytes and every suitable square channel `B` (of any side, marked at any depth and number of levels),
the record with the bits and the signature of `w` and the new text can be embedded into `B` with `serialize` and `embed`, which take
no key; every channel within `t` per pixel of the result whose features are restored to the same cells `q` is accepted. -/
theorem record_transplant (D : Deps F) (hL : D.ldpc.DecodesClean)
    (A : GrayImage) (depthA stepA : F) (aA levelsA : Nat)
    (hA : authenticateChannel D A depthA stepA aA levelsA = .ok true) :
    ∃ (data : List UInt8) (w : Watermark) (fs : List F) (q : List Int),
      extract D.ldpc A.pixels depthA levelsA = .ok data ∧ deserializeWatermark data = .ok w ∧
      equalizedFeatures D A aA = .ok fs ∧ threeBitDequantization fs w.perturbationVector stepA = .ok q ∧
      ∀ (text : String), text.utf8ByteSize ≤ 255 →
      ∀ (B : GrayImage) (n levels : Nat) (depth : F) (t : ℝ), B.IsSquare n → EmbedGeometry n levels B.pixels →
        SignalOK n levels B.pixels depth t → SupportedCapacity (domainBytes n levels) →
        blockBytes (domainBytes n levels) ∣ domainBytes n levels →
        3 + (w.perturbationVector.length + 7) / 8 + 64 + text.utf8ByteSize + 4 ≤ domainBytes n levels / 2 →
        ∃ record m, Watermark.serialize ⟨w.perturbationVector, w.signature, text⟩ = .ok record ∧
          embed D.ldpc B.pixels record depth levels = .ok m ∧ m.IsSquare n ∧
          ∀ noisy : GrayImage, noisy.IsSquare n → WithinNoise n t m noisy.pixels →
            ∀ (a : Nat) (step : F) (gs : List F), equalizedFeatures D noisy a = .ok gs →
              threeBitDequantization gs w.perturbationVector step = .ok q →
              authenticateChannel D noisy depth step a levels = .ok true := by
  obtain ⟨_, fs, data, w, q, hf, hx, hw, hq, hpub, hsig, hver⟩ := (authenticate_iff _ _ _ _ _ _ _).mp hA
  refine ⟨data, w, fs, q, hx, hw, hf, hq, ?_⟩
  intro text htext B n levels depth t hB hg hs hsup hal hfit
  have hsl := D.ed.signature_length _ hsig
  have hpl : w.perturbationVector.length ≤ 255 := by
    obtain ⟨out, ho, _⟩ := watermark_parse_reserialize data w hw
    exact ((watermark_serialize_iff w).mp ⟨_, ho⟩).1
  obtain ⟨record, hser, hdes⟩ := watermark_roundtrip ⟨w.perturbationVector, w.signature, text⟩
    ⟨hpl, by dsimp only; omega, htext⟩
  have hlen := watermark_serialize_length _ record hser
  dsimp only at hlen
  rw [hsl] at hlen
  obtain ⟨m, he, hm, hxm⟩ := extract_tolerates_noise D.ldpc hL n levels B.pixels record depth t hg hs hsup hal
    (by omega) (by omega) (by omega)
  refine ⟨record, m, hser, he, hm, ?_⟩
  intro noisy hn hnoise a step gs hgs hgq
  have hd := hdes []
  rw [List.append_nil] at hd
  rw [authenticate_iff]
  exact ⟨by rw [hn.1, hn.2.1, hn.2.2], gs, record, _, q, hgs, hxm _ hnoise, hd, hgq, hpub, hsig, hver⟩

/-- C71: the text of a record has no influence on the verdict: two channels with the same features whose records differ only in the
text get the same answer. -/
theorem text_not_covered (D : Deps F) (c c' : GrayImage) (depth depth' step : F) (a levels levels' : Nat)
    (hraw : c.raw.length = c.width * c.height) (hraw' : c'.raw.length = c'.width * c'.height)
    (hf : equalizedFeatures D c a = equalizedFeatures D c' a) (p : List Bool) (s : List UInt8) (text text' : String)
    (data data' : List UInt8) (hx : extract D.ldpc c.pixels depth levels = .ok data)
    (hx' : extract D.ldpc c'.pixels depth' levels' = .ok data')
    (hw : deserializeWatermark data = .ok ⟨p, s, text⟩) (hw' : deserializeWatermark data' = .ok ⟨p, s, text'⟩) (b : Bool) :
    authenticateChannel D c depth step a levels = .ok b ↔ authenticateChannel D c' depth' step a levels' = .ok b := by
  rw [authenticate_iff, authenticate_iff]
  constructor
  · rintro ⟨_, fs, d, w, q, h1, h2, h3, h4, h5⟩
    rw [hx] at h2; cases h2
    rw [hw] at h3; cases h3
    exact ⟨hraw', fs, data', _, q, hf ▸ h1, hx', hw', h4, h5⟩
  · rintro ⟨_, fs, d, w, q, h1, h2, h3, h4, h5⟩
    rw [hx'] at h2; cases h2
    rw [hw'] at h3; cases h3
    exact ⟨hraw, fs, data, _, q, hf ▸ h1, hx, hw, h4, h5⟩

end

/-- C71 in exact arithmetic: let `c` be marked. Then the bytes extracted from the marked channel can be embedded into every other
suitable square channel `B`, and every result (also after noise of at most `t'`) whose features differ from those of `c` by at most
one step is accepted. -/
theorem other_picture_authenticates (D : Deps ℝ) (hL : D.ldpc.DecodesClean) (hk : D.ed.KeyPair builtinSecret builtinPublic)
    (c : GrayImage) (n levels a : Nat) (depth step : ℝ) (hc : c.IsSquare n)
    (hg : EmbedGeometry n levels c.pixels) (hd : 2 ^ (levels + 1) < depth)
    (hpix : ∀ i < n, ∀ j < n, 3 / 4 * depth / 2 ^ levels ≤ ((c.pixels.get i j).toNat : ℝ) ∧
      ((c.pixels.get i j).toNat : ℝ) ≤ 255 - 3 / 4 * depth / 2 ^ levels)
    (hsup : SupportedCapacity (domainBytes n levels)) (hal : blockBytes (domainBytes n levels) ∣ domainBytes n levels)
    (hfit : recordBytes a + 4 ≤ domainBytes n levels / 2) (ha : a ≤ 85) (hstep : 0 < step)
    (fs : List ℝ) (hf : equalizedFeatures D c a = .ok fs) (hfs : ∀ f ∈ fs, |f| ≤ 2 ^ 61 * step) :
    ∃ out data, watermarkChannel D c depth step a levels = .ok out ∧ extract D.ldpc out.pixels depth levels = .ok data ∧
      ∀ (B : GrayImage) (n' levels' : Nat) (depth' t' : ℝ), B.IsSquare n' → EmbedGeometry n' levels' B.pixels → 0 ≤ t' →
        2 ^ (levels' + 1) * (2 * t' + 1) < depth' →
        (∀ i < n', ∀ j < n', 3 / 4 * depth' / 2 ^ levels' ≤ ((B.pixels.get i j).toNat : ℝ) ∧
          ((B.pixels.get i j).toNat : ℝ) ≤ 255 - 3 / 4 * depth' / 2 ^ levels') →
        SupportedCapacity (domainBytes n' levels') → blockBytes (domainBytes n' levels') ∣ domainBytes n' levels' →
        recordBytes a + 4 ≤ domainBytes n' levels' / 2 →
        ∃ m, embed D.ldpc B.pixels data depth' levels' = .ok m ∧ m.IsSquare n' ∧
          ∀ noisy : GrayImage, noisy.IsSquare n' → WithinNoise n' t' m noisy.pixels →
            ∀ gs : List ℝ, equalizedFeatures D noisy a = .ok gs → List.Forall₂ (fun f g => |g - f| ≤ step) fs gs →
              authenticateChannel D noisy depth' step a levels' = .ok true := by
  obtain ⟨c1, c2, c3⟩ := id hc
  have hraw : c.raw.length = c.width * c.height := by rw [c1, c2, c3]
  have hfs' : List.Forall₂ (fun f g : ℝ => |g - f| ≤ step) fs fs := by
    rw [List.forall₂_same]
    intro x _; simp only [sub_self, abs_zero]; exact hstep.le
  obtain ⟨q, p, hq, _⟩ := dequantization_undoes_noise step hstep fs fs hfs hfs'
  obtain ⟨_, hq2⟩ := threeBitQuantization_lengths fs step q p hq
  obtain ⟨_, hl, _⟩ := equalizedFeatures_length D c a fs hf
  obtain ⟨record, _, hdes, hlen, hwm⟩ := watermarkChannel_split D c depth step a levels hraw fs hf q p hq hk.keypair
    (by rw [hq2, hl]; omega)
  obtain ⟨m, he, hm, hx⟩ := extract_tolerates_noise_exact D.ldpc hL n levels c.pixels record depth 0 hg le_rfl (by linarith) hpix
    hsup hal (by rw [hlen]; unfold recordBytes; omega) (by rw [hlen]; unfold recordBytes; omega) (by rw [hlen]; exact hfit)
  obtain ⟨r1, r2, r3⟩ := fromRaw_toList m n hm
  refine ⟨⟨n, n, m.toList⟩, record, ?_, ?_, ?_⟩
  · rw [hwm, he, c1, c2]; exact r1
  · apply hx
    refine ⟨⟨rfl, rfl⟩, fun i hi j hj => ?_⟩
    rw [r3 i hi j hj, sub_self, abs_zero]
  · intro B n' levels' depth' t' hB hg' ht' hd' hpix' hsup' hal' hfit'
    obtain ⟨m', he', hm', hx'⟩ := extract_tolerates_noise_exact D.ldpc hL n' levels' B.pixels record depth' t' hg' ht' hd' hpix'
      hsup' hal' (by rw [hlen]; unfold recordBytes; omega) (by rw [hlen]; unfold recordBytes; omega) (by rw [hlen]; exact hfit')
    refine ⟨m', he', hm', ?_⟩
    intro noisy hn hnoise gs hgs hclose
    obtain ⟨q', p', hq', hdq⟩ := dequantization_undoes_noise step hstep fs gs hfs hclose
    rw [hq] at hq'
    cases hq'
    rw [authenticate_iff]
    have := hdes []
    rw [List.append_nil] at this
    exact ⟨by rw [hn.1, hn.2.1, hn.2.2], gs, record, _, q, hgs, hx' _ hnoise, this, hdq, hk.public_ok, hk.parses _, hk.verifies _⟩

/-! ### Mirrored pictures -/

/-- Contract of histogram equalisation: the new value of a sample depends only on its value and on the histogram (how often each value
occurs), not on positions. -/
def Deps.HistogramOnly {F : Type} (D : Deps F) : Prop :=
  ∃ table : (UInt8 → Nat) → UInt8 → UInt8, ∀ c : GrayImage, D.equalize c = c.raw.map (table fun v => c.raw.count v)

/-- The channel `c'` shows the square picture `c` transformed by one of the eight symmetries of the square. -/
def IsMirrored (n : Nat) (swap flip1 flip2 : Bool) (c c' : GrayImage) : Prop :=
  c.IsSquare n ∧ c'.IsSquare n ∧ ∀ i < n, ∀ j < n, c'.pixels.get i j =
    c.pixels.get (squareSymmetry n swap flip1 flip2 i j).1 (squareSymmetry n swap flip1 flip2 i j).2

/-- Number of samples with a value in `s`, from the histogram. -/
theorem countP_histogram (raw : List UInt8) (s : Finset Nat) (hs : ∀ w ∈ s, w < 256) :
    ∑ w ∈ s, raw.count (UInt8.ofNat w) = raw.countP (fun x => decide (x.toNat ∈ s)) := by
  induction raw with
  | nil => simp
  | cons x xs ih =>
    simp only [List.count_cons, Finset.sum_add_distrib, ih, List.countP_cons]
    congr 1
    by_cases h : x.toNat ∈ s
    · rw [if_pos (by simpa using h), Finset.sum_eq_single_of_mem _ h]
      · simp
      · intro b hb hne
        rw [if_neg]
        intro he
        have he := UInt8.toNat_inj.mpr (eq_of_beq he)
        rw [UInt8.toNat_ofNat'] at he
        have := hs b hb
        omega
    · rw [if_neg (by simpa using h)]
      apply Finset.sum_eq_zero
      intro b hb
      rw [if_neg]
      intro he
      have he := UInt8.toNat_inj.mpr (eq_of_beq he)
      rw [UInt8.toNat_ofNat'] at he
      have := hs b hb
      have : x.toNat = b := by omega
      exact h (this ▸ hb)

/-- The documented histogram equalisation meets the contract. -/
theorem Deps.toyReal_histogramOnly : Deps.toyReal.HistogramOnly := by
  refine ⟨fun h v => UInt8.ofNat (255 * (∑ w ∈ Finset.range (v.toNat + 1), h (UInt8.ofNat w)) /
    (∑ w ∈ Finset.range 256, h (UInt8.ofNat w))), ?_⟩
  intro c
  show equalizeExact c.raw = _
  unfold equalizeExact
  apply List.map_congr_left
  intro v hv
  have e1 : ∑ w ∈ Finset.range (v.toNat + 1), c.raw.count (UInt8.ofNat w) = cumulative c.raw v := by
    rw [countP_histogram _ _ (by
      intro w hw
      have := Finset.mem_range.mp hw
      have := v.toNat_lt
      omega)]
    unfold cumulative
    apply List.countP_congr
    intro x _
    rw [decide_eq_true_eq, decide_eq_true_eq, Finset.mem_range, UInt8.le_iff_toNat_le]
    omega
  have e2 : ∑ w ∈ Finset.range 256, c.raw.count (UInt8.ofNat w) = c.raw.length := by
    rw [countP_histogram _ _ (fun w hw => Finset.mem_range.mp hw), List.countP_eq_length]
    intro x _
    rw [decide_eq_true_eq, Finset.mem_range]
    exact x.toNat_lt
  dsimp only
  rw [e1, e2]

/-- A mirrored channel has the same samples in another order. -/
theorem mirrored_perm (n : Nat) (swap flip1 flip2 : Bool) (c c' : GrayImage) (h : IsMirrored n swap flip1 flip2 c c') :
    c'.raw.Perm c.raw := by
  obtain ⟨⟨h1, h2, h3⟩, ⟨h1', h2', h3'⟩, hm⟩ := h
  let σ : Nat → Nat := fun k =>
    (squareSymmetry n swap flip1 flip2 (k / n) (k % n)).1 * n + (squareSymmetry n swap flip1 flip2 (k / n) (k % n)).2
  have hb : ∀ k < n * n, k / n < n ∧ k % n < n := by
    intro k hk
    have hn : 0 < n := by
      rcases Nat.eq_zero_or_pos n with rfl | h
      · simp at hk
      · exact h
    exact ⟨Nat.div_lt_of_lt_mul hk, Nat.mod_lt _ hn⟩
  have hs : ∀ i < n, ∀ j < n, (squareSymmetry n swap flip1 flip2 i j).1 < n ∧ (squareSymmetry n swap flip1 flip2 i j).2 < n := by
    intro i hi j hj
    unfold squareSymmetry
    cases swap <;> cases flip1 <;> cases flip2 <;> simp <;> omega
  have hlt : ∀ i < n, ∀ j < n, i * n + j < n * n := by
    intro i hi j hj
    nlinarith
  have e1 : c'.raw = (List.range (n * n)).map fun k => c.raw.getD (σ k) 0 := by
    apply List.ext_getElem
    · rw [h3', List.length_map, List.length_range]
    · intro k hk hk'
      rw [List.getElem_map, List.getElem_range]
      have hk2 : k < n * n := by omega
      obtain ⟨b1, b2⟩ := hb k hk2
      have := hm (k / n) b1 (k % n) b2
      unfold GrayImage.pixels at this
      dsimp only at this
      rw [h2, h2', show k / n * n + k % n = k by rw [mul_comm]; exact Nat.div_add_mod k n] at this
      rw [← this, List.getD_eq_getElem?_getD, List.getElem?_eq_getElem hk, Option.getD_some]
  have e0 : c.raw = (List.range (n * n)).map fun k => c.raw.getD k 0 := by
    apply List.ext_getElem
    · rw [h3, List.length_map, List.length_range]
    · intro k hk hk'
      rw [List.getElem_map, List.getElem_range, List.getD_eq_getElem?_getD, List.getElem?_eq_getElem hk, Option.getD_some]
  have hσ : ((List.range (n * n)).map σ).Perm (List.range (n * n)) := by
    have hsub : (List.range (n * n)).map σ ⊆ List.range (n * n) := by
      intro x hx
      obtain ⟨k, hk, rfl⟩ := List.mem_map.mp hx
      obtain ⟨b1, b2⟩ := hb k (List.mem_range.mp hk)
      obtain ⟨s1, s2⟩ := hs _ b1 _ b2
      exact List.mem_range.mpr (hlt _ s1 _ s2)
    have hnd : ((List.range (n * n)).map σ).Nodup := by
      rw [List.nodup_map_iff_inj_on List.nodup_range]
      intro x hx y hy he
      obtain ⟨b1, b2⟩ := hb x (List.mem_range.mp hx)
      obtain ⟨b3, b4⟩ := hb y (List.mem_range.mp hy)
      obtain ⟨s1, s2⟩ := hs _ b1 _ b2
      obtain ⟨s3, s4⟩ := hs _ b3 _ b4
      have hd : (squareSymmetry n swap flip1 flip2 (x / n) (x % n)) = (squareSymmetry n swap flip1 flip2 (y / n) (y % n)) := by
        have hdiv := congrArg (· / n) he
        have hmod := congrArg (· % n) he
        dsimp only [σ] at hdiv hmod
        have hn : 0 < n := by omega
        rw [Nat.add_comm, Nat.add_mul_div_right _ _ hn, Nat.div_eq_of_lt s2, Nat.add_comm (_ * n), Nat.add_mul_div_right _ _ hn,
          Nat.div_eq_of_lt s4, Nat.zero_add, Nat.zero_add] at hdiv
        rw [Nat.mul_comm, Nat.mul_add_mod, Nat.mod_eq_of_lt s2, Nat.mul_comm, Nat.mul_add_mod, Nat.mod_eq_of_lt s4] at hmod
        exact Prod.ext hdiv hmod
      have hij : x / n = y / n ∧ x % n = y % n := by
        revert hd
        unfold squareSymmetry
        cases swap <;> cases flip1 <;> cases flip2 <;> simp <;> omega
      rw [← Nat.div_add_mod x n, ← Nat.div_add_mod y n, hij.1, hij.2]
    exact (List.subperm_of_subset hnd hsub).perm_of_length_le (by simp)
  rw [e1]
  nth_rewrite 2 [e0]
  have := hσ.map fun k => c.raw.getD k 0
  rwa [List.map_map] at this

/-- C71: a mirrored or rotated channel has the same features, also after histogram equalisation (exact arithmetic). -/
theorem mirrored_features (D : Deps ℝ) (hD : D.Exact) (hH : D.HistogramOnly) (n a : Nat) (hn : 2 ≤ n) (ha : 1 ≤ a)
    (swap flip1 flip2 : Bool) (c c' : GrayImage) (h : IsMirrored n swap flip1 flip2 c c') :
    equalizedFeatures D c' a = equalizedFeatures D c a := by
  have hperm := mirrored_perm n swap flip1 flip2 c c' h
  obtain ⟨hc, hc', hm⟩ := h
  rw [equalizedFeatures_exact D hD c n a hn ha hc, equalizedFeatures_exact D hD c' n a hn ha hc']
  obtain ⟨table, ht⟩ := hH
  have hcount : (fun v => c'.raw.count v) = fun v => c.raw.count v := funext fun v => hperm.count_eq v
  have hget : ∀ (x : GrayImage), x.IsSquare n → ∀ i < n, ∀ j < n,
      (equalizedPixels D x).get i j = table (fun v => x.raw.count v) (x.pixels.get i j) := by
    intro x hx i hi j hj
    obtain ⟨x1, x2, x3⟩ := hx
    have hlt : i * n + j < n * n := by nlinarith
    show (D.equalize x).getD (i * x.height + j) _ = table _ (x.raw.getD (i * x.height + j) 0)
    rw [ht x, x2, List.getD_eq_getElem?_getD, List.getD_eq_getElem?_getD, List.getElem?_map,
      List.getElem?_eq_getElem (by omega), Option.map_some, Option.getD_some, Option.getD_some]
  apply features_symmetric n _ _ a ha hn ⟨hc.1, hc.2.1⟩ ⟨hc'.1, hc'.2.1⟩ swap flip1 flip2
  intro i hi j hj
  have hs : (squareSymmetry n swap flip1 flip2 i j).1 < n ∧ (squareSymmetry n swap flip1 flip2 i j).2 < n := by
    unfold squareSymmetry
    cases swap <;> cases flip1 <;> cases flip2 <;> simp <;> omega
  rw [hget c' hc' i hi j hj, hget c hc _ hs.1 _ hs.2, hcount, hm i hi j hj]

/-- C71: if `c` was marked (under the conditions of C38 without noise) and `c'` has the same features, then marking `c'` with the
secret key, at any depth and number of levels, gives exactly the same result as embedding into `c'` the bytes extracted from the
marked `c`, without any key. -/
theorem same_features_same_record {F : Type} [FloatOps F] [LawfulFloat F] (D : Deps F) (hL : D.ldpc.DecodesClean)
    (c out : GrayImage) (n levels a : Nat) (depth step : F) (hc : c.IsSquare n)
    (hg : EmbedGeometry n levels c.pixels) (hs : SignalOK n levels c.pixels depth 0)
    (hsup : SupportedCapacity (domainBytes n levels)) (hal : blockBytes (domainBytes n levels) ∣ domainBytes n levels)
    (hfit : recordBytes a + 4 ≤ domainBytes n levels / 2)
    (hmark : watermarkChannel D c depth step a levels = .ok out) :
    ∃ data, extract D.ldpc out.pixels depth levels = .ok data ∧
      ∀ c' : GrayImage, c'.raw.length = c'.width * c'.height → equalizedFeatures D c' a = equalizedFeatures D c a →
        ∀ (depth' : F) (levels' : Nat), watermarkChannel D c' depth' step a levels' =
          (embed D.ldpc c'.pixels data depth' levels').bind fun m => GrayImage.fromRaw c'.width c'.height m.toList := by
  obtain ⟨c1, c2, c3⟩ := id hc
  obtain ⟨hraw, _, ha, _, hkey, fs, q, p, _, _, hf, hq, _⟩ := watermarkChannel_ok_only D c out depth step a levels hmark
  obtain ⟨_, hq2⟩ := threeBitQuantization_lengths fs step q p hq
  obtain ⟨_, hl, _⟩ := equalizedFeatures_length D c a fs hf
  obtain ⟨record, hser, hdes, hlen, hwm⟩ := watermarkChannel_split D c depth step a levels hraw fs hf q p hq hkey
    (by rw [hq2, hl]; omega)
  obtain ⟨m, he, hm, hx⟩ := extract_tolerates_noise D.ldpc hL n levels c.pixels record depth 0 hg hs
    hsup hal (by rw [hlen]; unfold recordBytes; omega) (by rw [hlen]; unfold recordBytes; omega) (by rw [hlen]; exact hfit)
  obtain ⟨r1, r2, r3⟩ := fromRaw_toList m n hm
  have hout : out = ⟨n, n, m.toList⟩ := by
    rw [hwm, he, c1, c2] at hmark
    have := hmark.symm.trans r1
    cases this; rfl
  refine ⟨record, ?_, ?_⟩
  · apply hx
    rw [hout]
    refine ⟨⟨rfl, rfl⟩, fun i hi j hj => ?_⟩
    rw [r3 i hi j hj, sub_self, abs_zero]
  · intro c' hraw' hf' depth' levels'
    obtain ⟨record', hser', _, _, hwm'⟩ := watermarkChannel_split D c' depth' step a levels' hraw' fs (hf'.trans hf) q p hq hkey
      (by rw [hq2, hl]; omega)
    rw [hser] at hser'
    cases hser'
    exact hwm'

/-- C71: in exact arithmetic, whoever has a marked channel can mark its mirror images and rotations without the secret key: embedding
the extracted bytes gives exactly what the owner of the key would have produced. -/
theorem mirrored_same_record (D : Deps ℝ) (hD : D.Exact) (hH : D.HistogramOnly) (hL : D.ldpc.DecodesClean)
    (c out : GrayImage) (n levels a : Nat) (depth step : ℝ)
    (hg : EmbedGeometry n levels c.pixels) (hd : 2 ^ (levels + 1) < depth)
    (hpix : ∀ i < n, ∀ j < n, 3 / 4 * depth / 2 ^ levels ≤ ((c.pixels.get i j).toNat : ℝ) ∧
      ((c.pixels.get i j).toNat : ℝ) ≤ 255 - 3 / 4 * depth / 2 ^ levels)
    (hsup : SupportedCapacity (domainBytes n levels)) (hal : blockBytes (domainBytes n levels) ∣ domainBytes n levels)
    (hfit : recordBytes a + 4 ≤ domainBytes n levels / 2)
    (hmark : watermarkChannel D c depth step a levels = .ok out) :
    ∃ data, extract D.ldpc out.pixels depth levels = .ok data ∧
      ∀ (swap flip1 flip2 : Bool) (c' : GrayImage), IsMirrored n swap flip1 flip2 c c' →
        ∀ (depth' : ℝ) (levels' : Nat), watermarkChannel D c' depth' step a levels' =
          (embed D.ldpc c'.pixels data depth' levels').bind fun m => GrayImage.fromRaw n n m.toList := by
  have hn : 2 ≤ n := by
    have h1 := hg.divisible
    have h2 := hg.capacity
    have h3 := hg.levels_pos
    unfold domainBytes at h2
    rcases Nat.lt_or_ge n 2 with h | h
    · have : n / 2 ^ levels ≤ n := Nat.div_le_self _ _
      have : (n / 2 ^ levels) * (n / 2 ^ levels) ≤ 1 * 1 := Nat.mul_le_mul (by omega) (by omega)
      omega
    · exact h
  obtain ⟨hraw, ha1, _⟩ := watermarkChannel_ok_only D c out depth step a levels hmark
  have hc : c.IsSquare n :=
    ⟨hg.square.1, hg.square.2, by rw [hraw, show c.width = n from hg.square.1, show c.height = n from hg.square.2]⟩
  obtain ⟨data, h1, h2⟩ := same_features_same_record D hL c out n levels a depth step hc hg
    (signalOK_real n levels _ depth 0 le_rfl (by linarith) hpix) hsup hal hfit hmark
  refine ⟨data, h1, fun swap flip1 flip2 c' h depth' levels' => ?_⟩
  have := h2 c' (by rw [h.2.1.1, h.2.1.2.1, h.2.1.2.2]) (mirrored_features D hD hH n a hn ha1 swap flip1 flip2 c c' h) depth' levels'
  rw [h.2.1.1, h.2.1.2.1] at this
  exact this

/-- The test channel turned upside down (rows in reverse order). -/
def testChannelFlipped : GrayImage :=
  ⟨512, 512, (List.range (512 * 512)).map fun k => UInt8.ofNat (100 + ((511 - k / 512) * (k % 512)) % 32)⟩

theorem testChannel_mirrored : IsMirrored 512 false true false testChannel testChannelFlipped := by
  refine ⟨testChannel_square, ⟨rfl, rfl, by unfold testChannelFlipped; rw [List.length_map, List.length_range]⟩, ?_⟩
  intro i hi j hj
  unfold testChannel testChannelFlipped GrayImage.pixels squareSymmetry
  dsimp only
  rw [List.getD_eq_getElem?_getD, List.getElem?_map, List.getElem?_range (by omega), List.getD_eq_getElem?_getD,
    List.getElem?_map, List.getElem?_range (by simp; omega)]
  simp only [Option.map_some, Option.getD_some, if_true, Bool.false_eq_true, if_false]
  rw [show (i * 512 + j) / 512 = i by omega, show (i * 512 + j) % 512 = j by omega,
    show ((512 - 1 - i) * 512 + j) / 512 = 511 - i by omega, show ((512 - 1 - i) * 512 + j) % 512 = j by omega]

/-- C71 on a concrete case: the record read from the marked test channel, embedded into the upside-down channel, gives the owner's own
marked version of it; it authenticates (also after noise), and so does a different picture of the same size. -/
example : ∃ out data, watermarkChannel Deps.toyReal testChannel 100 3000 11 3 = .ok out ∧
    extract Ldpc.toy out.pixels (100 : ℝ) 3 = .ok data ∧
    watermarkChannel Deps.toyReal testChannelFlipped 100 3000 11 3 =
      (embed Ldpc.toy testChannelFlipped.pixels data (100 : ℝ) 3).bind fun m => GrayImage.fromRaw 512 512 m.toList := by
  obtain ⟨out, h1, h2, h3⟩ := testChannel_authenticates
  obtain ⟨data, d1, d2⟩ := mirrored_same_record Deps.toyReal Deps.toyReal_exact Deps.toyReal_histogramOnly Ldpc.toy_decodesClean
    testChannel out 512 3 11 100 3000 testChannel_geometry (by norm_num) (by
      intro i hi j hj
      obtain ⟨a, b⟩ := testChannel_range i hi j hj
      have a' : (100 : ℝ) ≤ ((testChannel.pixels.get i j).toNat : ℝ) := by exact_mod_cast a
      have b' : ((testChannel.pixels.get i j).toNat : ℝ) ≤ 131 := by exact_mod_cast b
      constructor <;> linarith) (by decide) (by decide) (by decide) h1
  exact ⟨out, data, h1, d1, d2 false true false _ testChannel_mirrored 100 3⟩

/-- A plain grey 512 x 512 channel. -/
def plainChannel : GrayImage := ⟨512, 512, List.replicate (512 * 512) 128⟩

theorem plainChannel_pixels (i j : Nat) (hi : i < 512) (hj : j < 512) : plainChannel.pixels.get i j = 128 := by
  unfold plainChannel GrayImage.pixels
  dsimp only
  rw [List.getD_eq_getElem?_getD, List.getElem?_replicate, if_pos (by omega)]
  rfl

theorem exact_features_exist (D : Deps ℝ) (hD : D.Exact) (c : GrayImage) (n a : Nat) (hn : 2 ≤ n) (ha : 1 ≤ a) (hc : c.IsSquare n) :
    ∃ fs, equalizedFeatures D c a = .ok fs ∧ ∀ f ∈ fs, 0 ≤ f ∧ f ≤ 510 * a / Real.pi := by
  rw [equalizedFeatures_exact D hD c n a hn ha hc]
  have h := features_square n (equalizedPixels D c) a ha hn ⟨hc.1, hc.2.1⟩
  refine ⟨_, h, fun f hf => ⟨?_, ?_⟩⟩
  · exact (features_bounded n _ a ha hn ⟨hc.1, hc.2.1⟩ _ h f hf).1
  · exact (le_abs_self _).trans (features_bounded_255 n _ a ha hn ⟨hc.1, hc.2.1⟩ _ h f hf)

/-- C71 on a concrete case: with the record of the marked test channel, a plain grey picture is accepted (the step is so large that all
features share one cell). -/
example : ∃ out data m, watermarkChannel Deps.toyReal testChannel 100 3000 11 3 = .ok out ∧
    extract Ldpc.toy out.pixels (100 : ℝ) 3 = .ok data ∧ embed Ldpc.toy plainChannel.pixels data (100 : ℝ) 3 = .ok m ∧
    authenticateChannel Deps.toyReal ⟨512, 512, m.toList⟩ 100 3000 11 3 = .ok true := by
  have hpi : 510 * ((11 : ℕ) : ℝ) / Real.pi ≤ 3000 := by
    rw [div_le_iff₀ Real.pi_pos]
    have := Real.two_le_pi
    push_cast
    linarith
  obtain ⟨fs, hf, hfb⟩ := exact_features_exist Deps.toyReal Deps.toyReal_exact testChannel 512 11 (by norm_num) (by norm_num)
    testChannel_square
  obtain ⟨out, data, h1, h2, h3⟩ := other_picture_authenticates Deps.toyReal Ldpc.toy_decodesClean (Ed25519.toy_keyPair _ _ rfl rfl)
    testChannel 512 3 11 100 3000 testChannel_square testChannel_geometry (by norm_num) (by
      intro i hi j hj
      obtain ⟨a, b⟩ := testChannel_range i hi j hj
      have a' : (100 : ℝ) ≤ ((testChannel.pixels.get i j).toNat : ℝ) := by exact_mod_cast a
      have b' : ((testChannel.pixels.get i j).toNat : ℝ) ≤ 131 := by exact_mod_cast b
      constructor <;> linarith) (by decide) (by decide) (by decide) (by decide) (by norm_num) fs hf (by
      intro f hff
      rw [abs_of_nonneg (hfb f hff).1]
      have := (hfb f hff).2
      linarith)
  obtain ⟨m, m1, m2, m3⟩ := h3 plainChannel 512 3 100 0
    ⟨rfl, rfl, by unfold plainChannel; rw [List.length_replicate]⟩ ⟨⟨rfl, rfl⟩, by decide, by decide, by decide, by decide⟩ le_rfl
    (by norm_num) (by
      intro i hi j hj
      rw [plainChannel_pixels i j hi hj]
      show 3 / 4 * (100 : ℝ) / 2 ^ 3 ≤ ((128 : ℕ) : ℝ) ∧ ((128 : ℕ) : ℝ) ≤ 255 - 3 / 4 * (100 : ℝ) / 2 ^ 3
      constructor <;> norm_num) (by decide) (by decide) (by decide)
  obtain ⟨_, r2, r3⟩ := fromRaw_toList m 512 m2
  obtain ⟨gs, hg, hgb⟩ := exact_features_exist Deps.toyReal Deps.toyReal_exact ⟨512, 512, m.toList⟩ 512 11 (by norm_num) (by norm_num) r2
  refine ⟨out, data, m, h1, h2, m1, m3 _ r2 ⟨⟨rfl, rfl⟩, fun i hi j hj => by rw [r3 i hi j hj, sub_self, abs_zero]⟩ gs hg ?_⟩
  obtain ⟨_, l1, _⟩ := equalizedFeatures_length _ _ _ _ hf
  obtain ⟨_, l2, _⟩ := equalizedFeatures_length _ _ _ _ hg
  rw [List.forall₂_iff_get]
  refine ⟨by rw [l1, l2], ?_⟩
  intro i hi1 hi2
  have a1 := hfb _ (List.get_mem fs ⟨i, hi1⟩)
  have a2 := hgb _ (List.get_mem gs ⟨i, hi2⟩)
  rw [abs_le]
  constructor <;> linarith [a1.1, a1.2, a2.1, a2.2]

/-- The conditions of `record_transplant` on `B` are met by the test channel, and its premise by the marked test channel. -/
example : ∃ A, authenticateChannel Deps.toyReal A 100 3000 11 3 = .ok true := by
  obtain ⟨out, h1, h2, h3⟩ := testChannel_authenticates
  exact ⟨out, h3 out h2 ⟨⟨h2.1, h2.2.1⟩, fun i _ j _ => by rw [sub_self, abs_zero]; norm_num⟩⟩

end Sia
