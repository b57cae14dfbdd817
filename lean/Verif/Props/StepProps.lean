import Verif.Props.RejectProps
import Verif.Props.PipelineExamples
import Verif.Lemmas.FloatSign

/-! C64: a quantisation step of zero is accepted and switches content authentication off (IEEE double arithmetic).

The step is a parameter of `watermark`/`authenticate` and is not checked. Dividing a positive feature by `0.0` gives `+∞`, which
saturates to the largest cell number whatever the feature was. -/
namespace Sia
open FloatOps

/-- A positive number of the double format: rounding leaves it alone. -/
structure PositiveDouble (f : F64) : Prop where
  pos : ∃ x : ℚ, f = .fin x ∧ 0 < x
  exact : ∀ x : ℚ, f = .fin x → F64.ofRat x = .fin x

theorem quantizeOne_step_zero (f : F64) (hf : PositiveDouble f) : quantizeOne (F64.fin 0) f = 2 ^ 63 - 1 := by
  obtain ⟨x, rfl, hx⟩ := hf.pos
  have hd : F64.div (.fin x) (.fin 0) = .inf false := by
    simp [F64.div, ne_of_gt hx, not_lt.2 hx.le]
  unfold quantizeOne
  show F64.truncSat i64Min i64Max (F64.floor (F64.div (.fin x) (.fin 0))) = _
  rw [hd]
  rfl

theorem restoreOne_step_zero (f : F64) (hf : PositiveDouble f) (g1 g2 g3 c1 c2 c3 : Bool) :
    restoreOne (F64.fin 0) f g1 g2 g3 c1 c2 c3 = f := by
  obtain ⟨x, rfl, hx⟩ := hf.pos
  have he := hf.exact x rfl
  have h1 : (FloatOps.add (F64.fin x) (F64.fin 0) : F64) = .fin x := by
    show F64.ofRat (x + 0) = _
    rw [add_zero, he]
  have h2 : (FloatOps.sub (F64.fin x) (F64.fin 0) : F64) = .fin x := by
    show F64.ofRat (x + -0) = _
    rw [neg_zero, add_zero, he]
  unfold restoreOne
  rw [h1, h2]
  simp

theorem restored_step_zero (bits : List Bool) (f : F64) (hf : PositiveDouble f) : restored (F64.fin 0) bits f = f := by
  unfold restored
  split
  · exact restoreOne_step_zero f hf ..
  · rfl

theorem dequantization_step_zero (fs : List F64) (hf : ∀ f ∈ fs, PositiveDouble f) (p : List Bool) (h3 : 3 ∣ p.length)
    (hl : p.length / 3 ≤ fs.length) :
    threeBitDequantization fs p (F64.fin 0) = .ok (List.replicate (p.length / 3) (2 ^ 63 - 1)) := by
  have hm : ∀ f ∈ fs, quantizeOne (F64.fin 0) f ≠ i64Min := by
    intro f h; rw [quantizeOne_step_zero f (hf f h)]; decide
  rw [threeBitDequantization_ok fs p _ hm h3 hl]
  congr 1
  have hlen : (chunks 3 p).length = p.length / 3 := by rw [chunks_length (by omega)]; omega
  rw [← hlen] at hl ⊢
  generalize chunks 3 p = ts at *
  clear h3 hlen hm
  induction ts generalizing fs with
  | nil => rfl
  | cons t ts ih =>
    cases fs with
    | nil => simp at hl
    | cons f fs =>
      simp only [List.zipWith_cons_cons, List.map_cons, List.length_cons, List.replicate_succ]
      rw [restored_step_zero t f (hf f (by simp)), quantizeOne_step_zero f (hf f (by simp)),
        ih fs (fun g hg => hf g (by simp [hg])) (by simpa using hl)]

/-- C64: with step 0 every positive feature falls into the same cell, the largest one. -/
theorem quantization_step_zero (fs : List F64) (hf : ∀ f ∈ fs, PositiveDouble f) :
    ∃ p, threeBitQuantization fs (F64.fin 0) = .ok (List.replicate fs.length (2 ^ 63 - 1), p) ∧ p.length = 3 * fs.length := by
  refine ⟨fs.flatMap (bits3 (F64.fin 0)), ?_, ?_⟩
  · have hm : ∀ f ∈ fs, quantizeOne (F64.fin 0) f ≠ i64Min := by
      intro f h; rw [quantizeOne_step_zero f (hf f h)]; decide
    rw [threeBitQuantization_ok fs _ hm]
    congr 2
    rw [List.eq_replicate_iff]
    refine ⟨by simp, ?_⟩
    intro z hz
    obtain ⟨f, h, rfl⟩ := List.mem_map.mp hz
    exact quantizeOne_step_zero f (hf f h)
  · simp [List.length_flatMap, bits3, mul_comm]

/-- C64: a feature that is exactly zero (or NaN) falls into cell 0 with step 0. -/
theorem quantization_step_zero_zero (fs : List F64) (hf : ∀ f ∈ fs, f = .fin 0 ∨ f = .nan) :
    ∃ p, threeBitQuantization fs (F64.fin 0) = .ok (List.replicate fs.length 0, p) ∧ p.length = 3 * fs.length := by
  have hc : ∀ f ∈ fs, quantizeOne (F64.fin 0) f = 0 := by
    intro f h
    unfold quantizeOne
    rcases hf f h with rfl | rfl
    · show F64.truncSat i64Min i64Max (F64.floor (F64.div (.fin 0) (.fin 0))) = _
      have : F64.div (.fin 0) (.fin 0) = .nan := by simp [F64.div]
      rw [this]; rfl
    · rfl
  refine ⟨fs.flatMap (bits3 (F64.fin 0)), ?_, ?_⟩
  · rw [threeBitQuantization_ok fs _ (fun f h => by rw [hc f h]; decide)]
    congr 2
    rw [List.eq_replicate_iff]
    refine ⟨by simp, ?_⟩
    intro z hz
    obtain ⟨f, h, rfl⟩ := List.mem_map.mp hz
    exact hc f h
  · simp [List.length_flatMap, bits3, mul_comm]

/-- C64: a negative feature aborts quantization with step 0 (`i64::MIN - 1`). -/
theorem quantization_step_zero_negative (fs : List F64) (x : ℚ) (hx : x < 0) (hf : F64.fin x ∈ fs) :
    ∃ e, threeBitQuantization fs (F64.fin 0) = .error e := by
  refine threeBitQuantization_error fs _ ⟨.fin x, hf, ?_⟩
  have hd : F64.div (.fin x) (.fin 0) = .inf true := by
    simp [F64.div, ne_of_lt hx, hx]
  unfold quantizeOne
  show F64.truncSat i64Min i64Max (F64.floor (F64.div (.fin x) (.fin 0))) = _
  rw [hd]
  rfl

/-- C64: with step 0 the verdict does not depend on the picture's features: two channels from which the same record is extracted
get the same verdict, whatever their (positive) features, even when different numbers of features are computed. -/
theorem step_zero_ignores_content (D : Deps F64) (c c' : GrayImage) (depth depth' : F64) (a a' levels levels' : Nat)
    (data : List UInt8) (w : Watermark) (fs fs' : List F64)
    (hr : c.raw.length = c.width * c.height) (hr' : c'.raw.length = c'.width * c'.height)
    (hx : extract D.ldpc c.pixels depth levels = .ok data) (hx' : extract D.ldpc c'.pixels depth' levels' = .ok data)
    (hw : deserializeWatermark data = .ok w)
    (hf : equalizedFeatures D c a = .ok fs) (hf' : equalizedFeatures D c' a' = .ok fs')
    (hpos : ∀ f ∈ fs, PositiveDouble f) (hpos' : ∀ f ∈ fs', PositiveDouble f)
    (hl : w.perturbationVector.length ≤ 3 * a) (hl' : w.perturbationVector.length ≤ 3 * a') (b : Bool) :
    authenticateChannel D c depth (F64.fin 0) a levels = .ok b ↔
      authenticateChannel D c' depth' (F64.fin 0) a' levels' = .ok b := by
  have l1 := (equalizedFeatures_length D c a fs hf).2.1
  have l2 := (equalizedFeatures_length D c' a' fs' hf').2.1
  by_cases h3 : 3 ∣ w.perturbationVector.length
  · have d1 := dequantization_step_zero fs hpos w.perturbationVector h3 (by omega)
    have d2 := dequantization_step_zero fs' hpos' w.perturbationVector h3 (by omega)
    rw [authenticate_iff, authenticate_iff]
    constructor
    · rintro ⟨_, fs0, data0, w0, q, e1, e2, e3, e4, e5, e6, e7⟩
      rw [hx] at e2; cases e2
      rw [hw] at e3; cases e3
      rw [hf] at e1; cases e1
      rw [d1] at e4; cases e4
      exact ⟨hr', fs', data, w, _, hf', hx', hw, d2, e5, e6, e7⟩
    · rintro ⟨_, fs0, data0, w0, q, e1, e2, e3, e4, e5, e6, e7⟩
      rw [hx'] at e2; cases e2
      rw [hw] at e3; cases e3
      rw [hf'] at e1; cases e1
      rw [d2] at e4; cases e4
      exact ⟨hr, fs, data, w, _, hf, hx, hw, d1, e5, e6, e7⟩
  · obtain ⟨e, he⟩ := authenticate_too_many_bits D c depth (F64.fin 0) a levels data w hx hw (Or.inr h3)
    obtain ⟨e', he'⟩ := authenticate_too_many_bits D c' depth' (F64.fin 0) a' levels' data w hx' hw (Or.inr h3)
    rw [he, he']
    simp

/-- C64: a channel marked with step 0 authenticates after *any* change of its content that keeps the embedded bits readable and
the features positive. -/
theorem step_zero_accepts_everything (D : Deps F64) (hL : D.ldpc.DecodesClean)
    (hk : D.ed.KeyPair builtinSecret builtinPublic) (c : GrayImage) (n levels a : Nat) (depth : F64) (t : ℝ)
    (hc : c.IsSquare n) (hg : EmbedGeometry n levels c.pixels) (hs : SignalOK n levels c.pixels depth t)
    (hsup : SupportedCapacity (domainBytes n levels)) (hal : blockBytes (domainBytes n levels) ∣ domainBytes n levels)
    (hfit : recordBytes a + 4 ≤ domainBytes n levels / 2) (ha : a ≤ 85)
    (fs : List F64) (hf : equalizedFeatures D c a = .ok fs) (hpos : ∀ f ∈ fs, PositiveDouble f) :
    ∃ out, watermarkChannel D c depth (F64.fin 0) a levels = .ok out ∧ out.IsSquare n ∧
      ∀ noisy : GrayImage, noisy.IsSquare n → WithinNoise n t out.pixels noisy.pixels →
        ∀ gs : List F64, equalizedFeatures D noisy a = .ok gs → (∀ g ∈ gs, PositiveDouble g) →
          authenticateChannel D noisy depth (F64.fin 0) a levels = .ok true := by
  obtain ⟨p, hq, hp⟩ := quantization_step_zero fs hpos
  obtain ⟨out, h1, h2, h3⟩ := marked_channel_verdict D hL hk c n levels a depth (F64.fin 0) t hc hg hs hsup hal hfit ha fs hf
    _ p hq
  refine ⟨out, h1, h2, ?_⟩
  intro noisy hn hw gs hgs hgpos
  have l1 := (equalizedFeatures_length D c a fs hf).2.1
  have l2 := (equalizedFeatures_length D noisy a gs hgs).2.1
  have hd := dequantization_step_zero gs hgpos p (by omega) (by omega)
  rw [h3 noisy hn hw a gs _ hgs hd]
  have : p.length / 3 = fs.length := by omega
  rw [this, hk.verifies]

/-- A library in doubles whose single feature value is one more than the first sample of the picture. -/
def Deps.toyDouble : Deps F64 where
  ldpc := Ldpc.toy
  ed := Ed25519.toy
  equalize c := c.raw
  momentAbs _ _ image := .fin ((image.get 0 0).toNat + 1 : ℕ)
  equalize_length _ := rfl

theorem mapM_except_mem {α β : Type} {f : α → Res β} (l : List α) (r : List β) (h : l.mapM f = .ok r) (b : β) (hb : b ∈ r) :
    ∃ a ∈ l, f a = .ok b := by
  obtain ⟨i, hi, rfl⟩ := List.mem_iff_getElem.mp hb
  have hl := mapM_except_length l r h
  exact ⟨l[i], List.getElem_mem _, mapM_except_get l r h i (by omega) hi⟩

theorem toyDouble_small (c : GrayImage) (a : Nat) (fs : List F64) (h : equalizedFeatures Deps.toyDouble c a = .ok fs) :
    ∀ f ∈ fs, ∃ k < 256, f = .fin ((k + 1 : ℕ) : ℚ) := by
  intro f hf
  unfold equalizedFeatures channelFeatures at h
  simp only [bind, Except.bind] at h
  split at h
  · cases h
  rename_i v hv
  split at h
  · cases h
  rename_i o ho
  by_cases hsz : v.rows * v.rows < v.rows * v.cols
  · simp only [if_pos hsz] at h
    obtain ⟨i, _, hi⟩ := mapM_except_mem _ _ h f hf
    cases hi
  · simp only [if_neg hsz] at h
    obtain ⟨i, _, hi⟩ := mapM_except_mem _ _ h f hf
    cases hi
    exact ⟨_, UInt8.toNat_lt _, rfl⟩

theorem toyDouble_natural (c : GrayImage) (a : Nat) (fs : List F64) (h : equalizedFeatures Deps.toyDouble c a = .ok fs) :
    ∀ f ∈ fs, ∃ k : ℕ, f = .fin ((k + 1 : ℕ) : ℚ) := fun f hf =>
  have ⟨k, _, e⟩ := toyDouble_small c a fs h f hf
  ⟨k, e⟩

theorem toyDouble_positive (c : GrayImage) (a : Nat) (fs : List F64) (h : equalizedFeatures Deps.toyDouble c a = .ok fs) :
    ∀ f ∈ fs, PositiveDouble f := by
  have hall : ∀ v < 257, F64.ofRat ((v : ℕ) : ℚ) = .fin ((v : ℕ) : ℚ) := by decide +kernel
  intro f hf
  obtain ⟨k, hk, rfl⟩ := toyDouble_small c a fs h f hf
  refine ⟨⟨_, rfl, by exact_mod_cast Nat.succ_pos k⟩, ?_⟩
  intro x hx
  cases hx
  exact hall (k + 1) (by omega)

/-- A concrete case: the 512 x 512 test channel marked with step 0 (11 features) authenticates after every change of up to two
levels per sample, though the features of such pictures differ by several units. -/
example : ∃ out, watermarkChannel Deps.toyDouble testChannel (.fin 100) (.fin 0) 11 3 = .ok out ∧ out.IsSquare 512 ∧
    ∀ noisy : GrayImage, noisy.IsSquare 512 → WithinNoise 512 2 out.pixels noisy.pixels →
      ∀ gs, equalizedFeatures Deps.toyDouble noisy 11 = .ok gs →
        authenticateChannel Deps.toyDouble noisy (.fin 100) (.fin 0) 11 3 = .ok true := by
  have hs : SignalOK 512 3 testChannel.pixels (F64.fin 100) 2 := by
    refine signalOK_double 512 3 le_rfl _ 100 2 (by norm_num) (by norm_num) ?_
    intro i hi j hj
    obtain ⟨h1, h2⟩ := testChannel_range i hi j hj
    have h1' : (100 : ℝ) ≤ ((testChannel.pixels.get i j).toNat : ℝ) := by exact_mod_cast h1
    have h2' : ((testChannel.pixels.get i j).toNat : ℝ) ≤ 131 := by exact_mod_cast h2
    constructor
    · refine le_trans ?_ h1'; norm_num
    · refine le_trans h2' ?_; norm_num
  obtain ⟨fs, hf, _⟩ := equalizedFeatures_square Deps.toyDouble testChannel 512 11 testChannel_square (by decide)
  obtain ⟨out, h1, h2, h3⟩ := step_zero_accepts_everything Deps.toyDouble Ldpc.toy_decodesClean
    (Ed25519.toy_keyPair _ _ rfl rfl) testChannel 512 3 11 (.fin 100) 2 testChannel_square testChannel_geometry hs
    (by decide) (by decide) (by decide) (by decide) fs hf (toyDouble_positive _ _ _ hf)
  exact ⟨out, h1, h2, fun noisy hn hw gs hg => h3 noisy hn hw gs hg (toyDouble_positive _ _ _ hg)⟩

end Sia
