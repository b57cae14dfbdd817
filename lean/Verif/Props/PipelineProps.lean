import Verif.Lemmas.PipelineLemmas
import Verif.Props.QuantFloatProps

/-! C38–C41, C46, C50, C51: watermarking and authenticating a channel. -/
namespace Sia
open LawfulFloat

/-! ### The features used by the pipeline are the features of the code -/

/-- In exact arithmetic the features of the pipeline are those of `calculate_features` (C30). -/
theorem channelFeatures_exact (D : Deps ℝ) (hD : D.Exact) (image : Mat UInt8) (a : Nat) (ha : 1 ≤ a) (hr : 2 ≤ image.rows)
    (hc : image.cols ≤ image.rows) :
    channelFeatures D image a = calculateFeatures image .MomentsZernike a := by
  rw [channelFeatures_eq D image a ha (by have := Nat.mul_le_mul_left image.rows hc; omega)]
  unfold calculateFeatures zernikeFeatures orderByFeaturesAmount
  simp only [if_neg (show ¬ a = 0 by omega), bind, Except.bind]
  rw [momentIndices_odd a ha, mapM_except_ok (g := fun index => D.momentAbs (1 + 2 * (a - 1)) index image)]
  · rw [List.map_map, show 1 + 2 * (a - 1) = 2 * a - 1 by omega]; rfl
  · intro index hidx
    obtain ⟨k, hk, rfl⟩ := List.mem_map.mp hidx
    have hk' := List.mem_range.mp hk
    have hm := moment_general (1 + 2 * (a - 1)) (2 * k + 1) image (by omega) (by omega) hr hc
    rw [hm]
    dsimp only [pure, Except.pure]
    rw [hD _ _ _ _ hm]

/-! ### C50: the signature interface -/

/-- C50: signing with generated (hex) keys and verifying with the generated public key succeeds. -/
theorem sign_verify_roundtrip (E : Ed25519) (secret public_ : List UInt8) (hk : E.KeyPair secret public_) (data : List UInt8) :
    ∃ s, sign E data (generate secret public_).1 (generate secret public_).2 = .ok s ∧ s.length = 64 ∧
      verify E data s (generate secret public_).2 = .ok true := by
  refine ⟨E.sign (secret ++ public_) data, ?_, E.sign_length _ _, ?_⟩
  · unfold sign generate decodeHexUnwrap
    dsimp only
    rw [decodeHex_encodeHex, decodeHex_encodeHex]
    simp only [bind, Except.bind]
    rw [if_pos hk.keypair]; rfl
  · unfold verify generate decodeHexUnwrap
    dsimp only
    rw [decodeHex_encodeHex]
    simp only [bind, Except.bind]
    rw [if_pos hk.public_ok, if_pos (hk.parses data), hk.verifies data]; rfl

/-- C50: what `verify` returns is the library's verdict; it returns a verdict exactly if the key text is the hex form of an
acceptable public key and the signature is well formed, otherwise it aborts (it does not return `false`). -/
theorem verify_spec (E : Ed25519) (data s key : List UInt8) (b : Bool) :
    verify E data s key = .ok b ↔ ∃ k, decodeHex key = .ok (some k) ∧ E.publicOk k = true ∧ E.signatureOk s = true ∧
      E.verify k data s = b := by
  unfold verify decodeHexUnwrap
  cases hd : decodeHex key with
  | error e => simp [bind, Except.bind]
  | ok o =>
    cases o with
    | none => simp [bind, Except.bind]
    | some k =>
      simp only [bind, Except.bind, pure, Except.pure, throw, throwThe, MonadExceptOf.throw]
      split_ifs with h1 h2
      · simp [h1, h2]
      · simp [h2]
      · simp [h1]

/-- C50: a signature of any length other than 64 bytes makes `verify` abort. -/
theorem verify_bad_length_aborts (E : Ed25519) (data s key : List UInt8) (h : s.length ≠ 64) :
    ∃ e, verify E data s key = .error e := by
  cases hv : verify E data s key with
  | error e => exact ⟨e, rfl⟩
  | ok b =>
    obtain ⟨_, _, _, hs, _⟩ := (verify_spec E data s key b).mp hv
    exact absurd (E.signature_length s hs) h

/-- C50: `sign` succeeds exactly if both texts are hex and together an acceptable key pair, and then returns the library's
signature of the data. -/
theorem sign_spec (E : Ed25519) (data sk pk out : List UInt8) :
    sign E data sk pk = .ok out ↔ ∃ a b, decodeHex sk = .ok (some a) ∧ decodeHex pk = .ok (some b) ∧
      E.keypairOk (a ++ b) = true ∧ out = E.sign (a ++ b) data := by
  unfold sign decodeHexUnwrap
  cases hd : decodeHex sk with
  | error e => simp [bind, Except.bind]
  | ok o =>
    cases o with
    | none => simp [bind, Except.bind]
    | some a =>
      cases hd' : decodeHex pk with
      | error e => simp [bind, Except.bind]
      | ok o' =>
        cases o' with
        | none => simp [bind, Except.bind]
        | some b =>
          simp only [bind, Except.bind, pure, Except.pure, throw, throwThe, MonadExceptOf.throw]
          split_ifs with h1
          · simp only [Except.ok.injEq, Option.some.injEq]
            constructor
            · intro h; exact ⟨a, b, rfl, rfl, h1, h.symm⟩
            · rintro ⟨_, _, rfl, rfl, _, h⟩; exact h.symm
          · constructor
            · intro h; simp at h
            · rintro ⟨a', b', ha, hb, h, _⟩
              simp only [Except.ok.injEq, Option.some.injEq] at ha hb
              subst ha hb
              exact absurd h h1

/-! ### C39: what authentication means -/

section
variable {F : Type} [FloatOps F]

/-- C39: authentication gives verdict `b` exactly if: the channel carries a readable record; the features of the channel,
corrected by the record's perturbation bits, give cells `q`; the record's signature is well formed; and `b` is the verdict of
the signature library on `q` under the built-in public key. In all other cases it aborts. -/
theorem authenticate_iff (D : Deps F) (c : GrayImage) (depth step : F) (a levels : Nat) (b : Bool) :
    authenticateChannel D c depth step a levels = .ok b ↔
      c.raw.length = c.width * c.height ∧ ∃ fs data w q,
        equalizedFeatures D c a = .ok fs ∧ extract D.ldpc c.pixels depth levels = .ok data ∧
        deserializeWatermark data = .ok w ∧ threeBitDequantization fs w.perturbationVector step = .ok q ∧
        D.ed.publicOk builtinPublic = true ∧ D.ed.signatureOk w.signature = true ∧
        D.ed.verify builtinPublic (vecI64ToBytes q) w.signature = b := by
  unfold authenticateChannel
  by_cases hraw : c.raw.length = c.width * c.height
  swap
  · unfold fromShapeVec
    rw [if_neg hraw]
    simp [bind, Except.bind, hraw]
  rw [fromShapeVec_ok c hraw]
  simp only [bind, Except.bind, hraw, true_and]
  cases hf : equalizedFeatures D c a with
  | error e => simp
  | ok fs =>
    cases hx : extract D.ldpc c.pixels depth levels with
    | error e => simp
    | ok data =>
      cases hw : deserializeWatermark data with
      | error e => simp [hw]
      | ok w =>
        cases hq : threeBitDequantization fs w.perturbationVector step with
        | error e =>
          simp only [hw, hq, reduceCtorEq, false_iff]
          rintro ⟨fs', data', w', q', h1, h2, h3, h4, _⟩
          cases h1; cases h2
          rw [hw] at h3; cases h3
          rw [hq] at h4; cases h4
        | ok q =>
          conv_lhs => simp only [hw, hq]
          rw [verify_builtin]
          constructor
          · intro h
            split_ifs at h with h1 h2
            exact ⟨fs, data, w, q, rfl, rfl, hw, hq, h1, h2, Except.ok.inj h⟩
          · rintro ⟨fs', data', w', q', h1, h2, h3, h4, h5, h6, h7⟩
            cases h1; cases h2
            rw [hw] at h3; cases h3
            rw [hq] at h4; cases h4
            rw [if_pos h5, if_pos h6, h7]

end

section
variable {F : Type} [FloatOps F] [LawfulFloat F]

/-- The heart of C38, C39: a marked channel, or any channel within `t` of it in every pixel, hands the verifier exactly the
signature of the source's feature cells. -/
theorem marked_channel_verdict (D : Deps F) (hL : D.ldpc.DecodesClean) (hk : D.ed.KeyPair builtinSecret builtinPublic)
    (c : GrayImage) (n levels a : Nat) (depth step : F) (t : ℝ) (hc : c.IsSquare n)
    (hg : EmbedGeometry n levels c.pixels) (hs : SignalOK n levels c.pixels depth t)
    (hsup : SupportedCapacity (domainBytes n levels)) (hal : blockBytes (domainBytes n levels) ∣ domainBytes n levels)
    (hfit : recordBytes a + 4 ≤ domainBytes n levels / 2) (ha : a ≤ 85)
    (fs : List F) (hf : equalizedFeatures D c a = .ok fs) (q : List Int) (p : List Bool)
    (hq : threeBitQuantization fs step = .ok (q, p)) :
    ∃ out, watermarkChannel D c depth step a levels = .ok out ∧ out.IsSquare n ∧
      ∀ noisy : GrayImage, noisy.IsSquare n → WithinNoise n t out.pixels noisy.pixels →
        ∀ (a' : Nat) (gs : List F) (q' : List Int), equalizedFeatures D noisy a' = .ok gs →
          threeBitDequantization gs p step = .ok q' →
          authenticateChannel D noisy depth step a' levels =
            .ok (D.ed.verify builtinPublic (vecI64ToBytes q') (D.ed.sign (builtinSecret ++ builtinPublic) (vecI64ToBytes q))) := by
  obtain ⟨c1, c2, c3⟩ := hc
  have hraw : c.raw.length = c.width * c.height := by rw [c1, c2, c3]
  obtain ⟨_, hq2⟩ := threeBitQuantization_lengths fs step q p hq
  obtain ⟨_, hl, _⟩ := equalizedFeatures_length D c a fs hf
  obtain ⟨record, _, hdes, hlen, hwm⟩ := watermarkChannel_split D c depth step a levels hraw fs hf q p hq hk.keypair
    (by rw [hq2, hl]; omega)
  obtain ⟨m, he, hm, hx⟩ := extract_tolerates_noise D.ldpc hL n levels c.pixels record depth t hg hs hsup hal
    (by rw [hlen]; unfold recordBytes; omega) (by rw [hlen]; unfold recordBytes; omega) (by rw [hlen]; exact hfit)
  obtain ⟨r1, r2, r3⟩ := fromRaw_toList m n hm
  refine ⟨⟨n, n, m.toList⟩, ?_, r2, ?_⟩
  · rw [hwm, he, c1, c2]; exact r1
  · intro noisy hn hnoise a' gs q' hg' hq'
    have hxn : extract D.ldpc noisy.pixels depth levels = .ok record := by
      apply hx
      refine ⟨⟨hn.1, hn.2.1⟩, ?_⟩
      intro i hi j hj
      have := hnoise.2 i hi j hj
      rw [r3 i hi j hj] at this
      exact this
    rw [authenticate_iff]
    refine ⟨by rw [hn.1, hn.2.1, hn.2.2], gs, record, ⟨p, D.ed.sign (builtinSecret ++ builtinPublic) (vecI64ToBytes q), watermarkText⟩, q', hg', hxn, ?_, hq', hk.public_ok, ?_, rfl⟩
    · have := hdes []
      rwa [List.append_nil] at this
    · exact hk.parses _

/-- C38, floating point: with 1..=85 features, a marked channel (or any channel within `t` of it in every pixel) whose features
differ from the source's by at most one step authenticates, if no clean or noisy feature lies within the rounding margin of a
multiple of half a step. -/
theorem marked_channel_authenticates_float (D : Deps F) (hL : D.ldpc.DecodesClean)
    (hk : D.ed.KeyPair builtinSecret builtinPublic)
    (c : GrayImage) (n levels a : Nat) (depth step : F) (t : ℝ) (hc : c.IsSquare n)
    (hg : EmbedGeometry n levels c.pixels) (hs : SignalOK n levels c.pixels depth t)
    (hsup : SupportedCapacity (domainBytes n levels)) (hal : blockBytes (domainBytes n levels) ∣ domainBytes n levels)
    (hfit : recordBytes a + 4 ≤ domainBytes n levels / 2) (ha : a ≤ 85)
    (hstep : GoodDepth step) (K : ℝ) (hK0 : 0 ≤ K) (hK : K ≤ 2 ^ 39)
    (fs : List F) (hf : equalizedFeatures D c a = .ok fs)
    (hfs : ∀ f ∈ fs, fin f ∧ |val f| ≤ K * val step ∧ AwayFromHalves (quantMargin F K) (val f / val step)) :
    ∃ out, watermarkChannel D c depth step a levels = .ok out ∧ out.IsSquare n ∧
      ∀ noisy : GrayImage, noisy.IsSquare n → WithinNoise n t out.pixels noisy.pixels →
        ∀ gs : List F, equalizedFeatures D noisy a = .ok gs →
          (∀ g ∈ gs, fin g ∧ AwayFromHalves (quantMargin F K) (val g / val step)) →
          List.Forall₂ (fun f g => |val g - val f| ≤ val step) fs gs →
          authenticateChannel D noisy depth step a levels = .ok true := by
  have hfs' : List.Forall₂ (fun f g => |val g - val f| ≤ val step) fs fs := by
    rw [List.forall₂_same]
    intro x _; simp only [sub_self, abs_zero]; exact hstep.pos.le
  obtain ⟨q, p, hq, _⟩ := dequantization_undoes_noise_float step hstep K hK0 hK fs fs hfs
    (fun g hg' => ⟨(hfs g hg').1, (hfs g hg').2.2⟩) hfs'
  obtain ⟨out, h1, h2, h3⟩ := marked_channel_verdict D hL hk c n levels a depth step t hc hg hs hsup hal hfit ha fs hf q p hq
  refine ⟨out, h1, h2, ?_⟩
  intro noisy hn hnoise gs hgs hgf hclose
  obtain ⟨q', p', hq', hd⟩ := dequantization_undoes_noise_float step hstep K hK0 hK fs gs hfs hgf hclose
  rw [hq] at hq'
  cases hq'
  rw [h3 noisy hn hnoise a gs q hgs hd, hk.verifies]

end

/-- C38, exact arithmetic. -/
theorem marked_channel_authenticates (D : Deps ℝ) (hL : D.ldpc.DecodesClean) (hk : D.ed.KeyPair builtinSecret builtinPublic)
    (c : GrayImage) (n levels a : Nat) (depth step t : ℝ) (hc : c.IsSquare n)
    (hg : EmbedGeometry n levels c.pixels) (ht : 0 ≤ t) (hd : 2 ^ (levels + 1) * (2 * t + 1) < depth)
    (hpix : ∀ i < n, ∀ j < n, 3 / 4 * depth / 2 ^ levels ≤ ((c.pixels.get i j).toNat : ℝ) ∧
      ((c.pixels.get i j).toNat : ℝ) ≤ 255 - 3 / 4 * depth / 2 ^ levels)
    (hsup : SupportedCapacity (domainBytes n levels)) (hal : blockBytes (domainBytes n levels) ∣ domainBytes n levels)
    (hfit : recordBytes a + 4 ≤ domainBytes n levels / 2) (ha : a ≤ 85) (hstep : 0 < step)
    (fs : List ℝ) (hf : equalizedFeatures D c a = .ok fs) (hfs : ∀ f ∈ fs, |f| ≤ 2 ^ 61 * step) :
    ∃ out, watermarkChannel D c depth step a levels = .ok out ∧ out.IsSquare n ∧
      ∀ noisy : GrayImage, noisy.IsSquare n → WithinNoise n t out.pixels noisy.pixels →
        ∀ gs : List ℝ, equalizedFeatures D noisy a = .ok gs → List.Forall₂ (fun f g => |g - f| ≤ step) fs gs →
          authenticateChannel D noisy depth step a levels = .ok true := by
  have hfs' : List.Forall₂ (fun f g : ℝ => |g - f| ≤ step) fs fs := by
    rw [List.forall₂_same]
    intro x _; simp only [sub_self, abs_zero]; exact hstep.le
  obtain ⟨q, p, hq, _⟩ := dequantization_undoes_noise step hstep fs fs hfs hfs'
  obtain ⟨out, h1, h2, h3⟩ := marked_channel_verdict D hL hk c n levels a depth step t hc hg
    (signalOK_real n levels _ depth t ht hd hpix) hsup hal hfit ha fs hf q p hq
  refine ⟨out, h1, h2, ?_⟩
  intro noisy hn hnoise gs hgs hclose
  obtain ⟨q', p', hq', hdq⟩ := dequantization_undoes_noise step hstep fs gs hfs hclose
  rw [hq] at hq'
  cases hq'
  rw [h3 noisy hn hnoise a gs q hgs hdq, hk.verifies]

section
variable {F : Type} [FloatOps F] [LawfulFloat F]

/-- C39: if a channel that carries the record of a source channel is accepted although its restored feature cells `q'` differ
from the signed cells `q`, then one and the same signature verifies for the bytes of both, which are different messages, that is,
the signature scheme is broken. -/
theorem accepted_cells_are_signed (D : Deps F) (hL : D.ldpc.DecodesClean) (hk : D.ed.KeyPair builtinSecret builtinPublic)
    (c : GrayImage) (n levels a : Nat) (depth step : F) (t : ℝ) (hc : c.IsSquare n)
    (hg : EmbedGeometry n levels c.pixels) (hs : SignalOK n levels c.pixels depth t)
    (hsup : SupportedCapacity (domainBytes n levels)) (hal : blockBytes (domainBytes n levels) ∣ domainBytes n levels)
    (hfit : recordBytes a + 4 ≤ domainBytes n levels / 2) (ha : a ≤ 85)
    (fs : List F) (hf : equalizedFeatures D c a = .ok fs) (q : List Int) (p : List Bool)
    (hq : threeBitQuantization fs step = .ok (q, p)) :
    ∃ out, watermarkChannel D c depth step a levels = .ok out ∧
      ∀ noisy : GrayImage, noisy.IsSquare n → WithinNoise n t out.pixels noisy.pixels →
        ∀ (a' : Nat) (gs : List F) (q' : List Int), equalizedFeatures D noisy a' = .ok gs →
          threeBitDequantization gs p step = .ok q' →
          authenticateChannel D noisy depth step a' levels = .ok true → q' = q ∨
            vecI64ToBytes q' ≠ vecI64ToBytes q ∧
              D.ed.verify builtinPublic (vecI64ToBytes q') (D.ed.sign (builtinSecret ++ builtinPublic) (vecI64ToBytes q)) = true ∧
              D.ed.verify builtinPublic (vecI64ToBytes q) (D.ed.sign (builtinSecret ++ builtinPublic) (vecI64ToBytes q)) = true := by
  obtain ⟨out, h1, h2, h3⟩ := marked_channel_verdict D hL hk c n levels a depth step t hc hg hs hsup hal hfit ha fs hf q p hq
  refine ⟨out, h1, ?_⟩
  intro noisy hn hnoise a' gs q' hgs hdq hauth
  rw [h3 noisy hn hnoise a' gs q' hgs hdq] at hauth
  have hv := Except.ok.inj hauth
  by_cases hqq : q' = q
  · exact Or.inl hqq
  · right
    refine ⟨?_, hv, hk.verifies _⟩
    have hrange : ∀ (xs : List F) (x : Int), x ∈ quantize xs step → -2 ^ 63 ≤ x ∧ x < 2 ^ 63 := by
      intro xs x hx
      obtain ⟨f, _, rfl⟩ := List.mem_map.mp hx
      have := truncSat_range (F := F) i64Min i64Max (FloatOps.floor (FloatOps.div f step)) (by decide) (by decide)
      unfold quantizeOne
      unfold i64Min i64Max at *
      omega
    intro heq
    apply hqq
    apply i64_bytes_injective _ _ _ _ heq
    · intro x hx
      unfold threeBitDequantization at hdq
      cases h4 : threeBitQuantization gs step with
      | error e => rw [h4] at hdq; simp [bind, Except.bind] at hdq
      | ok y =>
        rw [h4] at hdq
        simp only [bind, Except.bind] at hdq
        cases h5 : restoreLoop step (chunks 3 p) (chunks 3 y.2) gs with
        | error e => rw [h5] at hdq; simp at hdq
        | ok r =>
          rw [h5] at hdq
          simp only [pure, Except.pure, Except.ok.injEq] at hdq
          rw [← hdq] at hx
          exact hrange _ x hx
    · intro x hx
      rw [(threeBitQuantization_lengths fs step q p hq).1] at hx
      exact hrange _ x hx

end

end Sia
