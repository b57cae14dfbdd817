import Verif.Spec.PipelineSpec
import Verif.Props.EmbedProps
import Verif.Props.BlankProps
import Verif.Props.QuantProps
import Verif.Props.RecordProps
import Verif.Props.BytesProps
import Verif.Props.StegoProps
import Verif.Props.ZernikeProps

namespace Sia

theorem decode_publicKey : decodeHexUnwrap publicKey = .ok builtinPublic := by decide +kernel
theorem decode_privateKey : decodeHexUnwrap privateKey = .ok builtinSecret := by decide +kernel
theorem watermarkText_size : watermarkText.utf8ByteSize = 12 := by decide +kernel

theorem sign_builtin (E : Ed25519) (data : List UInt8) : sign E data privateKey publicKey =
    if E.keypairOk (builtinSecret ++ builtinPublic) then .ok (E.sign (builtinSecret ++ builtinPublic) data)
    else .error .keyError := by
  unfold sign
  rw [decode_publicKey, decode_privateKey]
  rfl

theorem verify_builtin (E : Ed25519) (data s : List UInt8) : verify E data s publicKey =
    if E.publicOk builtinPublic then
      if E.signatureOk s then .ok (E.verify builtinPublic data s) else .error .keyError
    else .error .keyError := by
  unfold verify
  rw [decode_publicKey]
  rfl

theorem fromShapeVec_ok (c : GrayImage) (h : c.raw.length = c.width * c.height) :
    fromShapeVec c.width c.height c.raw = .ok c.pixels := by
  unfold fromShapeVec
  rw [if_pos h]
  rfl

theorem fromShapeVec_fst {r c : Nat} {v : List UInt8} {m : Mat UInt8} (h : fromShapeVec r c v = .ok m) :
    m.rows = r ∧ m.cols = c ∧ v.length = r * c := by
  unfold fromShapeVec at h
  split_ifs at h with hl
  cases h
  exact ⟨rfl, rfl, hl⟩

section
variable {F : Type} [FloatOps F]

/-- Features of any image: aborts for no features and for more columns than rows, otherwise one value per index. -/
theorem channelFeatures_eq (D : Deps F) (image : Mat UInt8) (a : Nat) (ha : 1 ≤ a) (h : ¬ image.rows * image.rows < image.rows * image.cols) :
    channelFeatures D image a = .ok ((List.range a).map fun k => D.momentAbs (2 * a - 1) (2 * k + 1) image) := by
  unfold channelFeatures orderByFeaturesAmount
  rw [if_neg (by omega)]
  simp only [bind, Except.bind]
  rw [momentIndices_odd a ha, mapM_except_ok (g := fun index => D.momentAbs (1 + 2 * (a - 1)) index image)]
  · rw [List.map_map, show 1 + 2 * (a - 1) = 2 * a - 1 by omega]; rfl
  · intro index _; rw [if_neg h]

theorem channelFeatures_error (D : Deps F) (image : Mat UInt8) (a : Nat)
    (h : a = 0 ∨ image.rows * image.rows < image.rows * image.cols) : ∃ e, channelFeatures D image a = .error e := by
  unfold channelFeatures orderByFeaturesAmount
  by_cases ha : a = 0
  · rw [if_pos ha]; exact ⟨_, rfl⟩
  · have hlt : image.rows * image.rows < image.rows * image.cols := by tauto
    rw [if_neg ha]
    simp only [bind, Except.bind, if_pos hlt]
    rw [momentIndices_odd a (by omega)]
    obtain ⟨b, rfl⟩ : ∃ b, a = b + 1 := ⟨a - 1, by omega⟩
    rw [List.range_succ_eq_map]
    exact ⟨_, rfl⟩

theorem equalizedFeatures_square (D : Deps F) (c : GrayImage) (n a : Nat) (hc : c.IsSquare n) (ha : 1 ≤ a) :
    ∃ fs, equalizedFeatures D c a = .ok fs ∧ fs.length = a := by
  obtain ⟨h1, h2, h3⟩ := hc
  unfold equalizedFeatures fromShapeVec
  rw [if_pos (by rw [D.equalize_length, h1, h2, h3])]
  simp only [bind, Except.bind]
  rw [channelFeatures_eq D _ a ha (by dsimp only; rw [h1, h2]; omega)]
  exact ⟨_, rfl, by simp⟩

theorem equalizedFeatures_length (D : Deps F) (c : GrayImage) (a : Nat) (fs : List F) (h : equalizedFeatures D c a = .ok fs) :
    1 ≤ a ∧ fs.length = a ∧ ¬ c.width * c.width < c.width * c.height := by
  unfold equalizedFeatures at h
  cases he : fromShapeVec c.width c.height (D.equalize c) with
  | error e => rw [he] at h; simp [bind, Except.bind] at h
  | ok m =>
    rw [he] at h
    simp only [bind, Except.bind] at h
    obtain ⟨hr, hc, _⟩ := fromShapeVec_fst he
    by_cases hbad : a = 0 ∨ m.rows * m.rows < m.rows * m.cols
    · obtain ⟨e, h'⟩ := channelFeatures_error D m a hbad
      rw [h'] at h; simp at h
    · rw [hr, hc] at hbad
      have ha : 1 ≤ a := by omega
      rw [channelFeatures_eq D m a ha (by rw [hr, hc]; tauto)] at h
      cases h
      exact ⟨ha, by simp, by tauto⟩

theorem mat_toList_length {α : Type} (m : Mat α) : m.toList.length = m.rows * m.cols := by unfold Mat.toList; simp

theorem toList_getD (m : Mat UInt8) (n i j : Nat) (hr : m.rows = n) (hc : m.cols = n) (hi : i < n) (hj : j < n) :
    m.toList.getD (i * n + j) 0 = m.get i j := by
  have hk : i * n + j < n * n := by
    calc i * n + j < i * n + n := by omega
      _ = (i + 1) * n := by ring
      _ ≤ n * n := Nat.mul_le_mul_right _ hi
  unfold Mat.toList
  rw [hr, hc, List.getD_eq_getElem?_getD, List.getElem?_map, List.getElem?_range hk]
  have e1 : (i * n + j) / n = i := by rw [mul_comm, Nat.mul_add_div (by omega), Nat.div_eq_of_lt hj, add_zero]
  have e2 : (i * n + j) % n = j := by rw [mul_comm, Nat.mul_add_mod, Nat.mod_eq_of_lt hj]
  simp [e1, e2]

theorem fromRaw_toList (m : Mat UInt8) (n : Nat) (hm : m.IsSquare n) :
    GrayImage.fromRaw n n m.toList = .ok ⟨n, n, m.toList⟩ ∧ (⟨n, n, m.toList⟩ : GrayImage).IsSquare n ∧
    ∀ i < n, ∀ j < n, (⟨n, n, m.toList⟩ : GrayImage).pixels.get i j = m.get i j := by
  have hl : m.toList.length = n * n := by rw [mat_toList_length, hm.1, hm.2]
  refine ⟨?_, ⟨rfl, rfl, hl⟩, ?_⟩
  · unfold GrayImage.fromRaw; rw [if_pos (by rw [hl])]
  · intro i hi j hj
    exact toList_getD m n i j hm.1 hm.2 hi hj

theorem bits3_total (fs : List F) (step : F) : (fs.flatMap (bits3 step)).length = 3 * fs.length := by
  induction fs with
  | nil => rfl
  | cons f fs ih => rw [List.flatMap_cons, List.length_append, ih]; simp [bits3]; ring

theorem threeBitQuantization_lengths (fs : List F) (step : F) (q : List Int) (p : List Bool)
    (h : threeBitQuantization fs step = .ok (q, p)) : q = quantize fs step ∧ p.length = 3 * fs.length := by
  by_cases hm : ∀ f ∈ fs, quantizeOne step f ≠ i64Min
  · rw [threeBitQuantization_ok fs step hm] at h
    cases h
    exact ⟨rfl, bits3_total fs step⟩
  · push Not at hm
    obtain ⟨e, he⟩ := threeBitQuantization_error fs step hm
    rw [he] at h; simp at h

/-- Embedding part of `watermark_channel` once the record is known. -/
theorem watermarkChannel_split (D : Deps F) (c : GrayImage) (depth step : F) (a levels : Nat)
    (hraw : c.raw.length = c.width * c.height) (fs : List F) (hf : equalizedFeatures D c a = .ok fs)
    (q : List Int) (p : List Bool) (hq : threeBitQuantization fs step = .ok (q, p))
    (hk : D.ed.keypairOk (builtinSecret ++ builtinPublic) = true) (hp : p.length ≤ 255) :
    ∃ record, (Watermark.mk p (D.ed.sign (builtinSecret ++ builtinPublic) (vecI64ToBytes q)) watermarkText).serialize = .ok record ∧
      (∀ tail, deserializeWatermark (record ++ tail) =
        .ok (Watermark.mk p (D.ed.sign (builtinSecret ++ builtinPublic) (vecI64ToBytes q)) watermarkText)) ∧
      record.length = recordBytes a ∧
      watermarkChannel D c depth step a levels =
        (embed D.ldpc c.pixels record depth levels).bind fun m => GrayImage.fromRaw c.width c.height m.toList := by
  obtain ⟨record, hs, hd⟩ := watermark_roundtrip
    (Watermark.mk p (D.ed.sign (builtinSecret ++ builtinPublic) (vecI64ToBytes q)) watermarkText)
    ⟨hp, by dsimp only; rw [D.ed.sign_length]; omega, by dsimp only; rw [watermarkText_size]; omega⟩
  obtain ⟨hq1, hq2⟩ := threeBitQuantization_lengths fs step q p hq
  obtain ⟨_, hl, _⟩ := equalizedFeatures_length D c a fs hf
  refine ⟨record, hs, hd, ?_, ?_⟩
  · rw [watermark_serialize_length _ record hs]
    dsimp only
    rw [D.ed.sign_length, watermarkText_size, hq2, hl]
    rfl
  · unfold watermarkChannel
    rw [fromShapeVec_ok c hraw, hf]
    simp only [bind, Except.bind]
    rw [hq]
    dsimp only
    rw [sign_builtin, if_pos hk]
    dsimp only
    rw [hs]

end
end Sia
