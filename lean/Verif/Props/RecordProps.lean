import Verif.Model.WatermarkRecord
import Verif.Model.DataRecord
import Verif.Lemmas.BytesLemmas
import Verif.Props.BytesProps

/-! C06–C10: perturbation vector bytes, watermark record, payload record. -/
namespace Sia

/-! ### C06 -/

/-- C06: the perturbation vector is recovered from its byte form. -/
theorem perturbation_roundtrip (v : List Bool) :
    perturbationVectorFromBytes (perturbationVectorAsBytes v) v.length = v := by
  have h := bytesBits_packBits_take v []
  simp only [List.append_nil] at h
  simp [perturbationVectorFromBytes, perturbationVectorAsBytes, funtyAsBool, h]

/-- C06: it has `ceil(len/8)` bytes, bit `i` of the vector being bit `i % 8` of byte `i / 8`, unused bits zero. -/
theorem perturbation_bytes_format (v : List Bool) :
    (perturbationVectorAsBytes v).length = (v.length + 7) / 8 ∧
    ∀ k b, (perturbationVectorAsBytes v)[k]? = some b → ∀ i < 8, b.toNat.testBit i = v.getD (8 * k + i) false := by
  refine ⟨packBits_length v, ?_⟩
  intro k b hb i hi
  have h1 := bytesBits_getElem? (packBits v) k i hi
  unfold perturbationVectorAsBytes at hb
  rw [hb, bytesBits_packBits] at h1
  simp only [Option.map_some] at h1
  by_cases hlt : 8 * k + i < v.length
  · rw [List.getElem?_append_left hlt] at h1
    rw [List.getD_eq_getElem?_getD, h1]; rfl
  · rw [List.getElem?_append_right (by omega), List.getElem?_replicate] at h1
    have : v[8 * k + i]? = none := by simp; omega
    rw [List.getD_eq_getElem?_getD, this]
    split at h1
    · simpa using h1.symm
    · simp at h1

/-- C06: any bytes that agree with the byte form on the first `v.length` bits give back `v`: the unused bits of the
last byte and further bytes do not matter. -/
theorem perturbation_ignores_unused_bits (v : List Bool) (bytes : List UInt8)
    (h : ∀ i < v.length, ∃ b, bytes[i / 8]? = some b ∧ v[i]? = some (b.toNat.testBit (i % 8))) :
    perturbationVectorFromBytes bytes v.length = v := by
  have hbits : (bytesBits bytes).take v.length = v := by
    apply List.ext_getElem?
    intro i
    rw [List.getElem?_take]
    split
    · rename_i hi
      obtain ⟨b, hb, hv⟩ := h i hi
      have := bytesBits_getElem? bytes (i / 8) (i % 8) (by omega)
      rw [show 8 * (i / 8) + i % 8 = i by omega, hb] at this
      rw [this, hv]; rfl
    · rename_i hi; simp; omega
  simp [perturbationVectorFromBytes, funtyAsBool, hbits]

/-- The hypothesis holds for a 3-bit vector in the low bits of 0xFD = 0b11111101. -/
example : perturbationVectorFromBytes [0xFD, 7] 3 = [true, false, true] :=
  perturbation_ignores_unused_bits [true, false, true] [0xFD, 7] (by
    intro i hi
    have : i = 0 ∨ i = 1 ∨ i = 2 := by simp at hi; omega
    rcases this with rfl | rfl | rfl <;> exact ⟨0xFD, by decide, by decide⟩)

/-! ### UTF-8 -/

theorem fromUtf8?_utf8Bytes (s : String) : fromUtf8? (utf8Bytes s) = some s := by
  unfold fromUtf8? utf8Bytes String.fromUTF8?
  have : (⟨s.toByteArray.data.toList.toArray⟩ : ByteArray) = s.toByteArray := by simp
  rw [dif_pos (by rw [this]; exact s.isValidUTF8)]
  simp [String.fromUTF8]

theorem utf8Bytes_of_fromUtf8? (bs : List UInt8) (s : String) (h : fromUtf8? bs = some s) : utf8Bytes s = bs := by
  unfold fromUtf8? String.fromUTF8? at h
  split at h
  · simp at h; subst h; simp [utf8Bytes, String.fromUTF8]
  · simp at h

theorem utf8Bytes_injective : Function.Injective utf8Bytes := by
  intro a b h
  have := fromUtf8?_utf8Bytes a
  rw [h, fromUtf8?_utf8Bytes] at this
  simpa using this.symm

/-! ### C07, C08: the watermark record -/

/-- A watermark the record format can hold. -/
def Watermark.Fits (w : Watermark) : Prop :=
  w.perturbationVector.length ≤ 255 ∧ w.signature.length ≤ 255 ∧ w.text.utf8ByteSize ≤ 255

theorem utf8Bytes_length (s : String) : (utf8Bytes s).length = s.utf8ByteSize := by
  unfold utf8Bytes
  rw [Array.length_toList]; rfl

private theorem serialize_ok (w : Watermark) (h : w.Fits) :
    w.serialize = .ok ([UInt8.ofNat w.perturbationVector.length] ++ [UInt8.ofNat w.signature.length] ++
      [UInt8.ofNat (utf8Bytes w.text).length] ++ perturbationVectorAsBytes w.perturbationVector ++ w.signature ++
      utf8Bytes w.text) := by
  obtain ⟨h1, h2, h3⟩ := h
  rw [← utf8Bytes_length] at h3
  unfold Watermark.serialize
  dsimp only
  rw [if_neg (by omega), if_neg (by omega), if_neg (by omega)]

/-- C07: every watermark that fits is serialized, and parsing the result, followed by any trailing bytes, returns
the identical watermark. -/
theorem watermark_roundtrip (w : Watermark) (hfit : w.Fits) :
    ∃ bytes, w.serialize = .ok bytes ∧ ∀ tail, deserializeWatermark (bytes ++ tail) = .ok w := by
  refine ⟨_, serialize_ok w hfit, fun tail => ?_⟩
  obtain ⟨h1, h2, h3⟩ := hfit
  rw [← utf8Bytes_length] at h3
  set p := w.perturbationVector with hp
  set s := w.signature with hs
  set t := utf8Bytes w.text with ht
  have e1 : (UInt8.ofNat p.length).toNat = p.length := by simp; omega
  have e2 : (UInt8.ofNat s.length).toNat = s.length := by simp; omega
  have e3 : (UInt8.ofNat t.length).toNat = t.length := by simp; omega
  have hpl : (perturbationVectorAsBytes p).length = (p.length + 7) / 8 := packBits_length p
  unfold deserializeWatermark
  have hlen : ¬ ([UInt8.ofNat p.length] ++ [UInt8.ofNat s.length] ++ [UInt8.ofNat t.length] ++
      perturbationVectorAsBytes p ++ s ++ t ++ tail).length < 3 := by simp
  simp only [if_neg hlen]
  have g0 : ([UInt8.ofNat p.length] ++ [UInt8.ofNat s.length] ++ [UInt8.ofNat t.length] ++
      perturbationVectorAsBytes p ++ s ++ t ++ tail).getD 0 0 = UInt8.ofNat p.length := rfl
  have g1 : ([UInt8.ofNat p.length] ++ [UInt8.ofNat s.length] ++ [UInt8.ofNat t.length] ++
      perturbationVectorAsBytes p ++ s ++ t ++ tail).getD 1 0 = UInt8.ofNat s.length := rfl
  have g2 : ([UInt8.ofNat p.length] ++ [UInt8.ofNat s.length] ++ [UInt8.ofNat t.length] ++
      perturbationVectorAsBytes p ++ s ++ t ++ tail).getD 2 0 = UInt8.ofNat t.length := rfl
  simp only [g0, g1, g2, e1, e2, e3]
  have s1 : slice ([UInt8.ofNat p.length] ++ [UInt8.ofNat s.length] ++ [UInt8.ofNat t.length] ++
      perturbationVectorAsBytes p ++ s ++ t ++ tail) 3 (3 + (p.length + 7) / 8) =
      .ok (perturbationVectorAsBytes p) := by
    have := slice_append ([UInt8.ofNat p.length] ++ [UInt8.ofNat s.length] ++ [UInt8.ofNat t.length])
      (perturbationVectorAsBytes p) (s ++ t ++ tail) 3 (3 + (p.length + 7) / 8) rfl (by simp [hpl])
    simpa [List.append_assoc] using this
  have s2 : slice ([UInt8.ofNat p.length] ++ [UInt8.ofNat s.length] ++ [UInt8.ofNat t.length] ++
      perturbationVectorAsBytes p ++ s ++ t ++ tail) (3 + (p.length + 7) / 8) (3 + (p.length + 7) / 8 + s.length) =
      .ok s := by
    have := slice_append ([UInt8.ofNat p.length] ++ [UInt8.ofNat s.length] ++ [UInt8.ofNat t.length] ++
      perturbationVectorAsBytes p) s (t ++ tail) (3 + (p.length + 7) / 8) (3 + (p.length + 7) / 8 + s.length)
      (by simp [hpl]; omega) (by simp [hpl]; omega)
    simpa [List.append_assoc] using this
  have s3 : slice ([UInt8.ofNat p.length] ++ [UInt8.ofNat s.length] ++ [UInt8.ofNat t.length] ++
      perturbationVectorAsBytes p ++ s ++ t ++ tail) (3 + (p.length + 7) / 8 + s.length)
      (3 + (p.length + 7) / 8 + s.length + t.length) = .ok t := by
    have := slice_append ([UInt8.ofNat p.length] ++ [UInt8.ofNat s.length] ++ [UInt8.ofNat t.length] ++
      perturbationVectorAsBytes p ++ s) t tail (3 + (p.length + 7) / 8 + s.length)
      (3 + (p.length + 7) / 8 + s.length + t.length) (by simp [hpl]; omega) (by simp [hpl]; omega)
    simpa [List.append_assoc] using this
  rw [s1, s2, s3]
  simp only [bind, Except.bind, pure, Except.pure, perturbation_roundtrip]
  rw [ht, fromUtf8?_utf8Bytes]

/-- C08: serialization succeeds exactly for watermarks that fit, otherwise it aborts. -/
theorem watermark_serialize_iff (w : Watermark) : (∃ bytes, w.serialize = .ok bytes) ↔ w.Fits := by
  constructor
  · rintro ⟨b, h⟩
    unfold Watermark.serialize at h
    unfold Watermark.Fits
    rw [← utf8Bytes_length]
    dsimp only at h
    split at h
    · simp at h
    · split at h
      · simp at h
      · split at h
        · simp at h
        · omega
  · intro h; exact ⟨_, serialize_ok w h⟩

/-- C08: the exact size of a record. -/
theorem watermark_serialize_length (w : Watermark) (bytes : List UInt8) (h : w.serialize = .ok bytes) :
    bytes.length = 3 + (w.perturbationVector.length + 7) / 8 + w.signature.length + w.text.utf8ByteSize := by
  rw [serialize_ok w ((watermark_serialize_iff w).mp ⟨_, h⟩)] at h
  cases h
  have hpl : (perturbationVectorAsBytes w.perturbationVector).length = _ := packBits_length _
  simp only [List.length_append, List.length_cons, List.length_nil, hpl, utf8Bytes_length]

/-- C08: the record's layout: a header with the three lengths, then the three sections. -/
theorem watermark_serialize_layout (w : Watermark) (bytes : List UInt8) (h : w.serialize = .ok bytes) :
    ∃ p t, bytes = [UInt8.ofNat w.perturbationVector.length, UInt8.ofNat w.signature.length,
        UInt8.ofNat w.text.utf8ByteSize] ++ p ++ w.signature ++ t ∧
      p = perturbationVectorAsBytes w.perturbationVector ∧ t = w.text.toByteArray.data.toList := by
  rw [serialize_ok w ((watermark_serialize_iff w).mp ⟨_, h⟩)] at h
  cases h
  exact ⟨_, _, by rw [utf8Bytes_length]; rfl, rfl, rfl⟩

/-- C08: two different watermarks never serialize to the same bytes; no record is a proper prefix of another. -/
theorem watermark_serialize_injective (w v : Watermark) (a b : List UInt8) (hw : w.serialize = .ok a)
    (hv : v.serialize = .ok b) (hpre : a <+: b) : w = v ∧ a = b := by
  obtain ⟨tail, rfl⟩ := hpre
  obtain ⟨a', ha', hr⟩ := watermark_roundtrip w ((watermark_serialize_iff w).mp ⟨_, hw⟩)
  rw [hw] at ha'
  cases ha'
  obtain ⟨b', hb', hr'⟩ := watermark_roundtrip v ((watermark_serialize_iff v).mp ⟨_, hv⟩)
  rw [hv] at hb'
  cases hb'
  have h1 := hr tail
  have h2 := hr' []
  rw [List.append_nil, h1] at h2
  have hwv : w = v := Except.ok.inj h2
  refine ⟨hwv, ?_⟩
  subst hwv
  rw [hw] at hv
  exact Except.ok.inj hv

/-- A concrete watermark that fits. -/
example : Watermark.Fits ⟨List.replicate 33 true, List.replicate 64 7, "Hello world!"⟩ := by
  refine ⟨by simp, by simp, by decide +kernel⟩

/-! ### C09: parsing arbitrary bytes -/

/-- What the parser accepts: three header bytes, the three announced sections present, and the text section the UTF-8
encoding of a string. -/
def ParsableRecord (bytes : List UInt8) : Prop :=
  ∃ p s t rest, bytes = p :: s :: t :: rest ∧
    (p.toNat + 7) / 8 + s.toNat + t.toNat ≤ rest.length ∧
    ∃ text : String, utf8Bytes text = (rest.drop ((p.toNat + 7) / 8 + s.toNat)).take t.toNat

/-- Outcome of the parser in terms of the sections. -/
private theorem deserialize_cons (p s t : UInt8) (rest : List UInt8)
    (h : (p.toNat + 7) / 8 + s.toNat + t.toNat ≤ rest.length) :
    deserializeWatermark (p :: s :: t :: rest) =
      match fromUtf8? ((rest.drop ((p.toNat + 7) / 8 + s.toNat)).take t.toNat) with
      | none => .error .invalidUtf8
      | some text => .ok (Watermark.mk ((bytesBits (rest.take ((p.toNat + 7) / 8))).take p.toNat)
          ((rest.drop ((p.toNat + 7) / 8)).take s.toNat) text) := by
  unfold deserializeWatermark
  have hlen : ¬ (p :: s :: t :: rest).length < 3 := by simp
  simp only [if_neg hlen]
  have g0 : (p :: s :: t :: rest).getD 0 0 = p := rfl
  have g1 : (p :: s :: t :: rest).getD 1 0 = s := rfl
  have g2 : (p :: s :: t :: rest).getD 2 0 = t := rfl
  simp only [g0, g1, g2]
  have hd : ∀ k, (p :: s :: t :: rest).drop (3 + k) = rest.drop k := by
    intro k; rw [Nat.add_comm]; rfl
  have s1 : slice (p :: s :: t :: rest) 3 (3 + (p.toNat + 7) / 8) = .ok (rest.take ((p.toNat + 7) / 8)) := by
    rw [slice_ok_iff]
    exact ⟨by omega, by simp; omega, by simp⟩
  have s2 : slice (p :: s :: t :: rest) (3 + (p.toNat + 7) / 8) (3 + (p.toNat + 7) / 8 + s.toNat) =
      .ok ((rest.drop ((p.toNat + 7) / 8)).take s.toNat) := by
    rw [slice_ok_iff]
    exact ⟨by omega, by simp; omega, by rw [hd]; congr 1; omega⟩
  have s3 : slice (p :: s :: t :: rest) (3 + (p.toNat + 7) / 8 + s.toNat)
      (3 + (p.toNat + 7) / 8 + s.toNat + t.toNat) =
      .ok ((rest.drop ((p.toNat + 7) / 8 + s.toNat)).take t.toNat) := by
    rw [slice_ok_iff]
    exact ⟨by omega, by simp; omega, by rw [Nat.add_assoc 3, hd]; congr 1; omega⟩
  rw [s1, s2, s3]
  simp only [bind, Except.bind, pure, Except.pure, perturbationVectorFromBytes, funtyAsBool, throw, throwThe,
    MonadExceptOf.throw]
  split <;> simp_all

private theorem deserialize_short (p s t : UInt8) (rest : List UInt8)
    (h : ¬ (p.toNat + 7) / 8 + s.toNat + t.toNat ≤ rest.length) :
    deserializeWatermark (p :: s :: t :: rest) = .error .sliceOutOfRange := by
  unfold deserializeWatermark
  have hlen : ¬ (p :: s :: t :: rest).length < 3 := by simp
  simp only [if_neg hlen]
  have g0 : (p :: s :: t :: rest).getD 0 0 = p := rfl
  have g1 : (p :: s :: t :: rest).getD 1 0 = s := rfl
  have g2 : (p :: s :: t :: rest).getD 2 0 = t := rfl
  simp only [g0, g1, g2]
  have s3 : slice (p :: s :: t :: rest) (3 + (p.toNat + 7) / 8 + s.toNat)
      (3 + (p.toNat + 7) / 8 + s.toNat + t.toNat) = .error .sliceOutOfRange := by
    unfold slice
    rw [if_neg]
    simp; omega
  have s12 : ∀ a b, slice (p :: s :: t :: rest) a b = .error .sliceOutOfRange ∨
      ∃ r, slice (p :: s :: t :: rest) a b = .ok r := by
    intro a b; unfold slice; split <;> simp
  rw [s3]
  rcases s12 3 (3 + (p.toNat + 7) / 8) with h1 | ⟨r1, h1⟩ <;> rw [h1]
  · rfl
  · rcases s12 (3 + (p.toNat + 7) / 8) (3 + (p.toNat + 7) / 8 + s.toNat) with h2 | ⟨r2, h2⟩ <;> rw [h2]
    · rfl
    · rfl

/-- C09: the parser succeeds exactly on `ParsableRecord`s; on all other inputs it aborts. -/
theorem watermark_parse_iff (bytes : List UInt8) :
    (∃ w, deserializeWatermark bytes = .ok w) ↔ ParsableRecord bytes := by
  match bytes with
  | [] => simp [deserializeWatermark, ParsableRecord, bind, Except.bind, throw, throwThe, MonadExceptOf.throw]
  | [_] => simp [deserializeWatermark, ParsableRecord, bind, Except.bind, throw, throwThe, MonadExceptOf.throw]
  | [_, _] => simp [deserializeWatermark, ParsableRecord, bind, Except.bind, throw, throwThe, MonadExceptOf.throw]
  | p :: s :: t :: rest =>
    by_cases h : (p.toNat + 7) / 8 + s.toNat + t.toNat ≤ rest.length
    · rw [deserialize_cons p s t rest h]
      constructor
      · rintro ⟨w, hw⟩
        split at hw
        · simp at hw
        · rename_i text htext
          exact ⟨p, s, t, rest, rfl, h, text, utf8Bytes_of_fromUtf8? _ _ htext⟩
      · rintro ⟨p', s', t', rest', heq, _, text, ht⟩
        cases heq
        rw [← ht, fromUtf8?_utf8Bytes]
        exact ⟨_, rfl⟩
    · rw [deserialize_short p s t rest h]
      constructor
      · rintro ⟨w, hw⟩; simp at hw
      · rintro ⟨p', s', t', rest', heq, h', _⟩
        cases heq
        exact absurd h' h

/-- C09: what the parser returns is exactly the announced sections. -/
theorem watermark_parse_sections (p s t : UInt8) (rest : List UInt8) (w : Watermark)
    (h : deserializeWatermark (p :: s :: t :: rest) = .ok w) :
    w.perturbationVector.length = p.toNat ∧
    (∀ i < p.toNat, ∃ b, rest[i / 8]? = some b ∧ w.perturbationVector[i]? = some (b.toNat.testBit (i % 8))) ∧
    w.signature = (rest.drop ((p.toNat + 7) / 8)).take s.toNat ∧ w.signature.length = s.toNat ∧
    utf8Bytes w.text = (rest.drop ((p.toNat + 7) / 8 + s.toNat)).take t.toNat ∧ w.text.utf8ByteSize = t.toNat := by
  obtain ⟨p', s', t', rest', heq, hle, _⟩ := (watermark_parse_iff _).mp ⟨w, h⟩
  cases heq
  rw [deserialize_cons p s t rest hle] at h
  split at h
  · simp at h
  · rename_i text htext
    cases h
    have ht := utf8Bytes_of_fromUtf8? _ _ htext
    refine ⟨by simp; omega, ?_, rfl, by simp; omega, ht, ?_⟩
    · intro i hi
      have hlt : i / 8 < rest.length := by omega
      refine ⟨rest[i / 8], by simp [hlt], ?_⟩
      dsimp only
      rw [List.getElem?_take, if_pos hi]
      have := bytesBits_getElem? (rest.take ((p.toNat + 7) / 8)) (i / 8) (i % 8) (by omega)
      rw [show 8 * (i / 8) + i % 8 = i by omega] at this
      rw [this, List.getElem?_take, if_pos (by omega)]
      simp [hlt]
    · rw [← utf8Bytes_length, ht]; simp; omega

/-- C09: whatever the parser returns can be serialized again, and the result parses to the same watermark. -/
theorem watermark_parse_reserialize (bytes : List UInt8) (w : Watermark) (h : deserializeWatermark bytes = .ok w) :
    ∃ out, w.serialize = .ok out ∧ out.length ≤ bytes.length ∧ deserializeWatermark out = .ok w := by
  obtain ⟨p, s, t, rest, rfl, hle, _⟩ := (watermark_parse_iff _).mp ⟨w, h⟩
  obtain ⟨h1, _, _, h2, _, h3⟩ := watermark_parse_sections p s t rest w h
  have hfit : w.Fits := by
    have hp := p.toNat_lt; have hs := s.toNat_lt; have ht := t.toNat_lt
    refine ⟨by omega, by omega, by omega⟩
  obtain ⟨out, ho, hr⟩ := watermark_roundtrip w hfit
  refine ⟨out, ho, ?_, by simpa using hr []⟩
  rw [watermark_serialize_length w out ho]
  simp only [List.length_cons]
  omega

/-- The empty record is parsable, and so is a record with trailing garbage. -/
example : ParsableRecord [3, 2, 1, 5, 9, 9, 65, 77, 77] :=
  ⟨3, 2, 1, [5, 9, 9, 65, 77, 77], rfl, by decide, "A", by decide +kernel⟩

/-! ### C10: payload record -/

private theorem u16ToBytes_eq (n : Nat) (h : n ≤ 65535) :
    vecU16ToBytes [UInt16.ofNat n] = [UInt8.ofNat (n % 256), UInt8.ofNat (n / 256)] := by
  rw [(u16_bytes_format _).2]
  have : (UInt16.ofNat n).toNat = n := by simp; omega
  simp only [List.flatMap_cons, List.flatMap_nil, List.append_nil, this]

/-- C10: the record is the little-endian 16-bit length followed by the payload; serialization aborts exactly for more
than 65535 bytes. -/
theorem data_serialize_spec (bytes : List UInt8) :
    (bytes.length ≤ 65535 → dataSerialize bytes =
      .ok ([UInt8.ofNat (bytes.length % 256), UInt8.ofNat (bytes.length / 256)] ++ bytes)) ∧
    (65535 < bytes.length → dataSerialize bytes = .error .tooLongData) := by
  constructor
  · intro h
    unfold dataSerialize
    rw [if_neg (by omega), u16ToBytes_eq _ h]
  · intro h
    unfold dataSerialize
    rw [if_pos (by omega)]

/-- Parser of the payload record on a record with at least one byte after the header. -/
theorem data_deserialize_cons (a b : UInt8) (rest : List UInt8) (h : rest ≠ []) :
    dataDeserialize (a :: b :: rest) =
      if a.toNat + 256 * b.toNat ≤ rest.length then .ok (rest.take (a.toNat + 256 * b.toNat))
      else .error .sliceOutOfRange := by
  have hp := List.length_pos_iff.mpr h
  unfold dataDeserialize
  have hlen : ¬ (a :: b :: rest).length < 3 := by simp; omega
  simp only [if_neg hlen]
  have s1 : slice (a :: b :: rest) 0 2 = .ok [a, b] := by
    rw [slice_ok_iff]; exact ⟨by omega, by simp, by simp⟩
  have hu : vecU16FromBytes [a, b] = .ok [UInt16.ofNat (a.toNat + 256 * b.toNat)] := by
    unfold vecU16FromBytes
    rw [chunks_short [a, b] (by simp) (by simp)]
    simp [leNat, pure, Except.pure, bind, Except.bind]
  have ha := a.toNat_lt
  have hb := b.toNat_lt
  have e : (UInt16.ofNat (a.toNat + 256 * b.toNat)).toNat = a.toNat + 256 * b.toNat := by simp; omega
  simp only [s1, hu, bind, Except.bind, List.getElem?_cons_zero, e]
  unfold slice
  simp only [List.length_cons]
  by_cases hc : a.toNat + 256 * b.toNat ≤ rest.length
  · rw [if_pos (by omega), if_pos hc]
    congr 1
    have : (a :: b :: rest).drop 2 = rest := rfl
    rw [this]; congr 1; omega
  · rw [if_neg (by omega), if_neg hc]

/-- C10: a payload of 1..=65535 bytes is recovered from its record, trailing bytes ignored. -/
theorem data_roundtrip (bytes : List UInt8) (h1 : 1 ≤ bytes.length) (h2 : bytes.length ≤ 65535) :
    ∃ record, dataSerialize bytes = .ok record ∧ ∀ tail, dataDeserialize (record ++ tail) = .ok bytes := by
  refine ⟨_, (data_serialize_spec bytes).1 h2, fun tail => ?_⟩
  have hne : bytes ++ tail ≠ [] := by
    intro h; have := congrArg List.length h; simp only [List.length_append, List.length_nil] at this; omega
  have e1 : (UInt8.ofNat (bytes.length % 256)).toNat = bytes.length % 256 := by simp
  have e2 : (UInt8.ofNat (bytes.length / 256)).toNat = bytes.length / 256 := by simp; omega
  have := data_deserialize_cons (UInt8.ofNat (bytes.length % 256)) (UInt8.ofNat (bytes.length / 256)) (bytes ++ tail) hne
  rw [e1, e2, show bytes.length % 256 + 256 * (bytes.length / 256) = bytes.length by omega,
    if_pos (by simp)] at this
  simpa using this

/-- C10: the empty payload is serialized, but its record alone cannot be read back. -/
theorem data_empty_not_readable :
    dataSerialize [] = .ok [0, 0] ∧ dataDeserialize [0, 0] = .error .tooShortData := by
  constructor <;> rfl

/-- C10: the parser on arbitrary bytes: it succeeds exactly if there are at least three bytes and the announced payload
is present, and then returns exactly the announced payload. -/
theorem data_parse_spec (bytes payload : List UInt8) :
    dataDeserialize bytes = .ok payload ↔
      ∃ a b rest, bytes = a :: b :: rest ∧ rest ≠ [] ∧ a.toNat + 256 * b.toNat ≤ rest.length ∧
        payload = rest.take (a.toNat + 256 * b.toNat) := by
  match bytes with
  | [] => simp [dataDeserialize, bind, Except.bind, throw, throwThe, MonadExceptOf.throw]
  | [_] => simp [dataDeserialize, bind, Except.bind, throw, throwThe, MonadExceptOf.throw]
  | [a, b] =>
    constructor
    · intro h; simp [dataDeserialize, bind, Except.bind, throw, throwThe, MonadExceptOf.throw] at h
    · rintro ⟨a', b', rest, heq, hne, _⟩
      cases heq; exact absurd rfl hne
  | a :: b :: c :: rest =>
    rw [data_deserialize_cons a b (c :: rest) (by simp)]
    constructor
    · intro h
      split at h
      · rename_i hle; cases h; exact ⟨a, b, _, rfl, by simp, hle, rfl⟩
      · simp at h
    · rintro ⟨a', b', rest', heq, _, hle, rfl⟩
      cases heq
      rw [if_pos hle]

example : 1 ≤ ([7, 8, 9] : List UInt8).length ∧ ([7, 8, 9] : List UInt8).length ≤ 65535 := by decide

end Sia
