import Verif.Props.EmbedProps
import Verif.Props.StegoProps

/-! Embedding and extraction on rectangles: shapes, tall domains (more rows than columns). -/
namespace Sia

section
variable {F : Type} [FloatOps F]

theorem foldlM_dims {α : Type} (f : Mat F → α → Res (Mat F)) (hf : ∀ m x m', f m x = .ok m' → m'.rows = m.rows ∧ m'.cols = m.cols) :
    ∀ (l : List α) (m m' : Mat F), l.foldlM f m = .ok m' → m'.rows = m.rows ∧ m'.cols = m.cols := by
  intro l
  induction l with
  | nil => intro m m' h; cases h; exact ⟨rfl, rfl⟩
  | cons x xs ih =>
    intro m m' h
    rw [List.foldlM_cons] at h
    cases hx : f m x with
    | error e => rw [hx] at h; simp [bind, Except.bind] at h
    | ok m1 =>
      rw [hx] at h
      obtain ⟨a, b⟩ := hf m x m1 hx
      obtain ⟨c, d⟩ := ih m1 m' h
      exact ⟨c.trans a, d.trans b⟩

theorem dwt2d_dims (m m' : Mat F) (L : Nat) (b : Bool) (h : dwt2d m L b = .ok m') : m'.rows = m.rows ∧ m'.cols = m.cols := by
  unfold dwt2d at h
  split_ifs at h
  all_goals
    exact foldlM_dims _ (fun m x m' h => ⟨(dwtIteration_dims _ m m' x h).1, (dwtIteration_dims _ m m' x h).2.1⟩) _ m m' h

theorem embed_shape (L : Ldpc) (image out : Mat UInt8) (bytes : List UInt8) (depth : F) (levels : Nat)
    (h : embed L image bytes depth levels = .ok out) : out.rows = image.rows ∧ out.cols = image.cols := by
  unfold embed at h
  simp only [bind, Except.bind, pure, Except.pure, throw, throwThe, MonadExceptOf.throw] at h
  cases h1 : dwt2d (image.map (pixelToFloat (F := F))) levels false with
  | error e => rw [h1] at h; simp at h
  | ok c =>
    rw [h1] at h
    dsimp only at h
    split_ifs at h with h31
    cases h2 : getDomainCapacity (lowLow c levels).rows (lowLow c levels).cols with
    | error e => rw [h2] at h; simp at h
    | ok cap =>
      rw [h2] at h
      dsimp only at h
      cases h3 : dataSerialize bytes with
      | error e => rw [h3] at h; simp at h
      | ok s =>
        rw [h3] at h
        dsimp only at h
        cases h4 : write (lowLow c levels) (encode L s cap) depth with
        | error e => rw [h4] at h; simp at h
        | ok ll =>
          rw [h4] at h
          dsimp only at h
          cases h5 : dwt2d { c with get := ll.get } levels true with
          | error e => rw [h5] at h; simp at h
          | ok r =>
            rw [h5] at h
            cases h
            obtain ⟨a, b⟩ := dwt2d_dims _ _ _ _ h1
            obtain ⟨a', b'⟩ := dwt2d_dims _ _ _ _ h5
            exact ⟨a'.trans a, b'.trans b⟩

/-- A tall domain takes bits up to its number of columns. -/
theorem writeBits_tall (depth : F) : ∀ (bs : List Bool) (o : Nat) (m : Mat F), m.cols < m.rows → o + bs.length ≤ m.cols →
    ∃ m', bs.foldlM (writeBit depth) (o, m) = .ok (o + bs.length, m') := by
  intro bs
  induction bs with
  | nil => intro o m _ _; exact ⟨m, rfl⟩
  | cons b bs ih =>
    intro o m hm ho
    simp only [List.length_cons] at ho
    have hstep : writeBit depth (o, m) b = .ok (o + 1, m.set 0 o (writeCell depth b (m.get 0 o))) := by
      unfold writeBit getColumnAndRow
      dsimp only
      rw [Nat.mod_eq_of_lt (by omega), Nat.div_eq_of_lt (by omega), if_pos ⟨by omega, by omega⟩]
    obtain ⟨m', hm'⟩ := ih (o + 1) (m.set 0 o (writeCell depth b (m.get 0 o))) hm (by show o + 1 + bs.length ≤ m.cols; omega)
    refine ⟨m', ?_⟩
    rw [List.foldlM_cons, hstep]
    simp only [bind, Except.bind]
    rw [hm', List.length_cons]
    congr 2
    omega

theorem write_tall_ok (m : Mat F) (bytes : List UInt8) (depth : F) (h : m.cols < m.rows) (hb : 8 * bytes.length ≤ m.cols) :
    ∃ m', write m bytes depth = .ok m' := by
  unfold write getCapacity
  dsimp only
  have hle : m.cols ≤ m.rows * m.cols := Nat.le_mul_of_pos_left _ (by omega)
  rw [if_neg (by omega)]
  obtain ⟨m', hm'⟩ := writeBits_tall depth (bytesBits bytes) 0 m h (by simpa using hb)
  refine ⟨m', ?_⟩
  simp only [bind, Except.bind, pure, Except.pure]
  rw [hm']

/-- Embedding into a tall image (more rows than columns) succeeds exactly if the encoded payload fits into the first row
of the domain. -/
theorem embed_tall_iff (L : Ldpc) (image : Mat UInt8) (payload : List UInt8) (depth : F) (levels : Nat)
    (hc : 0 < image.cols) (ht : image.cols < image.rows) :
    (∃ out, embed L image payload depth levels = .ok out) ↔
      1 ≤ levels ∧ levels ≤ 30 ∧ 2 ^ levels ∣ image.rows ∧ 2 ^ levels ∣ image.cols ∧ payload.length ≤ 65535 ∧
      9 ≤ image.rows / 2 ^ levels * (image.cols / 2 ^ levels) / 8 ∧
      8 * encodedLength (image.rows / 2 ^ levels * (image.cols / 2 ^ levels) / 8) payload.length ≤ image.cols / 2 ^ levels := by
  have hdiv : ∀ l, 2 ^ l ∣ image.rows → 2 ^ l ∣ image.cols → image.cols / 2 ^ l < image.rows / 2 ^ l := by
    rintro l ⟨a, ha⟩ ⟨b, hb⟩
    have h2 : 0 < 2 ^ l := by positivity
    rw [ha, hb, Nat.mul_div_cancel_left _ h2, Nat.mul_div_cancel_left _ h2]
    rw [ha, hb] at ht
    exact Nat.lt_of_mul_lt_mul_left ht
  have hrun : 1 ≤ levels → levels ≤ 30 → 2 ^ levels ∣ image.rows → 2 ^ levels ∣ image.cols →
      embed L image payload depth levels = (do
        let cap ← getDomainCapacity (image.rows / 2 ^ levels) (image.cols / 2 ^ levels)
        let s ← dataSerialize payload
        let ll ← write (⟨image.rows / 2 ^ levels, image.cols / 2 ^ levels,
          fwdN image.rows image.cols levels (image.map (pixelToFloat (F := F))).get⟩ : Mat F) (encode L s cap) depth
        return Mat.map floatToPixel (⟨image.rows, image.cols, bwdN image.rows image.cols levels ll.get⟩ : Mat F)) := by
    intro a1 a2 a3 a4
    unfold embed
    rw [dwt2d_forward (image.map (pixelToFloat (F := F))) levels a1 (by omega) a3 a4]
    simp only [bind, Except.bind, if_neg (show ¬ 31 ≤ levels by omega), pure, Except.pure, lowLow, Mat.map]
    cases getDomainCapacity (image.rows / 2 ^ levels) (image.cols / 2 ^ levels) with
    | error e => rfl
    | ok cap =>
      dsimp only
      cases dataSerialize payload with
      | error e => rfl
      | ok s =>
        dsimp only
        split
        · rfl
        · rename_i ll _
          have := dwt2d_backward (⟨image.rows, image.cols, ll.get⟩ : Mat F) levels a1 (by omega) a3 a4
          rw [this]
  constructor
  · rintro ⟨out, h⟩
    obtain ⟨a1, a2, a3, a4, a5, a6, a7⟩ := embed_ok_only L image out payload depth levels (by omega) hc h
    refine ⟨a1, a2, a3, a4, a5, a6, ?_⟩
    have hrec := (data_serialize_spec payload).1 a5
    rw [← encode_record_length L payload _ hrec]
    by_contra hbig
    rw [hrun a1 a2 a3 a4, getDomainCapacity_eq, if_pos a6] at h
    simp only [bind, Except.bind] at h
    rw [hrec] at h
    dsimp only at h
    obtain ⟨e, he⟩ := write_tall_aborts (⟨image.rows / 2 ^ levels, image.cols / 2 ^ levels,
          fwdN image.rows image.cols levels (image.map (pixelToFloat (F := F))).get⟩ : Mat F)
      (encode L _ (image.rows / 2 ^ levels * (image.cols / 2 ^ levels) / 8)) depth (hdiv levels a3 a4) (not_le.mp hbig)
    rw [he] at h
    simp at h
  · rintro ⟨a1, a2, a3, a4, a5, a6, a7⟩
    have hrec := (data_serialize_spec payload).1 a5
    rw [← encode_record_length L payload _ hrec] at a7
    rw [hrun a1 a2 a3 a4, getDomainCapacity_eq, if_pos a6]
    simp only [bind, Except.bind]
    rw [hrec]
    dsimp only
    obtain ⟨m', hm'⟩ := write_tall_ok (⟨image.rows / 2 ^ levels, image.cols / 2 ^ levels,
          fwdN image.rows image.cols levels (image.map (pixelToFloat (F := F))).get⟩ : Mat F)
      (encode L _ (image.rows / 2 ^ levels * (image.cols / 2 ^ levels) / 8)) depth (hdiv levels a3 a4) a7
    rw [hm']
    exact ⟨_, rfl⟩

/-- An image without pixels has no capacity. -/
theorem empty_image_aborts (L : Ldpc) (image : Mat UInt8) (bytes : List UInt8) (depth : F) (levels : Nat)
    (h0 : image.rows * image.cols = 0) :
    (∃ e, embed L image bytes depth levels = .error e) ∧ ∃ e, extract L image depth levels = .error e := by
  unfold embed extract
  cases hf : dwt2d (image.map (pixelToFloat (F := F))) levels false with
  | error e => exact ⟨⟨e, rfl⟩, ⟨e, rfl⟩⟩
  | ok m =>
    obtain ⟨d1, d2⟩ := dwt2d_dims _ _ _ _ hf
    have hz : (lowLow m levels).rows * (lowLow m levels).cols = 0 := by
      show m.rows / 2 ^ levels * (m.cols / 2 ^ levels) = 0
      rw [d1, d2]
      show image.rows / 2 ^ levels * (image.cols / 2 ^ levels) = 0
      rcases Nat.mul_eq_zero.mp h0 with h | h <;> simp [h]
    simp only [bind, Except.bind, throw, throwThe, MonadExceptOf.throw, pure, Except.pure]
    split_ifs with h31
    · exact ⟨⟨_, rfl⟩, ⟨_, rfl⟩⟩
    · refine ⟨?_, ?_⟩
      · rw [getDomainCapacity_eq, if_neg (by omega)]
        exact ⟨_, rfl⟩
      · cases read (lowLow m levels) depth with
        | error e => exact ⟨e, rfl⟩
        | ok bytes =>
          dsimp only
          rw [getDomainCapacity_eq, if_neg (by omega)]
          exact ⟨_, rfl⟩

/-- Extraction from a tall image always aborts. -/
theorem extract_tall_aborts (L : Ldpc) (image : Mat UInt8) (depth : F) (levels : Nat)
    (hc : 0 < image.cols) (ht : image.cols < image.rows) : ∃ e, extract L image depth levels = .error e := by
  unfold extract
  cases hf : dwt2d (image.map (pixelToFloat (F := F))) levels false with
  | error e => exact ⟨e, rfl⟩
  | ok m =>
    obtain ⟨a1, a2, a3, a4⟩ := dwt2d_forward_dvd _ m levels (by simp [Mat.map]; omega) (by simpa [Mat.map] using hc) hf
    obtain ⟨d1, d2⟩ := dwt2d_dims _ _ _ _ hf
    simp only [bind, Except.bind, throw, throwThe, MonadExceptOf.throw, pure, Except.pure]
    split_ifs with h31
    · exact ⟨_, rfl⟩
    · skip
      have hlt : (lowLow m levels).cols < (lowLow m levels).rows := by
        show m.cols / 2 ^ levels < m.rows / 2 ^ levels
        rw [d1, d2]
        obtain ⟨a, ha⟩ := a3
        obtain ⟨b, hb⟩ := a4
        have h2 : 0 < 2 ^ levels := by positivity
        rw [ha, hb, Nat.mul_div_cancel_left _ h2, Nat.mul_div_cancel_left _ h2]
        have ht' : (image.map (pixelToFloat (F := F))).cols < (image.map (pixelToFloat (F := F))).rows := ht
        rw [ha, hb] at ht'
        exact Nat.lt_of_mul_lt_mul_left ht'
      by_cases h8 : 8 ≤ (lowLow m levels).rows * (lowLow m levels).cols
      · obtain ⟨e, he⟩ := read_tall_aborts (lowLow m levels) depth hlt h8
        rw [he]; exact ⟨e, rfl⟩
      · cases read (lowLow m levels) depth with
        | error e => exact ⟨e, rfl⟩
        | ok bytes =>
          dsimp only
          rw [getDomainCapacity_eq, if_neg (by omega)]
          exact ⟨_, rfl⟩

end
end Sia
