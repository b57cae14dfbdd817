import Verif.Props.BlockProps
import Verif.Lemmas.FloatSign

/-! C63: depths that make no sense (zero, NaN, negative) are accepted; what then happens. IEEE binary64. -/
namespace Sia
open FloatOps LawfulFloat

section
variable {F : Type} [FloatOps F]

/-- Whether embedding succeeds does not depend on the depth. -/
theorem embed_accepts_any_depth (L : Ldpc) (image : Mat UInt8) (payload : List UInt8) (d d' : F) (levels n : Nat) (hn : 0 < n)
    (hsq : image.IsSquare n) (h : ∃ out, embed L image payload d levels = .ok out) :
    ∃ out, embed L image payload d' levels = .ok out := by
  obtain ⟨out, h⟩ := h
  obtain ⟨a1, a2, a3, a4, a5, a6, a7⟩ := embed_ok_only L image out payload d levels (by rw [hsq.1]; exact hn)
    (by rw [hsq.2]; exact hn) h
  rw [hsq.1, hsq.2] at a6 a7
  rw [hsq.1] at a3
  have hrec := (data_serialize_spec payload).1 a5
  exact ⟨_, embed_ok L image payload d' levels n hsq a1 a2 a3 _ hrec a6 (a7 _ hrec)⟩

/-- After the backward transform a block depends only on its own low-low coefficient and on the details. -/
theorem bwdN_local (R C L : Nat) (hr : 2 ^ L ∣ R) (hc : 2 ^ L ∣ C) : ∀ k ≤ L, ∀ m m' : Nat → Nat → F,
    (∀ i j, ¬ (i < R / 2 ^ k ∧ j < C / 2 ^ k) → m i j = m' i j) → ∀ p < R / 2 ^ k, ∀ q < C / 2 ^ k, m p q = m' p q →
    ∀ i j, i / 2 ^ k = p → j / 2 ^ k = q → bwdN R C k m i j = bwdN R C k m' i j := by
  intro k
  induction k with
  | zero =>
    intro _ m m' _ p _ q _ e i j hi hj
    simp only [pow_zero, Nat.div_one] at hi hj
    subst hi hj
    exact e
  | succ k ih =>
    intro hk m m' hout p hp q hq e i j hi hj
    have ew := pow_div_even hr (show k < L by omega)
    have eh := pow_div_even hc (show k < L by omega)
    rw [div_pow_succ] at hp hq
    set w := R / 2 ^ k with hw
    set h := C / 2 ^ k with hh
    have step : ∀ i j, i / 2 = p → j / 2 = q → stepT true w h m i j = stepT true w h m' i j := by
      intro i j hi hj
      have a1 : i < w := by omega
      have a2 : j < h := by omega
      have key : ∀ x, x < w → (x = p ∨ ¬ x < w / 2) → rowPass w h true m x j = rowPass w h true m' x j := by
        intro x hx hx'
        rw [rowPass_eq, rowPass_eq, if_pos ⟨hx, a2⟩, if_pos ⟨hx, a2⟩]
        simp only [srcA, srcB, if_true]
        rw [hj]
        congr 1
        · rcases hx' with rfl | hx'
          · exact e
          · exact hout _ _ (by rw [div_pow_succ, div_pow_succ]; intro hcon; exact hx' hcon.1)
        · exact hout _ _ (by rw [div_pow_succ, div_pow_succ]; intro hcon; have := hcon.2; omega)
      unfold stepT
      rw [colPass_eq, colPass_eq, if_pos ⟨a1, a2⟩, if_pos ⟨a1, a2⟩]
      simp only [srcA, srcB, if_true]
      rw [key (i / 2) (by omega) (Or.inl hi), key (w / 2 + i / 2) (by omega) (Or.inr (by omega))]
    have dd : ∀ x, x / 2 ^ (k + 1) = x / 2 ^ k / 2 := fun x => div_pow_succ x k
    rw [dd] at hi hj
    have b1 : i / 2 ^ k < w := by omega
    have b2 : j / 2 ^ k < h := by omega
    refine ih (by omega) (stepT true w h m) (stepT true w h m') ?_ (i / 2 ^ k) b1 (j / 2 ^ k) b2 (step _ _ hi hj) i j rfl rfl
    intro x y hxy
    unfold stepT
    rw [colPass_eq, colPass_eq, if_neg hxy, if_neg hxy, rowPass_eq, rowPass_eq, if_neg hxy, if_neg hxy]
    exact hout _ _ (by rw [div_pow_succ, div_pow_succ]; intro hcon; exact hxy ⟨by omega, by omega⟩)

end

theorem butterfly_nan (plus : Bool) (x y : F64) (h : x = .nan) : butterfly plus x y = .nan := by
  subst h
  have e : (mul frac1Sqrt2 F64.nan : F64) = .nan := rfl
  unfold butterfly
  rw [e]
  generalize (mul frac1Sqrt2 y : F64) = z
  cases plus <;> cases z <;> rfl

/-- An undefined low-low coefficient makes its whole block undefined. -/
theorem bwdN_nan (R C L : Nat) (hr : 2 ^ L ∣ R) (hc : 2 ^ L ∣ C) : ∀ k ≤ L, ∀ m : Nat → Nat → F64,
    ∀ p < R / 2 ^ k, ∀ q < C / 2 ^ k, m p q = .nan →
    ∀ i j, i / 2 ^ k = p → j / 2 ^ k = q → bwdN R C k m i j = .nan := by
  intro k
  induction k with
  | zero =>
    intro _ m p _ q _ e i j hi hj
    simp only [pow_zero, Nat.div_one] at hi hj
    subst hi hj
    exact e
  | succ k ih =>
    intro hk m p hp q hq e i j hi hj
    have ew := pow_div_even hr (show k < L by omega)
    have eh := pow_div_even hc (show k < L by omega)
    rw [div_pow_succ] at hp hq hi hj
    refine ih (by omega) _ (i / 2 ^ k) (by omega) (j / 2 ^ k) (by omega) ?_ i j rfl rfl
    have a1 : i / 2 ^ k < R / 2 ^ k := by omega
    have a2 : j / 2 ^ k < C / 2 ^ k := by omega
    unfold stepT
    rw [colPass_eq, if_pos ⟨a1, a2⟩]
    apply butterfly_nan
    simp only [srcA, if_true]
    rw [rowPass_eq, if_pos ⟨by omega, a2⟩]
    apply butterfly_nan
    simp only [srcA, if_true]
    rw [hi, hj]
    exact e

theorem floatToPixel_nan : floatToPixel (F64.nan) = 0 := rfl

/-- A finite value closer than a half to a pixel value is stored as that pixel. -/
theorem floatToPixel_near {F : Type} [FloatOps F] [LawfulFloat F] (x : F) (hx : fin x) (y : UInt8)
    (h : |val x - (y.toNat : ℝ)| < 1 / 2) : floatToPixel x = y := by
  have hv := floatToPixel_val x hx
  have hr : roundAway (val x) = (y.toNat : ℤ) := roundAway_eq _ _ (by push_cast; exact h)
  have hy := y.toNat_lt
  rw [hr] at hv
  unfold clampZ at hv
  rw [if_neg (by omega), if_neg (by omega)] at hv
  exact UInt8.toNat_inj.mp (by exact_mod_cast hv)

theorem errB_double (levels : Nat) (h1 : 1 ≤ levels) (h3 : levels ≤ 3) : errB F64 levels 1 < 1 / 2 := by
  obtain ⟨_, s2⟩ := slack_bounds (F := F64) levels h1 1 le_rfl
  have hs := embedSlack_double levels h3
  have hu := u_nonneg (F := F64)
  have hmag0 : 0 ≤ magF levels := by unfold magF; positivity
  have h0 : 0 ≤ u F64 * (3 * magF levels + 7) * 1 := by positivity
  have h2 : (1 : ℝ) ≤ 2 ^ levels := one_le_pow₀ (by norm_num)
  have herrB : 0 ≤ errB F64 levels 1 := by unfold errB errF; positivity
  have : errB F64 levels 1 ≤ 2 ^ levels * errB F64 levels 1 := le_mul_of_one_le_left herrB h2
  norm_num at hs
  linarith

/-- C63: embedding with a depth of zero or NaN is accepted, turns every block that should carry a bit black and leaves the
other blocks as they are (up to three levels, square images). -/
theorem embed_bad_depth (L : Ldpc) (n levels : Nat) (hl : levels ≤ 3) (image out : Mat UInt8) (payload : List UInt8) (d : F64)
    (hd : d = .fin 0 ∨ d = .nan) (hn : 0 < n) (hsq : image.IsSquare n) (h : embed L image payload d levels = .ok out) :
    ∀ i < n, ∀ j < n, out.get i j =
      if i / 2 ^ levels * (n / 2 ^ levels) + j / 2 ^ levels < 8 * encodedLength (domainBytes n levels) payload.length then 0
      else image.get i j := by
  have hd' : BadDepth d := hd.symm
  obtain ⟨a1, a2, a3, a4, a5, a6, a7⟩ := embed_ok_only L image out payload d levels (by rw [hsq.1]; exact hn)
    (by rw [hsq.2]; exact hn) h
  rw [hsq.1, hsq.2] at a6 a7
  rw [hsq.1] at a3
  have hrec := (data_serialize_spec payload).1 a5
  have hlen := encode_record_length L payload _ hrec (domainBytes n levels)
  rw [embed_ok L image payload d levels n hsq a1 a2 a3 _ hrec a6 (a7 _ hrec)] at h
  unfold domainBytes at hlen ⊢
  rw [← hlen, ← bytesBits_length]
  revert h
  generalize bytesBits (encode L _ _) = bits
  intro h i hi j hj
  have hout : out.get i j = floatToPixel (spatial n levels image d bits i j) := by cases h; rfl
  have hp : i / 2 ^ levels < n / 2 ^ levels := Nat.div_lt_div_of_lt_of_dvd a3 hi
  have hq : j / 2 ^ levels < n / 2 ^ levels := Nat.div_lt_div_of_lt_of_dvd a3 hj
  rw [hout]
  unfold spatial
  split_ifs with hb
  · rw [bwdN_nan n n levels a3 a3 levels le_rfl _ (i / 2 ^ levels) hp (j / 2 ^ levels) hq _ i j rfl rfl]
    · rfl
    · unfold written
      rw [if_pos ⟨hp, hq, hb⟩]
      exact writeCell_bad d _ _ hd'
  · have one : GoodDepth (F64.fin 1) := by
      refine ⟨trivial, ?_, ?_⟩
      · show _ ≤ ((1 : ℚ) : ℝ)
        norm_num
      · show ((1 : ℚ) : ℝ) ≤ _
        norm_num
    have v1 : val (F64.fin 1) = 1 := by show ((1 : ℚ) : ℝ) = 1; norm_num
    have e := bwdN_local n n levels a3 a3 levels le_rfl (written n levels image d bits) (written n levels image (F64.fin 1) [])
      (by
        intro x y hxy
        unfold written
        rw [if_neg (by tauto), if_neg (by tauto)]) (i / 2 ^ levels) hp (j / 2 ^ levels) hq (by
        unfold written
        rw [if_neg (by tauto), if_neg (by simp)]) i j rfl rfl
    rw [e]
    obtain ⟨sf, se⟩ := spatial_near image n levels a2 a3 (F64.fin 1) one (by rw [v1]) [] i j hi hj
    apply floatToPixel_near _ sf
    have ht : target n levels image (F64.fin 1) [] i j = ((image.get i j).toNat : ℝ) := by
      unfold target change written
      simp [pix]
    rw [ht, v1] at se
    exact lt_of_le_of_lt se (errB_double levels a1 hl)

/-- C63: reading with a depth of zero or NaN gives the same result for all images of the same size. -/
theorem extract_bad_depth (L : Ldpc) (a b : Mat UInt8) (d : F64) (levels : Nat) (hd : d = .fin 0 ∨ d = .nan)
    (h1 : a.rows = b.rows) (h2 : a.cols = b.cols) : extract L a d levels = extract L b d levels := by
  apply extract_congr L a b d d levels h1 h2
  intro ca cb _ _ i _ j _
  rw [readCell_bad d _ hd.symm, readCell_bad d _ hd.symm]

/-- C63: extraction does not see the sign of the depth. -/
theorem extract_ignores_sign (L : Ldpc) (image : Mat UInt8) (d : F64) (levels : Nat) :
    extract L image d.neg levels = extract L image d levels := by
  apply extract_congr L image image d.neg d levels rfl rfl
  intro ca cb ha hb i _ j _
  rw [ha] at hb
  cases hb
  exact readCell_neg d _

theorem byteBits_not (x : UInt8) : byteBits (~~~x) = (byteBits x).map (!·) := by
  have : ∀ x : Fin 256, byteBits (~~~(UInt8.ofNat x)) = (byteBits (UInt8.ofNat x)).map (!·) := by decide +kernel
  have h := this ⟨x.toNat, x.toNat_lt⟩
  simpa using h

theorem bytesBits_not (bytes : List UInt8) : bytesBits (bytes.map (~~~·)) = (bytesBits bytes).map (!·) := by
  induction bytes with
  | nil => rfl
  | cons x l ih =>
    have e : ∀ y l, bytesBits (y :: l) = byteBits y ++ bytesBits l := fun y l => rfl
    rw [List.map_cons, e, e, List.map_append, byteBits_not, ih]

/-- C63: writing with a negative depth writes the complement of every bit. -/
theorem write_negative_depth (m : Mat F64) (bytes : List UInt8) (d : F64) :
    write m bytes d.neg = write m (bytes.map (~~~·)) d := by
  unfold write
  rw [bytesBits_not, List.length_map]
  have key : ∀ (bs : List Bool) (st : Nat × Mat F64), bs.foldlM (writeBit d.neg) st = (bs.map (!·)).foldlM (writeBit d) st := by
    intro bs
    induction bs with
    | nil => intro st; rfl
    | cons b bs ih =>
      intro st
      have e : writeBit d.neg st b = writeBit d st (!b) := by
        unfold writeBit
        simp only [writeCell_neg]
      simp only [List.map_cons, List.foldlM_cons, e, ih]
  rw [key]

/-- C63: so what is written with a negative depth is read back, with the same depth, as its complement. -/
theorem negative_depth_complements (n : Nat) (m : Mat F64) (bytes : List UInt8) (x : ℚ) (hx : 1 / 2 ^ 20 ≤ x) (hx2 : x ≤ 2 ^ 20)
    (hm : m.IsSquare n) (hb : 8 * bytes.length ≤ n * n)
    (hc : ∀ i < n, ∀ j < n, ∃ y : ℚ, m.get i j = .fin y ∧ |y| ≤ 2 ^ 20) :
    ∃ m' rest, write m bytes (.fin (-x)) = .ok m' ∧ read m' (.fin (-x)) = .ok (bytes.map (~~~·) ++ rest) := by
  have hx' : (1 / 2 ^ 20 : ℝ) ≤ (x : ℝ) := by
    have : (((1 / 2 ^ 20 : ℚ)) : ℝ) ≤ (x : ℝ) := Rat.cast_le.2 hx
    push_cast at this
    exact this
  have hx2' : (x : ℝ) ≤ 2 ^ 20 := by exact_mod_cast hx2
  have good : GoodDepth (F64.fin x) := by
    refine ⟨trivial, ?_, ?_⟩
    · show _ ≤ (x : ℝ)
      refine le_trans ?_ hx'
      norm_num
    · show (x : ℝ) ≤ _
      refine le_trans hx2' ?_
      norm_num
  obtain ⟨m', old, w, _, _, _, r⟩ := read_after_write_float n m (bytes.map (~~~·)) (F64.fin x) good hm (by simpa using hb) (by
    intro i hi j hj
    obtain ⟨y, e, hy⟩ := hc i hi j hj
    rw [e]
    refine ⟨trivial, ?_⟩
    show |((y : ℚ) : ℝ)| ≤ 2 ^ 40 * (x : ℝ)
    have hy' : |(y : ℝ)| ≤ 2 ^ 20 := by exact_mod_cast hy
    refine le_trans hy' ?_
    norm_num at hx' ⊢
    linarith)
  refine ⟨m', old.drop bytes.length, ?_, ?_⟩
  · have := write_negative_depth m bytes (F64.fin x)
    rw [w] at this
    exact this
  · have e : read m' (F64.fin x).neg = read m' (F64.fin x) := read_congr m' m' _ _ rfl rfl (fun i _ j _ => readCell_neg _ _)
    rw [List.length_map] at r
    exact e.trans r

/-- A concrete case: a 512 x 512 image, depth 0: the first block turns black, the last one stays. -/
example : ∃ out, embed Ldpc.toy (⟨512, 512, fun i j => UInt8.ofNat (100 + (i * j) % 32)⟩ : Mat UInt8)
    (List.replicate 100 7) (F64.fin 0) 3 = .ok out ∧ out.get 0 0 = 0 ∧ out.get 511 511 = 101 := by
  have h0 : ∃ out, embed Ldpc.toy (⟨512, 512, fun i j => UInt8.ofNat (100 + (i * j) % 32)⟩ : Mat UInt8)
      (List.replicate 100 7) (F64.fin 0) 3 = .ok out := by
    refine ⟨_, embed_ok Ldpc.toy _ _ _ 3 512 ⟨rfl, rfl⟩ (by norm_num) (by norm_num) (by norm_num) _
      ((data_serialize_spec _).1 (by simp)) (by norm_num) ?_⟩
    have := encode_record_length Ldpc.toy (List.replicate 100 7) _ ((data_serialize_spec _).1 (by simp)) (512 / 2 ^ 3 * (512 / 2 ^ 3) / 8)
    rw [this]
    decide
  obtain ⟨out, h⟩ := h0
  have hb := embed_bad_depth Ldpc.toy 512 3 le_rfl _ out _ _ (Or.inl rfl) (by norm_num) ⟨rfl, rfl⟩ h
  refine ⟨out, h, ?_, ?_⟩
  · rw [hb 0 (by norm_num) 0 (by norm_num)]; decide
  · rw [hb 511 (by norm_num) 511 (by norm_num)]; decide

end Sia
