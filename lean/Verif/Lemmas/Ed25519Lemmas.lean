import Verif.Lemmas.Ed25519Curve

/-! Encoding of points and signatures of Ed25519 (C80, C81). -/
namespace Sia.Rfc8032
open Sia.Edwards

theorem p_odd : p % 2 = 1 := by rw [p_eq]; norm_num

theorem val_lt (z : Fp) : z.val < 2 ^ 255 := by
  have h := ZMod.val_lt z
  have h2 := p_eq
  omega

theorem encodePoint_lt (P : Fp × Fp) : P.2.val + 2 ^ 255 * (P.1.val % 2) < 256 ^ 32 := by
  have h := val_lt P.2
  have h2 := Nat.mod_lt P.1.val (show 2 > 0 by norm_num)
  norm_num at *
  omega

theorem leNat_encodePoint (P : Fp × Fp) : leNat (encodePoint P) = P.2.val + 2 ^ 255 * (P.1.val % 2) :=
  leNat_leBytes _ _ (encodePoint_lt P)

theorem encodePoint_length (P : Fp × Fp) : (encodePoint P).length = 32 := leBytes_length _ _

/-- Two points of the curve with the same `y` have opposite or equal `x`. -/
theorem x_of_y {x x' y : Fp} (h : On d x y) (h' : On d x' y) : x' = x ∨ x' = -x := by
  have hne : 1 + d * y ^ 2 ≠ 0 := by
    intro h0
    obtain ⟨i, hi⟩ := complete.sqrt
    by_cases hy : y = 0
    · rw [hy] at h0; norm_num at h0
    · apply complete.nonsquare (i / y)
      rw [div_pow, hi, div_eq_iff (pow_ne_zero _ hy)]
      linear_combination -h0
  have hsq : x' ^ 2 = x ^ 2 := by
    apply mul_right_cancel₀ hne
    unfold On at h h'
    linear_combination h - h'
  exact sq_eq_sq_iff_eq_or_eq_neg.mp hsq

/-- A nonzero element and its opposite have different parities. -/
theorem parity_neg {x : Fp} (hx : x ≠ 0) : (-x).val % 2 ≠ x.val % 2 := by
  rw [ZMod.neg_val, if_neg hx]
  have h := ZMod.val_lt x
  have := p_odd
  omega

theorem encodePoint_inj {P Q : Fp × Fp} (hP : OnCurve P) (hQ : OnCurve Q) (h : encodePoint P = encodePoint Q) : P = Q := by
  have h1 := congrArg leNat h
  rw [leNat_encodePoint, leNat_encodePoint] at h1
  have a1 := val_lt P.2
  have a2 := val_lt Q.2
  have hy : P.2 = Q.2 := by
    apply ZMod.val_injective
    omega
  have hx : P.1.val % 2 = Q.1.val % 2 := by omega
  refine Prod.ext ?_ hy
  unfold OnCurve at hP hQ
  rw [← hy] at hQ
  rcases x_of_y hP hQ with e | e
  · exact e.symm
  · by_cases h0 : P.1 = 0
    · rw [e, h0, neg_zero]
    · exfalso
      rw [e] at hx
      exact parity_neg h0 hx.symm

theorem decodePoint_encodePoint {P : Fp × Fp} (hP : OnCurve P) : decodePoint (encodePoint P) = some P := by
  have hlt := val_lt P.2
  have hy : ((leNat (encodePoint P) % 2 ^ 255 : Nat) : Fp) = P.2 := by
    rw [leNat_encodePoint, Nat.add_mul_mod_self_left, Nat.mod_eq_of_lt hlt, ZMod.natCast_zmod_val]
  have hs : leNat (encodePoint P) / 2 ^ 255 = P.1.val % 2 := by rw [leNat_encodePoint]; omega
  unfold decodePoint
  dsimp only
  rw [hy, hs]
  have hex : ∃ x : Fp, OnCurve (x, P.2) ∧ (x = 0 ∨ x.val % 2 = P.1.val % 2) := ⟨P.1, hP, Or.inr rfl⟩
  rw [dif_pos hex]
  obtain ⟨h1, h2⟩ := Classical.choose_spec hex
  generalize Classical.choose hex = x at h1 h2
  have : x = P.1 := by
    rcases x_of_y (x := P.1) (x' := x) hP h1 with e | e
    · exact e
    · by_cases h0 : P.1 = 0
      · rw [e, h0, neg_zero]
      · exfalso
        rcases h2 with h2 | h2
        · rw [h2] at e
          exact h0 (by rw [← neg_eq_zero]; exact e.symm)
        · rw [e] at h2
          exact parity_neg h0 h2
  rw [this]

/-- A decoded point is on the curve. -/
theorem decodePoint_on {bs : List UInt8} {A : Fp × Fp} (h : decodePoint bs = some A) : ∃ P : Pt, P.coords = A := by
  unfold decodePoint at h
  dsimp only at h
  split_ifs at h with hex
  injection h with h
  exact ⟨⟨A.1, A.2, by rw [← h]; exact (Classical.choose_spec hex).1⟩, rfl⟩

theorem coords_inj {P Q : Pt} (h : P.coords = Q.coords) : P = Q := Point.ext (congrArg Prod.fst h) (congrArg Prod.snd h)

theorem some_coords_inj {P Q : Pt} (h : some P.coords = some Q.coords) : P = Q := coords_inj (Option.some.inj h)

theorem publicOf_eq (secret : List UInt8) : publicOf secret = encodePoint (scalar secret • B).coords := by
  unfold publicOf
  rw [← B_coords, mul_coords]

theorem publicOf_length (secret : List UInt8) : (publicOf secret).length = 32 := encodePoint_length _

theorem decode_publicOf (secret : List UInt8) : decodePoint (publicOf secret) = some (scalar secret • B).coords := by
  rw [publicOf_eq, decodePoint_encodePoint (Pt.onCurve _)]

theorem order_eq : order = 2 ^ 252 + 27742317777372353535851937790883648493 := by unfold order; rfl

instance : Fact (Nat.Prime order) := ⟨by rw [order_eq]; exact prime_l⟩

theorem order_pos : 0 < order := by rw [order_eq]; norm_num

theorem mod_order_smul (n : Nat) : (n % order) • B = n • B := by
  conv_rhs => rw [← Nat.div_add_mod n order, add_nsmul, mul_comm, mul_nsmul', order_smul_base, smul_zero, zero_add]

theorem B_ne_zero : B ≠ 0 := by
  intro h
  have hx := congrArg Point.x h
  rw [zero_x] at hx
  have := natCast_ne_zero (n := 15112221349535400772501151409588531511454012693041857206046113283949847762202) (by decide +kernel)
  apply this
  rw [← hx]
  simp [B, base]

/-- The base point has order exactly `order`. -/
theorem order_of_base : addOrderOf B = order :=
  addOrderOf_eq_prime order_smul_base B_ne_zero

theorem smul_base_inj {m n : Nat} (h : m • B = n • B) : m % order = n % order := by
  have h := nsmul_eq_nsmul_iff_modEq.mp h
  rwa [order_of_base] at h

theorem accepts_iff (P : Pt) (k s : Nat) (R : List UInt8) :
    accepts P.coords k s R = true ↔ s < order ∧ encodePoint (s • B - k • P).coords = R := by
  unfold accepts
  rw [← B_coords, neg_coords, mul_coords, mul_coords, add_coords, Bool.and_eq_true, decide_eq_true_eq, beq_iff_eq, smul_neg,
    ← sub_eq_add_neg]

/-- What `verify` checks, in the group. -/
theorem verify_iff (public_ message signature : List UInt8) :
    verify public_ message signature = true ↔ ∃ P : Pt, decodePoint public_ = some P.coords ∧ leNat (signature.drop 32) < order ∧
      encodePoint (leNat (signature.drop 32) • B - hashScalar (signature.take 32 ++ public_ ++ message) • P).coords =
        signature.take 32 := by
  unfold verify
  cases hd : decodePoint public_ with
  | none => rw [Option.any_none]; simp only [Bool.false_eq_true, reduceCtorEq, false_and, exists_false]
  | some A =>
    obtain ⟨P, rfl⟩ := decodePoint_on hd
    rw [Option.any_some, accepts_iff]
    constructor
    · rintro ⟨h1, h2⟩
      exact ⟨P, rfl, h1, h2⟩
    · rintro ⟨P', e, h1, h2⟩
      have : P = P' := some_coords_inj e
      subst this
      exact ⟨h1, h2⟩

/-- Thanks to the clamping, the secret scalar is not a multiple of the order. -/
theorem clamp_mod_order (n : Nat) : clamp n % order ≠ 0 := by
  have hle : n % 8 ≤ n % 2 ^ 254 := by
    have : n % 2 ^ 254 % 8 = n % 8 := Nat.mod_mod_of_dvd n (by norm_num)
    rw [← this]; exact Nat.mod_le _ _
  have hlt : n % 2 ^ 254 < 2 ^ 254 := Nat.mod_lt _ (by norm_num)
  have h8 : 8 ∣ clamp n := by
    unfold clamp
    refine Dvd.dvd.add ?_ (by norm_num)
    have : n % 2 ^ 254 % 8 = n % 8 := Nat.mod_mod_of_dvd n (by norm_num)
    rw [← this]; exact Nat.dvd_sub_mod _
  have hpos : 0 < clamp n := by unfold clamp; exact Nat.add_pos_right _ (by norm_num)
  have hup : clamp n < 8 * order := by
    have h1 : clamp n < 2 ^ 254 + 2 ^ 254 := by
      unfold clamp
      exact Nat.add_lt_add_right (lt_of_le_of_lt (Nat.sub_le _ _) hlt) _
    refine h1.trans_le ?_
    rw [order_eq]; norm_num
  intro h
  have hcop : Nat.Coprime 8 order := by rw [order_eq]; norm_num
  exact absurd (Nat.le_of_dvd hpos (hcop.mul_dvd_of_dvd_of_dvd h8 (Nat.dvd_of_mod_eq_zero h))) (not_le.mpr hup)

theorem public_point_ne_zero (secret : List UInt8) : scalar secret • B ≠ 0 := by
  intro h
  have := smul_base_inj (m := scalar secret) (n := 0) (by rw [h, zero_smul])
  exact clamp_mod_order _ (by simpa [scalar] using this)

theorem public_point_order (secret : List UInt8) : addOrderOf (scalar secret • B) = order := by
  refine addOrderOf_eq_prime ?_ (public_point_ne_zero secret)
  show order • _ = _
  rw [← mul_nsmul', mul_comm, mul_nsmul', order_smul_base, smul_zero]

end Sia.Rfc8032
