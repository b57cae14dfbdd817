import Verif.Props.LocalityProps
import Mathlib.Logic.Relation

/-! C89: marking a picture again and again. -/
namespace Sia
open FloatOps LawfulFloat Finset

/-- A pixel moved by `d` and rounded is moved by the integer nearest to `d`, if the errors are zero or `d` is not close to the middle
between two integers. -/
theorem pixel_shift (v d e : ℝ) (p o : UInt8) (h : |v - ((p.toNat : ℝ) + d)| ≤ e) (ho : (o.toNat : ℤ) = clampZ 0 255 (roundAway v))
    (h0 : 0 ≤ (p.toNat : ℝ) + d) (h1 : (p.toNat : ℝ) + d ≤ 255) (he : e = 0 ∨ ∀ m : ℤ, e < |d - (m + 1 / 2)|) :
    (o.toNat : ℤ) = p.toNat + ⌊d + 1 / 2⌋ := by
  have f1 := Int.floor_le (d + 1 / 2)
  have f2 := Int.lt_floor_add_one (d + 1 / 2)
  set m := ⌊d + 1 / 2⌋ with hm
  have hr : roundAway v = (p.toNat : ℤ) + m := by
    rcases he with he | he
    · have hv : v = (p.toNat : ℝ) + d := by
        rw [he] at h
        have := abs_nonpos_iff.mp h
        linarith
      unfold roundAway
      rw [if_pos (by rw [hv]; exact h0), hv, Int.floor_eq_iff]
      push_cast
      constructor <;> linarith
    · have a := he m
      have b := he (m - 1)
      push_cast at b
      have e1 : d - (m + 1 / 2) < 0 := by linarith
      have e2 : 0 ≤ d - (m - 1 + 1 / 2) := by linarith
      rw [abs_of_neg e1] at a
      rw [abs_of_nonneg e2] at b
      refine roundAway_eq _ _ ?_
      push_cast
      rw [abs_le] at h
      rw [abs_lt]
      constructor <;> linarith [h.1, h.2]
  have r0 : 0 ≤ (p.toNat : ℤ) + m := by
    have : (-1 : ℝ) < (((p.toNat : ℤ) + m : ℤ) : ℝ) := by push_cast; linarith
    have : (-1 : ℤ) < (p.toNat : ℤ) + m := by exact_mod_cast this
    omega
  have r1 : (p.toNat : ℤ) + m ≤ 255 := by
    have : (((p.toNat : ℤ) + m : ℤ) : ℝ) < 256 := by push_cast; linarith
    have : (p.toNat : ℤ) + m < 256 := by exact_mod_cast this
    omega
  rw [ho, hr]
  unfold clampZ
  rw [if_neg (by omega), if_neg (by omega)]

/-- The block of a pixel moved by `m` levels. -/
theorem blockValue_shift (n levels : Nat) (hdv : 2 ^ levels ∣ n) (a b : Mat UInt8) (i j : Nat) (hi : i < n) (hj : j < n) (m : ℤ)
    (h : ∀ x < n, ∀ y < n, x / 2 ^ levels = i / 2 ^ levels → y / 2 ^ levels = j / 2 ^ levels →
      ((b.get x y).toNat : ℤ) = (a.get x y).toNat + m) :
    blockValue levels b i j = blockValue levels a i j + 2 ^ levels * m := by
  have hpos : 0 < 2 ^ levels := Nat.two_pow_pos _
  have hcell : ∀ i < n, ∀ a < 2 ^ levels, i / 2 ^ levels * 2 ^ levels + a < n ∧
      (i / 2 ^ levels * 2 ^ levels + a) / 2 ^ levels = i / 2 ^ levels := by
    intro i hi a ha
    constructor
    · obtain ⟨q, rfl⟩ := hdv
      have : i / 2 ^ levels < q := Nat.div_lt_of_lt_mul hi
      calc i / 2 ^ levels * 2 ^ levels + a < (i / 2 ^ levels + 1) * 2 ^ levels := by rw [Nat.add_mul]; omega
        _ ≤ q * 2 ^ levels := Nat.mul_le_mul_right _ this
        _ = _ := Nat.mul_comm _ _
    · rw [mul_comm, Nat.mul_add_div hpos, Nat.div_eq_of_lt ha, add_zero]
  unfold blockValue
  have e : (∑ a' ∈ range (2 ^ levels), ∑ b' ∈ range (2 ^ levels),
      ((b.get (i / 2 ^ levels * 2 ^ levels + a') (j / 2 ^ levels * 2 ^ levels + b')).toNat : ℝ)) =
      (∑ a' ∈ range (2 ^ levels), ∑ b' ∈ range (2 ^ levels),
      ((a.get (i / 2 ^ levels * 2 ^ levels + a') (j / 2 ^ levels * 2 ^ levels + b')).toNat : ℝ)) + 2 ^ levels * (2 ^ levels * m) := by
    have : ∀ a' ∈ range (2 ^ levels), ∀ b' ∈ range (2 ^ levels),
        ((b.get (i / 2 ^ levels * 2 ^ levels + a') (j / 2 ^ levels * 2 ^ levels + b')).toNat : ℝ) =
        ((a.get (i / 2 ^ levels * 2 ^ levels + a') (j / 2 ^ levels * 2 ^ levels + b')).toNat : ℝ) + m := by
      intro a' ha b' hb
      obtain ⟨c1, c2⟩ := hcell i hi a' (mem_range.mp ha)
      obtain ⟨d1, d2⟩ := hcell j hj b' (mem_range.mp hb)
      exact_mod_cast h _ c1 _ d1 c2 d2
    rw [sum_congr rfl fun a' ha => sum_congr rfl (this a' ha)]
    simp only [sum_add_distrib, sum_const, card_range, nsmul_eq_mul]
    push_cast
    ring
  rw [e, add_div]
  congr 1
  have : (2 : ℝ) ^ levels ≠ 0 := by positivity
  field_simp

variable {F : Type} [FloatOps F] [LawfulFloat F]

/-- One marking, seen by one block: it is left alone, or moved as a whole by the integer nearest to the way to its new value. -/
theorem embed_block_shift (L : Ldpc) (n levels : Nat) (image out : Mat UInt8) (payload : List UInt8) (depth : F)
    (hn : 0 < n) (hsq : image.IsSquare n) (hd : GoodDepth depth) (hd1 : 1 ≤ val depth)
    (hs : embedSlack F levels * val depth < 2 ^ levels / 2)
    (h : embed L image payload depth levels = .ok out) (i j : Nat) (hi : i < n) (hj : j < n) :
    out.IsSquare n ∧ 2 ^ levels ∣ n ∧
    ((∀ x < n, ∀ y < n, x / 2 ^ levels = i / 2 ^ levels → y / 2 ^ levels = j / 2 ^ levels → out.get x y = image.get x y) ∨
    ∃ (k : ℤ) (bit : Bool), |(k : ℝ) - blockValue levels image i j / val depth| ≤ 1 / 2 + embedSlack F levels ∧
      ∀ d : ℝ, d = (val depth * (k + signedQuarter bit) - blockValue levels image i j) / 2 ^ levels →
      (∀ x < n, ∀ y < n, x / 2 ^ levels = i / 2 ^ levels → y / 2 ^ levels = j / 2 ^ levels →
        0 ≤ ((image.get x y).toNat : ℝ) + d ∧ ((image.get x y).toNat : ℝ) + d ≤ 255) →
      (u F = 0 ∨ ∀ m : ℤ, embedSlack F levels * val depth / 2 ^ levels < |d - (m + 1 / 2)|) →
      ∀ x < n, ∀ y < n, x / 2 ^ levels = i / 2 ^ levels → y / 2 ^ levels = j / 2 ^ levels →
        ((out.get x y).toNat : ℤ) = (image.get x y).toNat + ⌊d + 1 / 2⌋) := by
  obtain ⟨a1, a2, a3, a4, a5, a6, a7⟩ := embed_ok_only L image out payload depth levels (by rw [hsq.1]; exact hn)
    (by rw [hsq.2]; exact hn) h
  rw [hsq.1] at a3
  obtain ⟨s1, s2⟩ := embed_shape L image out payload depth levels h
  refine ⟨⟨s1.trans hsq.1, s2.trans hsq.2⟩, a3, ?_⟩
  have hcell : ∀ x y, x / 2 ^ levels = i / 2 ^ levels → y / 2 ^ levels = j / 2 ^ levels → pixelCell n levels x y = pixelCell n levels i j := by
    intro x y h1 h2
    unfold pixelCell
    rw [h1, h2]
  by_cases ho : pixelCell n levels i j < 8 * encodedLength (domainBytes n levels) payload.length
  · right
    obtain ⟨k, k1, k2⟩ := embed_block_raw L n levels image out payload _ depth hn hsq hd hd1 h ((data_serialize_spec payload).1 a5) i j hi hj ho
    generalize (bytesBits (encode L _ (domainBytes n levels))).getD (pixelCell n levels i j) false = bit at k2
    refine ⟨k, bit, k1, fun d hdd hroom htie x hx y hy hxi hyj => ?_⟩
    obtain ⟨v, v1, v2⟩ := k2 x hx y hy hxi hyj
    obtain ⟨r1, r2⟩ := hroom x hx y hy hxi hyj
    refine pixel_shift v d _ _ _ (by rw [hdd]; exact v2) v1 r1 r2 (htie.imp_left fun h0 => ?_)
    unfold embedSlack
    rw [h0]
    ring
  · left
    intro x hx y hy hxi hyj
    refine embed_outside L n levels image out payload depth hn hsq hd hd1 hs h x y hx hy ?_
    rw [hcell x y hxi hyj]
    omega

/-- `remarking_block` below, for pictures that are copied after each marking. -/
theorem remarking_core (n levels : Nat) (image out : Mat UInt8) (depth : F) (hn : 0 < n) (hsq : image.IsSquare n)
    (hd : GoodDepth depth) (hd1 : 1 ≤ val depth) (hs : embedSlack F levels * val depth < 2 ^ levels / 2)
    (hdepth : 2 ^ levels / 2 < (1 / 4 - embedSlack F levels) * val depth)
    (i j : Nat) (hi : i < n) (hj : j < n)
    (hroom : ∀ x < n, ∀ y < n, x / 2 ^ levels = i / 2 ^ levels → y / 2 ^ levels = j / 2 ^ levels →
      (3 / 4 + embedSlack F levels) * val depth / 2 ^ levels ≤ ((image.get x y).toNat : ℝ) ∧
      ((image.get x y).toNat : ℝ) ≤ 255 - (3 / 4 + embedSlack F levels) * val depth / 2 ^ levels)
    (htie : u F = 0 ∨ ∀ (k m : ℤ) (bit : Bool), |(k : ℝ) - blockValue levels image i j / val depth| ≤ 1 / 2 + embedSlack F levels →
      embedSlack F levels * val depth / 2 ^ levels <
        |(val depth * (k + signedQuarter bit) - blockValue levels image i j) / 2 ^ levels - (m + 1 / 2)|)
    (h : Relation.ReflTransGen (fun a b => ∃ (L : Ldpc) (payload : List UInt8) (r : Mat UInt8), embed L a payload depth levels = .ok r ∧
      b.rows = r.rows ∧ b.cols = r.cols ∧ ∀ x < r.rows, ∀ y < r.cols, b.get x y = r.get x y) image out) :
    ∃ m : ℤ, |(m : ℝ)| ≤ (3 / 4 + embedSlack F levels) * val depth / 2 ^ levels + 1 / 2 ∧
      ∀ x < n, ∀ y < n, x / 2 ^ levels = i / 2 ^ levels → y / 2 ^ levels = j / 2 ^ levels →
        ((out.get x y).toNat : ℤ) = (image.get x y).toNat + m := by
  have hD := hd.pos
  have h2L : (0 : ℝ) < 2 ^ levels := by positivity
  have hs0 := embedSlack_nonneg (F := F) levels
  set S := blockValue levels image i j with hS
  set s := embedSlack F levels with hsdef
  set d := val depth with hdd
  have hq : ∀ bit, |signedQuarter bit| = 1 / 4 := by
    intro bit
    unfold signedQuarter
    cases bit
    · rw [if_neg (by decide), abs_of_neg (by norm_num)]; norm_num
    · rw [if_pos rfl, abs_of_pos (by norm_num)]
  -- the way to a value near the original block
  have hway : ∀ (k : ℤ) (bit : Bool), |(k : ℝ) - S / d| ≤ 1 / 2 + s → |d * (k + signedQuarter bit) - S| ≤ (3 / 4 + s) * d := by
    intro k bit hk
    have e : d * (k + signedQuarter bit) - S = d * (((k : ℝ) - S / d) + signedQuarter bit) := by
      field_simp
      ring
    rw [e, abs_mul, abs_of_pos hD]
    have := abs_add_le ((k : ℝ) - S / d) (signedQuarter bit)
    rw [hq] at this
    nlinarith
  have key : out.IsSquare n ∧ ∃ m : ℤ, (m = 0 ∨ ∃ (k : ℤ) (bit : Bool), |(k : ℝ) - S / d| ≤ 1 / 2 + s ∧
        |d * (k + signedQuarter bit) - S - 2 ^ levels * m| ≤ 2 ^ levels / 2) ∧
      ∀ x < n, ∀ y < n, x / 2 ^ levels = i / 2 ^ levels → y / 2 ^ levels = j / 2 ^ levels →
        ((out.get x y).toNat : ℤ) = (image.get x y).toNat + m := by
    induction h with
    | refl => exact ⟨hsq, 0, Or.inl rfl, fun _ _ _ _ _ _ => by omega⟩
    | tail _ hstep ih =>
      rename_i b c _
      obtain ⟨hbsq, m, hm, hb⟩ := ih
      obtain ⟨L, payload, r, he, hrr, hrc, hcopy⟩ := hstep
      obtain ⟨hrsq, hdv, hcase⟩ := embed_block_shift L n levels b r payload depth hn hbsq hd hd1 hs he i j hi hj
      rw [hrsq.1, hrsq.2] at hcopy
      refine ⟨⟨hrr.trans hrsq.1, hrc.trans hrsq.2⟩, ?_⟩
      have hSb : blockValue levels b i j = S + 2 ^ levels * m := blockValue_shift n levels hdv image b i j hi hj m hb
      rcases hcase with hsame | ⟨k, bit, hk, hshift⟩
      · exact ⟨m, hm, fun x hx y hy h1 h2 => by rw [hcopy x hx y hy, hsame x hx y hy h1 h2]; exact hb x hx y hy h1 h2⟩
      · rw [hSb] at hk hshift
        -- the value is the one chosen first
        have hk0 : |(k : ℝ) - S / d| ≤ 1 / 2 + s := by
          rcases hm with rfl | ⟨k', bit', hk', hm'⟩
          · simpa using hk
          · have e1 : |(k' : ℝ) + signedQuarter bit' - (S + 2 ^ levels * m) / d| < 1 / 4 - s := by
              have e : (k' : ℝ) + signedQuarter bit' - (S + 2 ^ levels * m) / d = (d * (k' + signedQuarter bit') - S - 2 ^ levels * m) / d := by
                field_simp
                ring
              rw [e, abs_div, abs_of_pos hD, div_lt_iff₀ hD]
              exact lt_of_le_of_lt hm' hdepth
            have e2 : |((k : ℝ) - k')| < 1 := by
              have t : (k : ℝ) - k' = ((k : ℝ) - (S + 2 ^ levels * m) / d) - ((k' : ℝ) + signedQuarter bit' - (S + 2 ^ levels * m) / d) +
                signedQuarter bit' := by ring
              rw [t]
              have t1 := abs_add_le (((k : ℝ) - (S + 2 ^ levels * m) / d) - ((k' : ℝ) + signedQuarter bit' - (S + 2 ^ levels * m) / d))
                (signedQuarter bit')
              have t2 := abs_sub ((k : ℝ) - (S + 2 ^ levels * m) / d) ((k' : ℝ) + signedQuarter bit' - (S + 2 ^ levels * m) / d)
              rw [hq] at t1
              linarith
            have e3 : |k - k'| < 1 := by exact_mod_cast e2
            have e4 := Int.abs_lt_one_iff.mp e3
            obtain rfl : k = k' := by omega
            exact hk'
        have hw := hway k bit hk0
        set w := (d * (k + signedQuarter bit) - (S + 2 ^ levels * m)) / 2 ^ levels with hwdef
        have hwm : w + m = (d * (k + signedQuarter bit) - S) / 2 ^ levels := by
          rw [hwdef]
          field_simp
          ring
        have hsh := hshift w rfl
          (by
            intro x hx y hy h1 h2
            obtain ⟨r1, r2⟩ := hroom x hx y hy h1 h2
            have hbx : ((b.get x y).toNat : ℝ) = (image.get x y).toNat + m := by exact_mod_cast hb x hx y hy h1 h2
            have hw2 : |w + m| ≤ (3 / 4 + s) * d / 2 ^ levels := by
              rw [hwm, abs_div, abs_of_pos h2L]
              exact div_le_div_of_nonneg_right hw h2L.le
            rw [abs_le] at hw2
            rw [hbx]
            constructor <;> linarith [hw2.1, hw2.2])
          (htie.imp_right fun ht m' => by
            have := ht k (m' + m) bit hk0
            rw [← hwm] at this
            push_cast at this
            have e : w + m - ((m' : ℝ) + m + 1 / 2) = w - (m' + 1 / 2) := by ring
            rwa [e] at this)
        refine ⟨m + ⌊w + 1 / 2⌋, Or.inr ⟨k, bit, hk0, ?_⟩, fun x hx y hy h1 h2 => by
          rw [hcopy x hx y hy, hsh x hx y hy h1 h2, hb x hx y hy h1 h2]; ring⟩
        have f1 := Int.floor_le (w + 1 / 2)
        have f2 := Int.lt_floor_add_one (w + 1 / 2)
        push_cast
        have e : d * (k + signedQuarter bit) - S - 2 ^ levels * ((m : ℝ) + ⌊w + 1 / 2⌋) = 2 ^ levels * (w - ⌊w + 1 / 2⌋) := by
          have : d * (k + signedQuarter bit) - S = 2 ^ levels * (w + m) := by
            rw [hwm]; field_simp
          rw [this]; ring
        rw [e, abs_mul, abs_of_pos h2L]
        have : |w - ⌊w + 1 / 2⌋| ≤ 1 / 2 := by rw [abs_le]; constructor <;> linarith
        nlinarith
  obtain ⟨_, m, hm, hout⟩ := key
  refine ⟨m, ?_, hout⟩
  have hR : 0 ≤ (3 / 4 + s) * d / 2 ^ levels := div_nonneg (mul_nonneg (by linarith) hD.le) h2L.le
  rcases hm with rfl | ⟨k, bit, hk, hm⟩
  · rw [Int.cast_zero, abs_zero]; linarith
  · have hw := hway k bit hk
    have e : (m : ℝ) = ((d * (k + signedQuarter bit) - S) - (d * (k + signedQuarter bit) - S - 2 ^ levels * m)) / 2 ^ levels := by
      field_simp
      ring
    rw [e, abs_div, abs_of_pos h2L]
    have t := abs_sub (d * (k + signedQuarter bit) - S) (d * (k + signedQuarter bit) - S - 2 ^ levels * m)
    have : |(d * (k + signedQuarter bit) - S) - (d * (k + signedQuarter bit) - S - 2 ^ levels * m)| ≤ (3 / 4 + s) * d + 2 ^ levels / 2 := by
      linarith
    refine le_trans (div_le_div_of_nonneg_right this h2L.le) (le_of_eq ?_)
    field_simp

/-- C89: a picture that is marked again and again, with whatever codes and payloads but the same depth and levels, never moves further
than by one marking: each block is moved as a whole, by at most three quarters of the depth (divided by the block's side) and a half.
Hypotheses: the pixels of the block keep that distance from black and white, a quarter of the depth exceeds half the side of a
block, and (unless arithmetic is exact) the way from the block's original value to none of its two possible values is
halfway between two integers. -/
theorem remarking_block (n levels : Nat) (image out : Mat UInt8) (depth : F) (hn : 0 < n) (hsq : image.IsSquare n)
    (hd : GoodDepth depth) (hd1 : 1 ≤ val depth) (hs : embedSlack F levels * val depth < 2 ^ levels / 2)
    (hdepth : 2 ^ levels / 2 < (1 / 4 - embedSlack F levels) * val depth)
    (i j : Nat) (hi : i < n) (hj : j < n)
    (hroom : ∀ x < n, ∀ y < n, x / 2 ^ levels = i / 2 ^ levels → y / 2 ^ levels = j / 2 ^ levels →
      (3 / 4 + embedSlack F levels) * val depth / 2 ^ levels ≤ ((image.get x y).toNat : ℝ) ∧
      ((image.get x y).toNat : ℝ) ≤ 255 - (3 / 4 + embedSlack F levels) * val depth / 2 ^ levels)
    (htie : u F = 0 ∨ ∀ (k m : ℤ) (bit : Bool), |(k : ℝ) - blockValue levels image i j / val depth| ≤ 1 / 2 + embedSlack F levels →
      embedSlack F levels * val depth / 2 ^ levels <
        |(val depth * (k + signedQuarter bit) - blockValue levels image i j) / 2 ^ levels - (m + 1 / 2)|)
    (h : Relation.ReflTransGen (fun a b => ∃ (L : Ldpc) (payload : List UInt8), embed L a payload depth levels = .ok b) image out) :
    ∃ m : ℤ, |(m : ℝ)| ≤ (3 / 4 + embedSlack F levels) * val depth / 2 ^ levels + 1 / 2 ∧
      ∀ x < n, ∀ y < n, x / 2 ^ levels = i / 2 ^ levels → y / 2 ^ levels = j / 2 ^ levels →
        ((out.get x y).toNat : ℤ) = (image.get x y).toNat + m := by
  refine remarking_core n levels image out depth hn hsq hd hd1 hs hdepth i j hi hj hroom htie
    (Relation.ReflTransGen.mono (fun a b hab => ?_) image out h)
  obtain ⟨L, payload, he⟩ := hab
  exact ⟨L, payload, b, he, rfl, rfl, fun _ _ _ _ => rfl⟩

end Sia
