import Verif.Props.GenerationProps

/-! C92: marking again and again with losses in between: the means of the blocks do not drift. -/
namespace Sia
open FloatOps LawfulFloat Finset

theorem blockValue_dist (n levels : Nat) (hdv : 2 ^ levels ∣ n) (a b : Mat UInt8) (i j : Nat) (hi : i < n) (hj : j < n) (w e : ℝ)
    (h : ∀ x < n, ∀ y < n, x / 2 ^ levels = i / 2 ^ levels → y / 2 ^ levels = j / 2 ^ levels →
      |((b.get x y).toNat : ℝ) - ((a.get x y).toNat + w)| ≤ e) :
    |blockValue levels b i j - (blockValue levels a i j + 2 ^ levels * w)| ≤ 2 ^ levels * e := by
  have hpos : 0 < 2 ^ levels := Nat.two_pow_pos _
  have h2L : (0 : ℝ) < 2 ^ levels := by positivity
  have hcell : ∀ i < n, ∀ a < 2 ^ levels, i / 2 ^ levels * 2 ^ levels + a < n ∧
      (i / 2 ^ levels * 2 ^ levels + a) / 2 ^ levels = i / 2 ^ levels := by
    intro i hi a ha
    constructor
    · obtain ⟨q, rfl⟩ := hdv
      have : i / 2 ^ levels < q := Nat.div_lt_of_lt_mul hi
      calc i / 2 ^ levels * 2 ^ levels + a < (i / 2 ^ levels + 1) * 2 ^ levels := by rw [Nat.add_mul]; omega
        _ ≤ q * 2 ^ levels := Nat.mul_le_mul_right _ this
        _ = _ := Nat.mul_comm _ _
    · rw [mul_comm, Nat.mul_add_div hpos, Nat.div_eq_of_lt ha, add_zero]
  have e1 : blockValue levels b i j - (blockValue levels a i j + 2 ^ levels * w) =
      (∑ a' ∈ range (2 ^ levels), ∑ b' ∈ range (2 ^ levels),
        (((b.get (i / 2 ^ levels * 2 ^ levels + a') (j / 2 ^ levels * 2 ^ levels + b')).toNat : ℝ) -
          ((a.get (i / 2 ^ levels * 2 ^ levels + a') (j / 2 ^ levels * 2 ^ levels + b')).toNat + w))) / 2 ^ levels := by
    unfold blockValue
    simp only [sum_sub_distrib, sum_add_distrib, sum_const, card_range, nsmul_eq_mul]
    push_cast
    field_simp
  rw [e1, abs_div, abs_of_pos h2L, div_le_iff₀ h2L]
  refine (abs_sum_le_sum_abs _ _).trans ?_
  have : ∀ a' ∈ range (2 ^ levels), |∑ b' ∈ range (2 ^ levels),
        (((b.get (i / 2 ^ levels * 2 ^ levels + a') (j / 2 ^ levels * 2 ^ levels + b')).toNat : ℝ) -
          ((a.get (i / 2 ^ levels * 2 ^ levels + a') (j / 2 ^ levels * 2 ^ levels + b')).toNat + w))| ≤ 2 ^ levels * e := by
    intro a' ha
    refine (abs_sum_le_sum_abs _ _).trans ((sum_le_card_nsmul _ _ e fun b' hb => ?_).trans ?_)
    · obtain ⟨c1, c2⟩ := hcell i hi a' (mem_range.mp ha)
      obtain ⟨d1, d2⟩ := hcell j hj b' (mem_range.mp hb)
      exact h _ c1 _ d1 c2 d2
    · rw [card_range, nsmul_eq_mul]
      push_cast
      exact le_rfl
  refine (sum_le_card_nsmul _ _ _ this).trans ?_
  rw [card_range, nsmul_eq_mul]
  push_cast
  linarith

/-- A value near `k0 ± 1/4` of the depth is in the cell `k0`. -/
theorem same_cell (d s e : ℝ) (hD : 0 < d) (hdepth : e < (1 / 4 - 2 * s) * d) (k0 k : ℤ) (bit : Bool) (v : ℝ)
    (hv : |v - d * (k0 + signedQuarter bit)| ≤ e + s * d) (hk : |(k : ℝ) - v / d| ≤ 1 / 2 + s) : k = k0 := by
  have e1 : |v / d - (k0 + signedQuarter bit)| < 1 / 4 - s := by
    have e2 : v / d - (k0 + signedQuarter bit) = (v - d * (k0 + signedQuarter bit)) / d := by
      field_simp
    rw [e2, abs_div, abs_of_pos hD, div_lt_iff₀ hD]
    linarith
  have e3 : |((k : ℝ) - k0)| < 1 := by
    have t : (k : ℝ) - k0 = ((k : ℝ) - v / d) + (v / d - (k0 + signedQuarter bit)) + signedQuarter bit := by ring
    rw [t]
    have t1 := abs_add_le (((k : ℝ) - v / d) + (v / d - (k0 + signedQuarter bit))) (signedQuarter bit)
    have t2 := abs_add_le ((k : ℝ) - v / d) (v / d - (k0 + signedQuarter bit))
    rw [abs_signedQuarter] at t1
    linarith
  have e4 : |k - k0| < 1 := by exact_mod_cast e3
  have := Int.abs_lt_one_iff.mp e4
  omega

variable {F : Type} [FloatOps F] [LawfulFloat F]

/-- The value of a block after a marking, ties or not. -/
theorem embed_block_mean (L : Ldpc) (n levels : Nat) (image out : Mat UInt8) (payload : List UInt8) (depth : F)
    (hn : 0 < n) (hsq : image.IsSquare n) (hd : GoodDepth depth) (hd1 : 1 ≤ val depth)
    (h : embed L image payload depth levels = .ok out)
    (i j : Nat) (hi : i < n) (hj : j < n)
    (ho : pixelCell n levels i j < 8 * encodedLength (domainBytes n levels) payload.length)
    (hroom : ∀ x < n, ∀ y < n, x / 2 ^ levels = i / 2 ^ levels → y / 2 ^ levels = j / 2 ^ levels →
      (3 / 4 + embedSlack F levels) * val depth / 2 ^ levels ≤ ((image.get x y).toNat : ℝ) ∧
      ((image.get x y).toNat : ℝ) ≤ 255 - (3 / 4 + embedSlack F levels) * val depth / 2 ^ levels) :
    ∃ (k : ℤ) (bit : Bool), |(k : ℝ) - blockValue levels image i j / val depth| ≤ 1 / 2 + embedSlack F levels ∧
      |blockValue levels out i j - val depth * (k + signedQuarter bit)| ≤ 2 ^ levels / 2 + embedSlack F levels * val depth := by
  obtain ⟨a1, a2, a3, a4, a5, a6, a7⟩ := embed_ok_only L image out payload depth levels (by rw [hsq.1]; exact hn)
    (by rw [hsq.2]; exact hn) h
  rw [hsq.1] at a3
  have hrec := (data_serialize_spec payload).1 a5
  have h2L : (0 : ℝ) < 2 ^ levels := by positivity
  obtain ⟨k1, k2⟩ := embed_block_round L n levels image out payload _ depth hn hsq hd hd1 h hrec i j hi hj ho _ rfl
  set k := roundAway (val (div (coeffs n levels image (i / 2 ^ levels) (j / 2 ^ levels)) depth)) with hk
  set bit := (bytesBits (encode L _ (domainBytes n levels))).getD (pixelCell n levels i j) false with hbit
  refine ⟨k, bit, k1, ?_⟩
  set S := blockValue levels image i j with hS
  set d := val depth with hdd
  set s := embedSlack F levels with hs
  set w := (d * (k + signedQuarter bit) - S) / 2 ^ levels with hw
  have hw2 : |w| ≤ (3 / 4 + s) * d / 2 ^ levels := by
    rw [hw, abs_div, abs_of_pos h2L]
    exact div_le_div_of_nonneg_right (way_bound S d s hd.pos k bit k1) h2L.le
  rw [abs_le] at hw2
  have key := blockValue_dist n levels a3 image out i j hi hj w (1 / 2 + s * d / 2 ^ levels) (by
    intro x hx y hy hxi hyj
    obtain ⟨v, v1, v2⟩ := k2 x hx y hy hxi hyj
    obtain ⟨r1, r2⟩ := hroom x hx y hy hxi hyj
    have e : ((out.get x y).toNat : ℝ) = ((clampZ 0 255 (roundAway v) : ℤ) : ℝ) := by exact_mod_cast v1
    rw [e]
    refine (clampZ_dist _ _ (by linarith [hw2.1]) (by linarith [hw2.2])).trans ?_
    have t := abs_sub_le ((roundAway v : ℤ) : ℝ) v (((image.get x y).toNat : ℝ) + w)
    linarith [roundAway_err v])
  have e1 : S + 2 ^ levels * w = d * (k + signedQuarter bit) := by
    rw [hw]; field_simp; ring
  have e2 : 2 ^ levels * (1 / 2 + s * d / 2 ^ levels) = 2 ^ levels / 2 + s * d := by
    field_simp
  rw [e1, e2] at key
  exact key

/-- C92: the value (sum over the side) of a marked block of a channel that is marked again and again, with a loss of at most `T` in that
value after each marking, stays as close to the original as after the first marking, for ever. -/
theorem mean_never_drifts (n levels a : Nat) (c before out : GrayImage) (depth : F) (T : ℝ) (hn : 0 < n) (hc : c.IsSquare n)
    (hd : GoodDepth depth) (hd1 : 1 ≤ val depth) (hdepth : 2 ^ levels / 2 + T < (1 / 4 - 2 * embedSlack F levels) * val depth)
    (i j : Nat) (hi : i < n) (hj : j < n)
    (ho : pixelCell n levels i j < 8 * encodedLength (domainBytes n levels) (recordBytes a))
    (Room : GrayImage → Prop) (hRoom : ∀ c, Room c → ∀ x < n, ∀ y < n, x / 2 ^ levels = i / 2 ^ levels → y / 2 ^ levels = j / 2 ^ levels →
      (3 / 4 + embedSlack F levels) * val depth / 2 ^ levels ≤ ((c.pixels.get x y).toNat : ℝ) ∧
      ((c.pixels.get x y).toNat : ℝ) ≤ 255 - (3 / 4 + embedSlack F levels) * val depth / 2 ^ levels)
    (h : Relation.ReflTransGen (fun x y => ∃ (D : Deps F) (step : F) (m : GrayImage), Room x ∧ watermarkChannel D x depth step a levels = .ok m ∧
      y.IsSquare n ∧ |blockValue levels y.pixels i j - blockValue levels m.pixels i j| ≤ T) c before)
    (D : Deps F) (step : F) (hlast : watermarkChannel D before depth step a levels = .ok out) (hroom : Room before) :
    |blockValue levels out.pixels i j - blockValue levels c.pixels i j| ≤ (3 / 4 + 2 * embedSlack F levels) * val depth + 2 ^ levels / 2 := by
  have hD := hd.pos
  have hs0 := embedSlack_nonneg (F := F) levels
  set s := embedSlack F levels with hs
  set d := val depth with hdd
  have mark : ∀ (x m : GrayImage) (D : Deps F) (step : F), x.IsSquare n → Room x → watermarkChannel D x depth step a levels = .ok m →
      ∃ (k : ℤ) (bit : Bool), |(k : ℝ) - blockValue levels x.pixels i j / d| ≤ 1 / 2 + s ∧
        |blockValue levels m.pixels i j - d * (k + signedQuarter bit)| ≤ 2 ^ levels / 2 + s * d := by
    intro x m D step hx hr he
    obtain ⟨_, _, _, _, _, fs, q, p', record, r, _, _, _, hl, hm, hraw⟩ := watermarkChannel_ok_only D x m depth step a levels he
    obtain ⟨hm1, hm2⟩ := embed_shape D.ldpc x.pixels r record depth levels hm
    have hrsq : r.IsSquare n := ⟨by rw [hm1]; exact hx.1, by rw [hm2]; exact hx.2.1⟩
    obtain ⟨r1, r2, r3⟩ := fromRaw_toList r n hrsq
    have hb : m = ⟨n, n, r.toList⟩ := by
      rw [hx.1, hx.2.1, r1] at hraw
      exact (Except.ok.inj hraw).symm
    obtain ⟨k, bit, k1, k2⟩ := embed_block_mean D.ldpc n levels x.pixels r record depth hn ⟨hx.1, hx.2.1⟩ hd hd1 hm i j hi hj
      (by rw [hl]; exact ho) (hRoom x hr)
    refine ⟨k, bit, k1, ?_⟩
    have hdv : 2 ^ levels ∣ n := by
      have := (embed_ok_only D.ldpc x.pixels r record depth levels (by show 0 < x.width; rw [hx.1]; exact hn)
        (by show 0 < x.height; rw [hx.2.1]; exact hn) hm).2.2.1
      have e : x.pixels.rows = n := hx.1
      rwa [e] at this
    have e := blockValue_shift n levels hdv r m.pixels i j hi hj 0 (fun x hx y hy _ _ => by rw [hb, r3 x hx y hy, add_zero])
    rw [Int.cast_zero, mul_zero, add_zero] at e
    rw [e]
    exact k2
  have hS : ∃ (k : ℤ), |(k : ℝ) - blockValue levels c.pixels i j / d| ≤ 1 / 2 + s ∧
      ∀ (k' : ℤ), |(k' : ℝ) - blockValue levels before.pixels i j / d| ≤ 1 / 2 + s →
        |(k' : ℝ) - blockValue levels c.pixels i j / d| ≤ 1 / 2 + s := by
    have hcore : before = c ∨ ∃ (k : ℤ) (bit : Bool), |(k : ℝ) - blockValue levels c.pixels i j / d| ≤ 1 / 2 + s ∧
        |blockValue levels before.pixels i j - d * (k + signedQuarter bit)| ≤ 2 ^ levels / 2 + s * d + T := by
      clear hlast hroom
      have hsq : ∀ z, Relation.ReflTransGen (fun x y => ∃ (D : Deps F) (step : F) (m : GrayImage), Room x ∧
          watermarkChannel D x depth step a levels = .ok m ∧
          y.IsSquare n ∧ |blockValue levels y.pixels i j - blockValue levels m.pixels i j| ≤ T) c z → z.IsSquare n := by
        intro z hz
        rcases Relation.ReflTransGen.cases_tail hz with rfl | ⟨_, _, _, _, _, _, _, h2, _⟩
        · exact hc
        · exact h2
      induction h with
      | refl => exact Or.inl rfl
      | tail hxy hstep ih =>
        rename_i x y
        obtain ⟨D, step, m, f1, f2, f3, f4⟩ := hstep
        right
        obtain ⟨k, bit, k1, k2⟩ := mark x m D step (hsq x hxy) f1 f2
        have hfin : |blockValue levels y.pixels i j - d * (k + signedQuarter bit)| ≤ 2 ^ levels / 2 + s * d + T := by
          have t := abs_sub_le (blockValue levels y.pixels i j) (blockValue levels m.pixels i j) (d * (k + signedQuarter bit))
          linarith
        refine ⟨k, bit, ?_, hfin⟩
        rcases ih with rfl | ⟨k0, bit0, g1, g2⟩
        · exact k1
        · obtain rfl := same_cell d s (2 ^ levels / 2 + T) hD hdepth k0 k bit0 _ (by linarith) k1
          exact g1
    rcases hcore with rfl | ⟨k0, bit0, g1, g2⟩
    · obtain ⟨k, _, k1, _⟩ := mark before out D step hc hroom hlast
      exact ⟨k, k1, fun _ h => h⟩
    · refine ⟨k0, g1, fun k' hk' => ?_⟩
      obtain rfl := same_cell d s (2 ^ levels / 2 + T) hD hdepth k0 k' bit0 _ (by linarith) hk'
      exact g1
  obtain ⟨_, _, hall⟩ := hS
  have hbsq : before.IsSquare n := by
    rcases Relation.ReflTransGen.cases_tail h with rfl | ⟨_, _, _, _, _, _, _, h2, _⟩
    · exact hc
    · exact h2
  obtain ⟨k, bit, k1, k2⟩ := mark before out D step hbsq hroom hlast
  have b1 := way_bound (blockValue levels c.pixels i j) d s hD k bit (hall k k1)
  have t := abs_sub_le (blockValue levels out.pixels i j) (d * (k + signedQuarter bit)) (blockValue levels c.pixels i j)
  linarith

end Sia
