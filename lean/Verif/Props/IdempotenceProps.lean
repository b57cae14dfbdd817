import Verif.Props.BlankProps

/-! C62: embedding the same payload twice changes nothing the second time. -/
namespace Sia
open FloatOps LawfulFloat Finset

/-- Writing a bit into a coefficient that is within a quarter of the depth of an already written one restores it. -/
theorem writeCell_again (d c e : ℝ) (b : Bool) (hd : 0 < d) (he : |e| < d / 4) :
    writeCell d b (writeCell d b c + e) = writeCell d b c := by
  rw [writeCell_real, writeCell_real]
  have h : roundAway ((d * ((roundAway (c / d) : ℝ) + quarter b) + e) / d) = roundAway (c / d) := by
    apply roundAway_eq
    have e1 : (d * ((roundAway (c / d) : ℝ) + quarter b) + e) / d - (roundAway (c / d) : ℝ) = quarter b + e / d := by
      field_simp; ring
    rw [e1]
    have e2 : |e / d| < 1 / 4 := by
      rw [abs_div, abs_of_pos hd, div_lt_iff₀ hd]; linarith
    have e3 : |quarter b| ≤ 1 / 4 := by unfold quarter; split_ifs <;> norm_num [abs_le]
    exact lt_of_le_of_lt (abs_add_le _ _) (by linarith)
  rw [h]

/-- The pixel stored for a value between 0 and 255: the nearest integer, halves upward. -/
theorem floatToPixel_real (x : ℝ) (h0 : 0 ≤ x) (h1 : x ≤ 255) :
    x - 1 / 2 < ((floatToPixel x).toNat : ℝ) ∧ ((floatToPixel x).toNat : ℝ) ≤ x + 1 / 2 := by
  have hv := floatToPixel_val x trivial
  have hx : val x = x := rfl
  rw [hx] at hv
  unfold roundAway at hv
  rw [if_pos h0] at hv
  have f1 := Int.floor_le (x + 1 / 2)
  have f2 := Int.lt_floor_add_one (x + 1 / 2)
  have g0 : 0 ≤ ⌊x + 1 / 2⌋ := Int.floor_nonneg.2 (by linarith)
  have g1 : ⌊x + 1 / 2⌋ ≤ 255 := by
    have : ⌊x + 1 / 2⌋ < 256 := by rw [Int.floor_lt]; push_cast; linarith
    omega
  have hc : clampZ 0 255 ⌊x + 1 / 2⌋ = ⌊x + 1 / 2⌋ := by
    unfold clampZ; rw [if_neg (by omega), if_neg (by omega)]
  rw [hc] at hv
  have hv' : ((floatToPixel x).toNat : ℝ) = (⌊x + 1 / 2⌋ : ℝ) := by exact_mod_cast hv
  rw [hv']
  constructor <;> linarith

/-- A pixel value moved by less than a half up or at most a half down is rounded (or clamped) back to itself. -/
theorem floatToPixel_back (y : UInt8) (x : ℝ) (h1 : (y.toNat : ℝ) - 1 / 2 ≤ x) (h2 : x < (y.toNat : ℝ) + 1 / 2) :
    floatToPixel x = y := by
  have hv := floatToPixel_val x trivial
  have hx : val x = x := rfl
  have hy := y.toNat_lt
  rw [hx] at hv
  unfold roundAway at hv
  apply UInt8.toNat_inj.mp
  split_ifs at hv with h0
  · have hf : ⌊x + 1 / 2⌋ = (y.toNat : ℤ) := by
      rw [Int.floor_eq_iff]; push_cast; constructor <;> linarith
    rw [hf] at hv
    unfold clampZ at hv
    rw [if_neg (by omega), if_neg (by omega)] at hv
    exact_mod_cast hv
  · push Not at h0
    have hy0 : y.toNat = 0 := by
      by_contra hne
      have : (1 : ℝ) ≤ (y.toNat : ℝ) := by exact_mod_cast Nat.one_le_iff_ne_zero.2 hne
      linarith
    have hc : ⌈x - 1 / 2⌉ ≤ 0 := by rw [Int.ceil_le]; push_cast; linarith
    unfold clampZ at hv
    split_ifs at hv <;> omega

/-- Bounds of a block average. -/
theorem blockMean_bounds (s : Nat) (hs : 0 < s) (f : Nat → Nat → ℝ) (p q : Nat) (lo hi : ℝ)
    (h : ∀ a < s, ∀ b < s, lo ≤ f (p * s + a) (q * s + b) ∧ f (p * s + a) (q * s + b) < hi) :
    lo * (s * s) ≤ blockSum s f p q ∧ blockSum s f p q < hi * (s * s) := by
  unfold blockSum
  have c1 : ∑ a ∈ range s, ∑ b ∈ range s, lo = lo * (s * s) := by simp; ring
  have c2 : ∑ a ∈ range s, ∑ b ∈ range s, hi = hi * (s * s) := by simp; ring
  constructor
  · rw [← c1]
    exact sum_le_sum fun a ha => sum_le_sum fun b hb => (h a (mem_range.1 ha) b (mem_range.1 hb)).1
  · rw [← c2]
    have hne : (range s).Nonempty := ⟨0, mem_range.2 hs⟩
    exact sum_lt_sum_of_nonempty hne fun a ha => sum_lt_sum_of_nonempty hne fun b hb =>
      (h a (mem_range.1 ha) b (mem_range.1 hb)).2

/-- C62: in exact arithmetic, if the depth exceeds `2^(levels+1)` and no pixel is close to 0 or 255, embedding the same
payload with the same settings into an already marked image succeeds and returns the same pixels. -/
theorem embed_idempotent (L : Ldpc) (n levels : Nat) (image out : Mat UInt8) (payload : List UInt8) (depth : ℝ)
    (hn : 0 < n) (hsq : image.IsSquare n) (hd : 2 ^ (levels + 1) < depth)
    (hpix : ∀ i < n, ∀ j < n, 3 / 4 * depth / 2 ^ levels ≤ ((image.get i j).toNat : ℝ) ∧
      ((image.get i j).toNat : ℝ) ≤ 255 - 3 / 4 * depth / 2 ^ levels)
    (h : embed L image payload depth levels = .ok out) :
    ∃ again, embed L out payload depth levels = .ok again ∧ again.IsSquare n ∧
      ∀ i < n, ∀ j < n, again.get i j = out.get i j := by
  obtain ⟨a1, a2, a3, a4, a5, a6, a7⟩ := embed_ok_only L image out payload depth levels (by rw [hsq.1]; exact hn)
    (by rw [hsq.2]; exact hn) h
  rw [hsq.1, hsq.2] at a6 a7
  rw [hsq.1] at a3
  have hrec := (data_serialize_spec payload).1 a5
  have he := fun im him => embed_ok L im payload depth levels n him a1 a2 a3 _ hrec a6 (a7 _ hrec)
  rw [he image hsq] at h
  have hsq' : out.IsSquare n := by cases h; exact ⟨rfl, rfl⟩
  refine ⟨_, he out hsq', ⟨rfl, rfl⟩, ?_⟩
  dsimp only
  revert h
  generalize bytesBits (encode L _ _) = bits
  intro h
  have hd0 : 0 < depth := lt_trans (by positivity) hd
  have h2L : (0 : ℝ) < 2 ^ levels := by positivity
  set s := 2 ^ levels with hs
  have hs0 : 0 < s := by rw [hs]; positivity
  have hsr : ((s : ℕ) : ℝ) = 2 ^ levels := by rw [hs]; push_cast; rfl
  rw [spatial_real image n levels a3] at h
  rw [spatial_real out n levels a3]
  -- the first target stays within the pixel range
  have hch : ∀ im p q, |change n levels im depth bits p q| ≤ 3 / 4 * depth := by
    intro im p q
    unfold change
    split_ifs with hc
    · show |(written n levels im depth bits _ _ : ℝ) - coeffs n levels im _ _| ≤ _
      unfold written
      split_ifs with hb
      · rw [writeCell_real]
        have h1 := roundAway_err ((coeffs n levels im p q : ℝ) / depth)
        set x := (coeffs n levels im p q : ℝ)
        set b := bits.getD (p * (n / 2 ^ levels) + q) false
        have e : depth * ((roundAway (x / depth) : ℝ) + quarter b) - x = depth * (((roundAway (x / depth) : ℝ) - x / depth) + quarter b) := by
          have hd0 : depth ≠ 0 := hd0.ne'
          field_simp
          ring
        rw [e, abs_mul, abs_of_pos hd0, mul_comm]
        apply mul_le_mul_of_nonneg_right _ hd0.le
        have h2 : |quarter b| ≤ 1 / 4 := by unfold quarter; split_ifs <;> norm_num [abs_le]
        refine le_trans (abs_add_le _ _) ?_
        linarith
      · rw [sub_self, abs_zero]; positivity
    · rw [abs_zero]; positivity
  have hT : ∀ i < n, ∀ j < n, 0 ≤ target n levels image depth bits i j ∧ target n levels image depth bits i j ≤ 255 := by
    intro i hi j hj
    obtain ⟨p1, p2⟩ := hpix i hi j hj
    have hc := hch image (i / 2 ^ levels) (j / 2 ^ levels)
    have hc' : |change n levels image depth bits (i / 2 ^ levels) (j / 2 ^ levels) / 2 ^ levels| ≤ 3 / 4 * depth / 2 ^ levels := by
      rw [abs_div, abs_of_pos h2L]; exact div_le_div_of_nonneg_right hc h2L.le
    rw [abs_le] at hc'
    unfold target pix
    constructor <;> linarith
  have hout : ∀ i j, out.get i j = floatToPixel (target n levels image depth bits i j) := by
    intro i j; cases h; rfl
  have hy : ∀ i < n, ∀ j < n, -(1 / 2) ≤ target n levels image depth bits i j - pix out i j ∧
      target n levels image depth bits i j - pix out i j < 1 / 2 := by
    intro i hi j hj
    obtain ⟨t0, t1⟩ := hT i hi j hj
    obtain ⟨q1, q2⟩ := floatToPixel_real _ t0 t1
    unfold pix
    rw [hout]
    constructor <;> linarith
  intro i hi j hj
  set p := i / s with hp
  set q := j / s with hq
  have hpn : p < n / s := Nat.div_lt_div_of_lt_of_dvd a3 hi
  have hqn : q < n / s := Nat.div_lt_div_of_lt_of_dvd a3 hj
  have inside : ∀ {P u : Nat}, P < n / s → u < s → P * s + u < n := by
    intro P u hP hu
    have := Nat.mul_le_mul_right s (show P + 1 ≤ n / s from hP)
    have h3 := Nat.div_mul_le_self n s
    rw [Nat.succ_mul] at this
    omega
  have hco : ∀ im : Mat UInt8, (coeffs n levels im : Nat → Nat → ℝ) = fwdN n n levels (pix im) := by
    intro im; unfold coeffs pix; congr 1
  have hcell : ∀ im : Mat UInt8, (coeffs n levels im p q : ℝ) = blockSum s (pix im) p q / s := by
    intro im
    rw [hco, fwdN_lowLow n n levels a3 a3 _ levels le_rfl p hpn q hqn, hsr]
  have hw : (written n levels image depth bits p q : ℝ) = coeffs n levels image p q + change n levels image depth bits p q := by
    unfold change
    rw [if_pos ⟨hpn, hqn⟩]
    show _ = _ + ((written n levels image depth bits p q : ℝ) - coeffs n levels image p q)
    ring
  -- block average of the rounding errors
  obtain ⟨m1, m2⟩ := blockMean_bounds s hs0 (fun i j => target n levels image depth bits i j - pix out i j) p q (-(1 / 2)) (1 / 2)
    (fun a ha b hb => hy _ (inside hpn ha) _ (inside hqn hb))
  set M := blockSum s (fun i j => target n levels image depth bits i j - pix out i j) p q with hM
  have hsp : (0 : ℝ) < s := by exact_mod_cast hs0
  have hMeq : M / s = written n levels image depth bits p q - coeffs n levels out p q := by
    rw [hw, hcell, hcell, hM]
    have e : blockSum s (fun i j => target n levels image depth bits i j - pix out i j) p q =
        blockSum s (pix image) p q + s * change n levels image depth bits p q - blockSum s (pix out) p q := by
      unfold blockSum
      have : ∀ a ∈ range s, ∀ b ∈ range s, target n levels image depth bits (p * s + a) (q * s + b) - pix out (p * s + a) (q * s + b) =
          pix image (p * s + a) (q * s + b) + change n levels image depth bits p q / s - pix out (p * s + a) (q * s + b) := by
        intro a ha b hb
        rw [mem_range] at ha hb
        unfold target
        have e1 : (p * s + a) / 2 ^ levels = p := by
          rw [← hs, mul_comm, Nat.mul_add_div hs0, Nat.div_eq_of_lt ha, add_zero]
        have e2 : (q * s + b) / 2 ^ levels = q := by
          rw [← hs, mul_comm, Nat.mul_add_div hs0, Nat.div_eq_of_lt hb, add_zero]
        rw [e1, e2, hsr]
      rw [sum_congr rfl fun a ha => sum_congr rfl fun b hb => this a ha b hb]
      simp only [sum_add_distrib, sum_sub_distrib, sum_const, card_range, nsmul_eq_mul]
      field_simp
    rw [e]
    field_simp
  -- the second change undoes the rounding on average
  have hchange : change n levels out depth bits p q = M / s ∨ (change n levels out depth bits p q = 0 ∧ out.get i j = image.get i j) := by
    by_cases hb : p * (n / 2 ^ levels) + q < bits.length
    · left
      unfold change
      rw [if_pos ⟨hpn, hqn⟩, hMeq]
      show (written n levels out depth bits p q : ℝ) - coeffs n levels out p q = _
      congr 1
      have hcond : p < n / 2 ^ levels ∧ q < n / 2 ^ levels ∧ p * (n / 2 ^ levels) + q < bits.length := ⟨hpn, hqn, hb⟩
      unfold written at hMeq ⊢
      rw [if_pos hcond] at hMeq ⊢
      rw [if_pos hcond]
      have : (coeffs n levels out p q : ℝ) = writeCell depth (bits.getD (p * (n / 2 ^ levels) + q) false) (coeffs n levels image p q) + -(M / s) := by
        rw [hMeq]; ring
      rw [this, writeCell_again _ _ _ _ hd0]
      rw [abs_neg, abs_div, abs_of_pos hsp, div_lt_iff₀ hsp]
      have hM2 : |M| ≤ 1 / 2 * (s * s) := by rw [abs_le]; constructor <;> linarith
      have h3 : 2 * (s : ℝ) < depth := by rw [hsr]; rw [pow_succ] at hd; linarith
      refine lt_of_le_of_lt hM2 ?_
      nlinarith
    · right
      have z : ∀ im, change n levels im depth bits p q = 0 := by
        intro im
        unfold change written
        split_ifs with c1 c2
        · exact absurd c2.2.2 hb
        · exact sub_self _
        · rfl
      refine ⟨z out, ?_⟩
      have : target n levels image depth bits i j = ((image.get i j).toNat : ℝ) := by
        unfold target; rw [← hs, ← hp, ← hq, z image]; simp [pix]
      rw [hout, this]
      exact floatToPixel_back _ _ (by linarith) (by linarith)
  have ht : target n levels out depth bits i j = ((out.get i j).toNat : ℝ) + change n levels out depth bits p q / s := by
    unfold target; rw [← hs, ← hp, ← hq, hsr]; rfl
  rw [ht]
  rcases hchange with hc | ⟨hc, _⟩
  · rw [hc]
    have b1 : -(1 / 2) ≤ M / s / s := by
      rw [div_div, le_div_iff₀ (by positivity)]; linarith
    have b2 : M / s / s < 1 / 2 := by
      rw [div_div, div_lt_iff₀ (by positivity)]; linarith
    apply floatToPixel_back
    · linarith
    · linarith
  · rw [hc]
    simp only [zero_div, add_zero]
    exact floatToPixel_back _ _ (by linarith) (by linarith)

section
variable {F : Type} [FloatOps F] [LawfulFloat F]

/-- C62 for rounded arithmetic: embedding the same payload again changes no pixel by more than one level. -/
theorem embed_again_float (L : Ldpc) (n levels : Nat) (image out : Mat UInt8) (payload : List UInt8) (depth : F)
    (hn : 0 < n) (hsq : image.IsSquare n) (hs : SignalOK n levels image depth 0)
    (hslack : embedSlack F levels * val depth < 2 ^ levels / 2)
    (h : embed L image payload depth levels = .ok out) :
    ∃ again, embed L out payload depth levels = .ok again ∧ again.IsSquare n ∧
      ∀ i < n, ∀ j < n, |((again.get i j).toNat : ℤ) - ((out.get i j).toNat : ℤ)| ≤ 1 := by
  obtain ⟨a1, a2, a3, a4, a5, a6, a7⟩ := embed_ok_only L image out payload depth levels (by rw [hsq.1]; exact hn)
    (by rw [hsq.2]; exact hn) h
  rw [hsq.1, hsq.2] at a6 a7
  rw [hsq.1] at a3
  have hrec := (data_serialize_spec payload).1 a5
  have he := fun im him => embed_ok L im payload depth levels n him a1 a2 a3 _ hrec a6 (a7 _ hrec)
  rw [he image hsq] at h
  have hsq' : out.IsSquare n := by cases h; exact ⟨rfl, rfl⟩
  refine ⟨_, he out hsq', ⟨rfl, rfl⟩, ?_⟩
  dsimp only
  revert h
  generalize bytesBits (encode L _ _) = bits
  intro h
  obtain ⟨good, hd1⟩ := hs.good hn a2
  have hD := good.pos
  have h2L : (0 : ℝ) < 2 ^ levels := by positivity
  obtain ⟨p1, p2⟩ := pow_facts levels a2
  have hu := u_nonneg (F := F)
  have hmag0 : 0 ≤ magF levels := by unfold magF; positivity
  have hmag : magF levels ≤ 2 ^ 45 := by unfold magF; norm_num at p2 ⊢; linarith
  obtain ⟨s1, s2⟩ := slack_bounds (F := F) levels a1 (val depth) hd1
  have herrF : 0 ≤ errF F levels := by unfold errF; positivity
  have herrB : 0 ≤ errB F levels (val depth) := by unfold errB errF; positivity
  have hout : ∀ i j, out.get i j = floatToPixel (spatial n levels image depth bits i j) := by
    intro i j; cases h; rfl
  have hle : n / 2 ^ levels ≤ n := Nat.div_le_self _ _
  intro i hi j hj
  have hp : i / 2 ^ levels < n / 2 ^ levels := Nat.div_lt_div_of_lt_of_dvd a3 hi
  have hq : j / 2 ^ levels < n / 2 ^ levels := Nat.div_lt_div_of_lt_of_dvd a3 hj
  -- the change of the cell on the second run
  have hchange : |change n levels out depth bits (i / 2 ^ levels) (j / 2 ^ levels)| ≤
      2 ^ levels / 2 + (embedSlack F levels * val depth - 2 ^ levels * errB F levels (val depth)) + 2 ^ levels * errB F levels (val depth) := by
    generalize hP : i / 2 ^ levels = p at hp ⊢
    generalize hQ : j / 2 ^ levels = q at hq ⊢
    have hin : ∀ i p, p < n / 2 ^ levels → i / 2 ^ levels = p → i < n := by
      intro i p hp hi
      have : i < (p + 1) * 2 ^ levels := by
        rw [← hi, Nat.succ_mul, mul_comm]
        have e1 := Nat.div_add_mod i (2 ^ levels)
        have e2 := Nat.mod_lt i (show 0 < 2 ^ levels by positivity)
        omega
      have h2 : (p + 1) * 2 ^ levels ≤ n / 2 ^ levels * 2 ^ levels := Nat.mul_le_mul_right _ hp
      rw [Nat.div_mul_cancel a3] at h2
      omega
    have hsv := written_survives image out n levels a1 a2 a3 depth good hd1 bits 0 p q hp hq
      (fun i j hi hj => hs.unsaturated i (hin i p hp hi) j (hin j q hq hj))
      (fun i j _ _ => by unfold pix; rw [hout]; simp)
    have hdl := hs.depth_large
    unfold change
    rw [if_pos ⟨hp, hq⟩]
    by_cases hb : p * (n / 2 ^ levels) + q < bits.length
    · have hcond : p < n / 2 ^ levels ∧ q < n / 2 ^ levels ∧ p * (n / 2 ^ levels) + q < bits.length := ⟨hp, hq, hb⟩
      unfold written at hsv ⊢
      rw [if_pos hcond] at hsv ⊢
      obtain ⟨o1, _, o3⟩ := coeffs_near (F := F) image n levels a2 a3 p (by omega) q (by omega)
      obtain ⟨c1, _, c3⟩ := coeffs_near (F := F) out n levels a2 a3 p (by omega) q (by omega)
      have hm48 : magF levels ≤ 2 ^ 48 := by norm_num at hmag ⊢; linarith
      obtain ⟨k1, _, _, _, w1⟩ := writeCell_spec depth (coeffs n levels image p q) good
        (bits.getD (p * (n / 2 ^ levels) + q) false) o1 (magF levels) hmag0 hm48 (le_trans o3 (le_mul_of_one_le_right hmag0 hd1))
      obtain ⟨k2, r2, _, _, w2⟩ := writeCell_spec depth (coeffs n levels out p q) good
        (bits.getD (p * (n / 2 ^ levels) + q) false) c1 (magF levels) hmag0 hm48 (le_trans c3 (le_mul_of_one_le_right hmag0 hd1))
      set b := bits.getD (p * (n / 2 ^ levels) + q) false
      set W := val (writeCell depth b (coeffs n levels image p q : F))
      set W2 := val (writeCell depth b (coeffs n levels out p q : F))
      set A := val (coeffs n levels out p q : F)
      set D := val depth
      have hq4 : |quarter b| ≤ 1 / 4 := by unfold quarter; split_ifs <;> norm_num [abs_le]
      have hAW : |A - W| < D / 4 - u F * (3 * magF levels + 7) * D := by
        have : 0 ≤ u F * D := by positivity
        have h9 : u F * (3 * magF levels + 7) * D ≤ u F * (5 * magF levels + 20) * D := by
          apply mul_le_mul_of_nonneg_right _ hD.le
          apply mul_le_mul_of_nonneg_left _ hu
          linarith
        rw [sub_mul] at hdl
        simp only [zero_add] at hsv hdl
        linarith
      have hk : k2 = k1 := by
        have hx : |A / D - (k1 + quarter b)| < 1 / 4 - u F * (magF levels + 1) := by
          have e : A / D - (k1 + quarter b) = ((A - W) + (W - D * (k1 + quarter b))) / D := by field_simp; ring
          rw [e, abs_div, abs_of_pos hD, div_lt_iff₀ hD]
          refine lt_of_le_of_lt (abs_add_le _ _) ?_
          have : u F * (3 * magF levels + 7) * D = u F * (magF levels + 1) * D + u F * (2 * magF levels + 6) * D := by ring
          rw [sub_mul]
          linarith
        have hk' : |(k2 : ℝ) - k1| < 1 := by
          have e : (k2 : ℝ) - k1 = ((k2 : ℝ) - A / D) + (A / D - (k1 + quarter b)) + quarter b := by ring
          rw [e]
          have g1 := abs_add_le (((k2 : ℝ) - A / D) + (A / D - (k1 + quarter b))) (quarter b)
          have g2 := abs_add_le ((k2 : ℝ) - A / D) (A / D - (k1 + quarter b))
          linarith
        have : |k2 - k1| < 1 := by exact_mod_cast hk'
        rw [Int.abs_lt_one_iff] at this
        omega
      rw [hk] at w2
      have e : W2 - A = (W2 - D * (k1 + quarter b)) - (W - D * (k1 + quarter b)) - (A - W) := by ring
      have g1 := abs_sub (W2 - D * (k1 + quarter b) - (W - D * (k1 + quarter b))) (A - W)
      have g2 := abs_sub (W2 - D * (k1 + quarter b)) (W - D * (k1 + quarter b))
      rw [e]
      have h9 : u F * (2 * magF levels + 6) * D + u F * (2 * magF levels + 6) * D ≤ u F * (5 * magF levels + 20) * D := by
        rw [← add_mul, ← mul_add]
        apply mul_le_mul_of_nonneg_right _ hD.le
        apply mul_le_mul_of_nonneg_left _ hu
        linarith
      simp only [zero_add] at hsv
      linarith
    · unfold written
      rw [if_neg (by tauto), sub_self, abs_zero]
      have := embedSlack_nonneg (F := F) levels
      nlinarith
  obtain ⟨sf, se⟩ := spatial_near out n levels a2 a3 depth good hd1 bits i j hi hj
  obtain ⟨y0, y1⟩ := pix_range out i j
  have hdist := floatToPixel_dist _ sf (pix out i j) (1 / 2 + embedSlack F levels * val depth / 2 ^ levels + errB F levels (val depth)) y0 y1 (by
    have e : val (spatial n levels out depth bits i j) - pix out i j =
        (val (spatial n levels out depth bits i j) - target n levels out depth bits i j) +
          change n levels out depth bits (i / 2 ^ levels) (j / 2 ^ levels) / 2 ^ levels := by
      unfold target; ring
    rw [e]
    refine le_trans (abs_add_le _ _) ?_
    rw [abs_div, abs_of_pos h2L]
    have : |change n levels out depth bits (i / 2 ^ levels) (j / 2 ^ levels)| / 2 ^ levels ≤ 1 / 2 + embedSlack F levels * val depth / 2 ^ levels := by
      rw [div_le_iff₀ h2L, add_mul, div_mul_cancel₀ _ h2L.ne']
      linarith
    linarith)
  have hsum : embedSlack F levels * val depth / 2 ^ levels + errB F levels (val depth) < 1 := by
    have h0 : 0 ≤ u F * (3 * magF levels + 7) * val depth := by positivity
    have : embedSlack F levels * val depth / 2 ^ levels < 1 / 2 := by rw [div_lt_iff₀ h2L]; linarith
    have h3 : errB F levels (val depth) < 1 / 2 := by
      by_contra hc
      push Not at hc
      nlinarith
    linarith
  have hlt : |((floatToPixel (spatial n levels out depth bits i j)).toNat : ℝ) - ((out.get i j).toNat : ℝ)| < 2 := by
    unfold pix at hdist
    linarith
  have hlt' : |((floatToPixel (spatial n levels out depth bits i j)).toNat : ℤ) - ((out.get i j).toNat : ℤ)| < 2 := by
    exact_mod_cast hlt
  omega

end

/-- C62 for IEEE binary64 at up to three levels (the program uses three). -/
theorem embed_again_double (L : Ldpc) (n levels : Nat) (hl : levels ≤ 3) (image out : Mat UInt8) (payload : List UInt8) (x : ℚ)
    (hn : 0 < n) (hsq : image.IsSquare n) (hd : 2 ^ (levels + 1) < (1 - 1 / 2 ^ 24) * (x : ℝ))
    (hpix : ∀ i < n, ∀ j < n, (3 / 4 + 1 / 2 ^ 26) * (x : ℝ) / 2 ^ levels ≤ ((image.get i j).toNat : ℝ) ∧
      ((image.get i j).toNat : ℝ) ≤ 255 - (3 / 4 + 1 / 2 ^ 26) * (x : ℝ) / 2 ^ levels)
    (h : embed L image payload (F64.fin x) levels = .ok out) :
    ∃ again, embed L out payload (F64.fin x) levels = .ok again ∧ again.IsSquare n ∧
      ∀ i < n, ∀ j < n, |((again.get i j).toNat : ℤ) - ((out.get i j).toNat : ℤ)| ≤ 1 := by
  apply embed_again_float L n levels image out payload (F64.fin x) hn hsq
    (signalOK_double n levels hl image x 0 le_rfl (by simpa using hd) hpix) _ h
  have hs := embedSlack_double levels hl
  obtain ⟨u1, u2⟩ := hpix 0 hn 0 hn
  have h2L : (0 : ℝ) < 2 ^ levels := by positivity
  have h6 : (3 / 4 + 1 / 2 ^ 26) * (x : ℝ) / 2 ^ levels ≤ 255 := by
    have : (0 : ℝ) ≤ ((image.get 0 0).toNat : ℝ) := by positivity
    linarith
  rw [div_le_iff₀ h2L] at h6
  have hx : 0 < (x : ℝ) := by
    by_contra hc
    push Not at hc
    have : (0 : ℝ) < 2 ^ (levels + 1) := by positivity
    have : (1 - 1 / 2 ^ 24) * (x : ℝ) ≤ 0 := mul_nonpos_of_nonneg_of_nonpos (by norm_num) hc
    linarith
  show embedSlack F64 levels * (x : ℝ) < _
  have : embedSlack F64 levels * (x : ℝ) ≤ 1 / 2 ^ 26 * (x : ℝ) := mul_le_mul_of_nonneg_right hs hx.le
  norm_num at this h6 ⊢
  linarith

/-- A concrete case: a 512 x 512 image with pixels 100..131, three levels, depth 60, 100 payload bytes. -/
example : ∃ out again, embed Ldpc.toy (⟨512, 512, fun i j => UInt8.ofNat (100 + (i * j) % 32)⟩ : Mat UInt8)
    (List.replicate 100 7) (60 : ℝ) 3 = .ok out ∧ embed Ldpc.toy out (List.replicate 100 7) (60 : ℝ) 3 = .ok again ∧
      ∀ i < 512, ∀ j < 512, again.get i j = out.get i j := by
  have hpix : ∀ i < 512, ∀ j < 512, 3 / 4 * (60 : ℝ) / 2 ^ 3 ≤ ((UInt8.ofNat (100 + (i * j) % 32)).toNat : ℝ) ∧
      ((UInt8.ofNat (100 + (i * j) % 32)).toNat : ℝ) ≤ 255 - 3 / 4 * (60 : ℝ) / 2 ^ 3 := by
    intro i _ j _
    have h1 : (UInt8.ofNat (100 + (i * j) % 32)).toNat = 100 + (i * j) % 32 := by
      rw [UInt8.toNat_ofNat']; omega
    rw [h1]
    have h2 : (100 : ℝ) ≤ ((100 + (i * j) % 32 : ℕ) : ℝ) := by exact_mod_cast (by omega : 100 ≤ 100 + (i * j) % 32)
    have h3 : ((100 + (i * j) % 32 : ℕ) : ℝ) ≤ 131 := by exact_mod_cast (by omega : 100 + (i * j) % 32 ≤ 131)
    constructor <;> norm_num <;> norm_num at h2 h3 <;> linarith
  obtain ⟨out, h1, h2, _⟩ := extract_tolerates_noise_exact Ldpc.toy Ldpc.toy_decodesClean 512 3
    (⟨512, 512, fun i j => UInt8.ofNat (100 + (i * j) % 32)⟩ : Mat UInt8) (List.replicate 100 7) 60 0
    ⟨⟨rfl, rfl⟩, by decide, by decide, by decide, by decide⟩ le_rfl (by norm_num) hpix (by decide) (by decide) (by simp)
    (by simp) (by simp [domainBytes])
  obtain ⟨again, h3, _, h4⟩ := embed_idempotent Ldpc.toy 512 3 _ out _ 60 (by norm_num) ⟨rfl, rfl⟩ (by norm_num) hpix h1
  exact ⟨out, again, h1, h3, h4⟩

end Sia
