import Verif.Props.DriftProps

/-! C90: a marking replaces the marks made before. -/
namespace Sia
open FloatOps LawfulFloat Finset

section
variable {F : Type} [FloatOps F]

/-- A low-low coefficient of one forward step depends on four entries. -/
theorem stepT_congr (w h : Nat) (hw : w % 2 = 0) (hh : h % 2 = 0) (m m' : Nat → Nat → F) (i j : Nat) (hi : i < w / 2) (hj : j < h / 2)
    (e : ∀ a < 2, ∀ b < 2, m (2 * i + a) (2 * j + b) = m' (2 * i + a) (2 * j + b)) :
    stepT false w h m i j = stepT false w h m' i j := by
  have a1 : 2 * i < w := by omega
  have a2 : 2 * i + 1 < w := by omega
  have a3 : i < w := by omega
  have a4 : j < h := by omega
  have e00 := e 0 (by omega) 0 (by omega)
  have e01 := e 0 (by omega) 1 (by omega)
  have e10 := e 1 (by omega) 0 (by omega)
  have e11 := e 1 (by omega) 1 (by omega)
  simp only [add_zero] at e00 e01 e10
  unfold stepT
  rw [colPass_eq, colPass_eq, if_pos ⟨a3, a4⟩, if_pos ⟨a3, a4⟩]
  simp only [srcA, srcB, Bool.false_eq_true, if_false, hi, hj, if_true, rowPass_eq, a1, a2, a4, and_self, e00, e01, e10, e11]

/-- A low-low coefficient depends on its block only. -/
theorem fwdN_congr (R C L : Nat) (hr : 2 ^ L ∣ R) (hc : 2 ^ L ∣ C) (m m' : Nat → Nat → F) : ∀ k ≤ L, ∀ i < R / 2 ^ k, ∀ j < C / 2 ^ k,
    (∀ x < R, ∀ y < C, x / 2 ^ k = i → y / 2 ^ k = j → m x y = m' x y) → fwdN R C k m i j = fwdN R C k m' i j := by
  intro k
  induction k with
  | zero =>
    intro _ i hi j hj e
    rw [pow_zero, Nat.div_one] at hi hj
    exact e i hi j hj (by rw [pow_zero, Nat.div_one]) (by rw [pow_zero, Nat.div_one])
  | succ k ih =>
    intro hk i hi j hj e
    have h1 := pow_div_even hr (show k < L by omega)
    have h2 := pow_div_even hc (show k < L by omega)
    rw [div_pow_succ] at hi hj
    rw [fwdN, fwdN]
    refine stepT_congr _ _ h1 h2 _ _ i j hi hj fun a ha b hb => ih (by omega) _ (by omega) _ (by omega) fun x hx y hy ex ey => ?_
    refine e x hx y hy ?_ ?_
    · rw [pow_succ, ← Nat.div_div_eq_div_mul, ex]; omega
    · rw [pow_succ, ← Nat.div_div_eq_div_mul, ey]; omega

theorem coeffs_congr (n levels : Nat) (hdv : 2 ^ levels ∣ n) (a b : Mat UInt8) (i j : Nat) (hi : i < n) (hj : j < n)
    (e : ∀ x < n, ∀ y < n, x / 2 ^ levels = i / 2 ^ levels → y / 2 ^ levels = j / 2 ^ levels → a.get x y = b.get x y) :
    (coeffs n levels a (i / 2 ^ levels) (j / 2 ^ levels) : F) = coeffs n levels b (i / 2 ^ levels) (j / 2 ^ levels) := by
  have hp : i / 2 ^ levels < n / 2 ^ levels := Nat.div_lt_of_lt_mul (by rw [Nat.mul_div_cancel' hdv]; exact hi)
  have hq : j / 2 ^ levels < n / 2 ^ levels := Nat.div_lt_of_lt_mul (by rw [Nat.mul_div_cancel' hdv]; exact hj)
  exact fwdN_congr n n levels hdv hdv _ _ levels le_rfl _ hp _ hq fun x hx y hy ex ey => by rw [e x hx y hy ex ey]

end

variable {F : Type} [FloatOps F] [LawfulFloat F]

theorem abs_signedQuarter (bit : Bool) : |signedQuarter bit| = 1 / 4 := by
  unfold signedQuarter
  cases bit
  · rw [if_neg (by decide), abs_of_neg (by norm_num)]; norm_num
  · rw [if_pos rfl, abs_of_pos (by norm_num)]

/-- The way to a value near the original block. -/
theorem way_bound (S d s : ℝ) (hD : 0 < d) (k : ℤ) (bit : Bool) (hk : |(k : ℝ) - S / d| ≤ 1 / 2 + s) :
    |d * (k + signedQuarter bit) - S| ≤ (3 / 4 + s) * d := by
  have e : d * (k + signedQuarter bit) - S = d * (((k : ℝ) - S / d) + signedQuarter bit) := by
    field_simp
    ring
  rw [e, abs_mul, abs_of_pos hD]
  have := abs_add_le ((k : ℝ) - S / d) (signedQuarter bit)
  rw [abs_signedQuarter] at this
  nlinarith

/-- Room and no ties give the shift of the block. -/
theorem embed_block_exact (L : Ldpc) (n levels : Nat) (image out : Mat UInt8) (payload record : List UInt8) (depth : F)
    (hn : 0 < n) (hsq : image.IsSquare n) (hd : GoodDepth depth) (hd1 : 1 ≤ val depth)
    (h : embed L image payload depth levels = .ok out) (hrec : dataSerialize payload = .ok record)
    (i j : Nat) (hi : i < n) (hj : j < n)
    (ho : pixelCell n levels i j < 8 * encodedLength (domainBytes n levels) payload.length)
    (k : ℤ) (hk : k = roundAway (val (div (coeffs n levels image (i / 2 ^ levels) (j / 2 ^ levels)) depth)))
    (w : ℝ) (hw : w = (val depth * (k + signedQuarter ((bytesBits (encode L record (domainBytes n levels))).getD (pixelCell n levels i j)
      false)) - blockValue levels image i j) / 2 ^ levels)
    (hroom : ∀ x < n, ∀ y < n, x / 2 ^ levels = i / 2 ^ levels → y / 2 ^ levels = j / 2 ^ levels →
      0 ≤ ((image.get x y).toNat : ℝ) + w ∧ ((image.get x y).toNat : ℝ) + w ≤ 255)
    (htie : u F = 0 ∨ ∀ m : ℤ, embedSlack F levels * val depth / 2 ^ levels < |w - (m + 1 / 2)|) :
    |(k : ℝ) - blockValue levels image i j / val depth| ≤ 1 / 2 + embedSlack F levels ∧
    ∀ x < n, ∀ y < n, x / 2 ^ levels = i / 2 ^ levels → y / 2 ^ levels = j / 2 ^ levels →
      ((out.get x y).toNat : ℤ) = (image.get x y).toNat + ⌊w + 1 / 2⌋ := by
  obtain ⟨k1, k2⟩ := embed_block_round L n levels image out payload record depth hn hsq hd hd1 h hrec i j hi hj ho k hk
  refine ⟨k1, fun x hx y hy hxi hyj => ?_⟩
  obtain ⟨v, v1, v2⟩ := k2 x hx y hy hxi hyj
  obtain ⟨r1, r2⟩ := hroom x hx y hy hxi hyj
  refine pixel_shift v w _ _ _ (by rw [hw]; exact v2) v1 r1 r2 (htie.imp_left fun h0 => ?_)
  unfold embedSlack
  rw [h0]
  ring

omit [LawfulFloat F] in
/-- What can be embedded into one square picture can be embedded into every other one of that size. -/
theorem embed_transfer (L : Ldpc) (n levels : Nat) (image other out : Mat UInt8) (payload : List UInt8) (depth : F) (hn : 0 < n)
    (hsq : image.IsSquare n) (hsq1 : other.IsSquare n) (h : embed L other payload depth levels = .ok out) :
    ∃ direct, embed L image payload depth levels = .ok direct ∧ direct.IsSquare n := by
  obtain ⟨a1, a2, a3, a4, a5, a6, a7⟩ := embed_ok_only L other out payload depth levels (by rw [hsq1.1]; exact hn)
    (by rw [hsq1.2]; exact hn) h
  rw [hsq1.1, hsq1.2] at a6 a7
  rw [hsq1.1] at a3
  have hrec := (data_serialize_spec payload).1 a5
  exact ⟨_, embed_ok L image payload depth levels n hsq a1 a2 a3 _ hrec a6 (a7 _ hrec), ⟨rfl, rfl⟩⟩

/-- `embed_replaces` below, for one block and a picture that is copied between the markings. -/
theorem embed_replaces_block (L L' : Ldpc) (n levels : Nat) (image r once twice direct : Mat UInt8) (first second : List UInt8) (depth : F)
    (hn : 0 < n) (hsq : image.IsSquare n) (hd : GoodDepth depth) (hd1 : 1 ≤ val depth)
    (hs : embedSlack F levels * val depth < 2 ^ levels / 2)
    (hdepth : 2 ^ levels / 2 < (1 / 4 - embedSlack F levels) * val depth)
    (hlen : encodedLength (domainBytes n levels) first.length ≤ encodedLength (domainBytes n levels) second.length)
    (h1 : embed L image first depth levels = .ok r) (hsq1 : once.IsSquare n)
    (h2 : embed L' once second depth levels = .ok twice) (hdir : embed L' image second depth levels = .ok direct)
    (i j : Nat) (hi : i < n) (hj : j < n)
    (hcopy : ∀ x < n, ∀ y < n, x / 2 ^ levels = i / 2 ^ levels → y / 2 ^ levels = j / 2 ^ levels → once.get x y = r.get x y)
    (hroom : ∀ x < n, ∀ y < n, x / 2 ^ levels = i / 2 ^ levels → y / 2 ^ levels = j / 2 ^ levels →
      (3 / 4 + embedSlack F levels) * val depth / 2 ^ levels ≤ ((image.get x y).toNat : ℝ) ∧
      ((image.get x y).toNat : ℝ) ≤ 255 - (3 / 4 + embedSlack F levels) * val depth / 2 ^ levels)
    (htie : u F = 0 ∨ ∀ (k m : ℤ) (bit : Bool), embedSlack F levels * val depth / 2 ^ levels <
        |(val depth * (k + signedQuarter bit) - blockValue levels image i j) / 2 ^ levels - (m + 1 / 2)|) :
    direct.get i j = twice.get i j := by
  obtain ⟨a1, a2, a3, a4, a5, a6, a7⟩ := embed_ok_only L' once twice second depth levels (by rw [hsq1.1]; exact hn)
    (by rw [hsq1.2]; exact hn) h2
  obtain ⟨_, _, _, _, a5', _, _⟩ := embed_ok_only L image r first depth levels (by rw [hsq.1]; exact hn)
    (by rw [hsq.2]; exact hn) h1
  rw [hsq1.1, hsq1.2] at a6 a7
  rw [hsq1.1] at a3
  have hrec := (data_serialize_spec second).1 a5
  have hrec1 := (data_serialize_spec first).1 a5'
  have hD := hd.pos
  have h2L : (0 : ℝ) < 2 ^ levels := by positivity
  have hs0 := embedSlack_nonneg (F := F) levels
  have hcell : ∀ x y, x / 2 ^ levels = i / 2 ^ levels → y / 2 ^ levels = j / 2 ^ levels → pixelCell n levels x y = pixelCell n levels i j := by
    intro x y h1 h2
    unfold pixelCell
    rw [h1, h2]
  by_cases ho : pixelCell n levels i j < 8 * encodedLength (domainBytes n levels) second.length
  swap
  · -- outside both
    rw [embed_outside L' n levels image direct second depth hn hsq hd hd1 hs hdir i j hi hj (by omega),
      embed_outside L' n levels once twice second depth hn hsq1 hd hd1 hs h2 i j hi hj (by omega),
      hcopy i hi j hj rfl rfl, embed_outside L n levels image r first depth hn hsq hd hd1 hs h1 i j hi hj (by omega)]
  set bit := (bytesBits (encode L' _ (domainBytes n levels))).getD (pixelCell n levels i j) false with hbit
  set S := blockValue levels image i j with hS
  set s := embedSlack F levels with hsdef
  set d := val depth with hdd
  set k := roundAway (val (div (coeffs n levels image (i / 2 ^ levels) (j / 2 ^ levels)) depth)) with hk
  have hk1 := (embed_block_round L' n levels image direct second _ depth hn hsq hd hd1 hdir hrec i j hi hj ho k hk).1
  rw [← hS, ← hsdef, ← hdd] at hk1
  have hrange : ∀ (bit : Bool), ∀ x < n, ∀ y < n, x / 2 ^ levels = i / 2 ^ levels → y / 2 ^ levels = j / 2 ^ levels → 0 ≤ ((image.get x y).toNat : ℝ) + (d * (k + signedQuarter bit) - S) / 2 ^ levels ∧
      ((image.get x y).toNat : ℝ) + (d * (k + signedQuarter bit) - S) / 2 ^ levels ≤ 255 := by
    intro bit x hx y hy hxi hyj
    obtain ⟨r1, r2⟩ := hroom x hx y hy hxi hyj
    have hw2 : |(d * (k + signedQuarter bit) - S) / 2 ^ levels| ≤ (3 / 4 + s) * d / 2 ^ levels := by
      rw [abs_div, abs_of_pos h2L]
      exact div_le_div_of_nonneg_right (way_bound S d s hD k bit hk1) h2L.le
    rw [abs_le] at hw2
    constructor <;> linarith [hw2.1, hw2.2]
  have htie' : ∀ bit : Bool, u F = 0 ∨ ∀ m : ℤ, s * d / 2 ^ levels < |(d * (k + signedQuarter bit) - S) / 2 ^ levels - (m + 1 / 2)| :=
    fun bit => htie.imp_right fun ht m => ht k m bit
  -- the direct way
  obtain ⟨_, hdirect⟩ := embed_block_exact L' n levels image direct second _ depth hn hsq hd hd1 hdir hrec i j hi hj ho k hk _ rfl
    (fun x hx y hy => hrange _ x hx y hy) (htie' _)
  rw [← hbit] at hdirect
  have hd0 := hdirect i hi j hj rfl rfl
  -- the block after the first marking
  have hmid : ∃ m : ℤ, (∀ x < n, ∀ y < n, x / 2 ^ levels = i / 2 ^ levels → y / 2 ^ levels = j / 2 ^ levels →
        ((once.get x y).toNat : ℤ) = (image.get x y).toNat + m) ∧
      roundAway (val (div (coeffs n levels once (i / 2 ^ levels) (j / 2 ^ levels)) depth)) = k := by
    by_cases ho1 : pixelCell n levels i j < 8 * encodedLength (domainBytes n levels) first.length
    · set bit1 := (bytesBits (encode L _ (domainBytes n levels))).getD (pixelCell n levels i j) false with hbit1
      obtain ⟨_, hfirst⟩ := embed_block_exact L n levels image r first _ depth hn hsq hd hd1 h1 hrec1 i j hi hj ho1 k hk _ rfl
        (fun x hx y hy => hrange _ x hx y hy) (htie' _)
      replace hfirst : ∀ x < n, ∀ y < n, x / 2 ^ levels = i / 2 ^ levels → y / 2 ^ levels = j / 2 ^ levels → _ :=
        fun x hx y hy e1 e2 => (congrArg (fun p : UInt8 => (p.toNat : ℤ)) (hcopy x hx y hy e1 e2)).trans (hfirst x hx y hy e1 e2)
      rw [← hbit1] at hfirst
      set w1 := (d * (k + signedQuarter bit1) - S) / 2 ^ levels with hw1
      refine ⟨_, hfirst, ?_⟩
      set k2 := roundAway (val (div (coeffs n levels once (i / 2 ^ levels) (j / 2 ^ levels)) depth)) with hk2
      have hk21 := (embed_block_round L' n levels once twice second _ depth hn hsq1 hd hd1 h2 hrec i j hi hj ho k2 hk2).1
      rw [blockValue_shift n levels a3 image once i j hi hj _ hfirst, ← hS, ← hsdef, ← hdd] at hk21
      set m := ⌊w1 + 1 / 2⌋ with hm
      have f1 := Int.floor_le (w1 + 1 / 2)
      have f2 := Int.lt_floor_add_one (w1 + 1 / 2)
      rw [← hm] at f1 f2
      have hm' : |d * (k + signedQuarter bit1) - S - 2 ^ levels * m| ≤ 2 ^ levels / 2 := by
        have e : d * (k + signedQuarter bit1) - S - 2 ^ levels * m = 2 ^ levels * (w1 - m) := by
          rw [hw1]; field_simp
        rw [e, abs_mul, abs_of_pos h2L]
        have : |w1 - m| ≤ 1 / 2 := by rw [abs_le]; constructor <;> linarith
        nlinarith
      have e1 : |(k : ℝ) + signedQuarter bit1 - (S + 2 ^ levels * m) / d| < 1 / 4 - s := by
        have e : (k : ℝ) + signedQuarter bit1 - (S + 2 ^ levels * m) / d = (d * (k + signedQuarter bit1) - S - 2 ^ levels * m) / d := by
          field_simp
          ring
        rw [e, abs_div, abs_of_pos hD, div_lt_iff₀ hD]
        exact lt_of_le_of_lt hm' hdepth
      have e2 : |((k2 : ℝ) - k)| < 1 := by
        have t : (k2 : ℝ) - k = ((k2 : ℝ) - (S + 2 ^ levels * m) / d) - ((k : ℝ) + signedQuarter bit1 - (S + 2 ^ levels * m) / d) +
          signedQuarter bit1 := by ring
        rw [t]
        have t1 := abs_add_le (((k2 : ℝ) - (S + 2 ^ levels * m) / d) - ((k : ℝ) + signedQuarter bit1 - (S + 2 ^ levels * m) / d))
          (signedQuarter bit1)
        have t2 := abs_sub ((k2 : ℝ) - (S + 2 ^ levels * m) / d) ((k : ℝ) + signedQuarter bit1 - (S + 2 ^ levels * m) / d)
        rw [abs_signedQuarter] at t1
        linarith
      have e3 : |k2 - k| < 1 := by exact_mod_cast e2
      have e4 := Int.abs_lt_one_iff.mp e3
      omega
    · have heq : ∀ x < n, ∀ y < n, x / 2 ^ levels = i / 2 ^ levels → y / 2 ^ levels = j / 2 ^ levels → once.get x y = image.get x y := by
        intro x hx y hy hxi hyj
        rw [hcopy x hx y hy hxi hyj]
        refine embed_outside L n levels image r first depth hn hsq hd hd1 hs h1 x y hx hy ?_
        rw [hcell x y hxi hyj]
        omega
      refine ⟨0, fun x hx y hy e1 e2 => by rw [heq x hx y hy e1 e2, add_zero], ?_⟩
      rw [coeffs_congr n levels a3 once image i j hi hj heq]
  obtain ⟨m, hm, hkk⟩ := hmid
  have hSm := blockValue_shift n levels a3 image once i j hi hj m hm
  rw [← hS] at hSm
  set w := (d * (k + signedQuarter bit) - S) / 2 ^ levels with hw
  obtain ⟨_, hsecond⟩ := embed_block_exact L' n levels once twice second _ depth hn hsq1 hd hd1 h2 hrec i j hi hj ho k hkk.symm
    (w - m) (by
      rw [hSm, ← hbit, ← hdd, hw]
      field_simp
      ring)
    (by
      intro x hx y hy e1 e2
      have hx' : ((once.get x y).toNat : ℝ) = (image.get x y).toNat + m := by exact_mod_cast hm x hx y hy e1 e2
      have := hrange bit x hx y hy e1 e2
      rw [hx']
      constructor <;> linarith [this.1, this.2])
    ((htie' bit).imp_right fun ht m' => by
      have := ht (m' + m)
      push_cast at this
      have e : w - ((m' : ℝ) + m + 1 / 2) = w - m - (m' + 1 / 2) := by ring
      rwa [e] at this)
  have hs2 := hsecond i hi j hj rfl rfl
  have hm0 := hm i hi j hj rfl rfl
  have hfl : ⌊w - m + 1 / 2⌋ = ⌊w + 1 / 2⌋ - m := by
    rw [show w - m + 1 / 2 = w + 1 / 2 - (m : ℝ) by ring, Int.floor_sub_intCast]
  rw [hfl] at hs2
  have : (direct.get i j).toNat = (twice.get i j).toNat := by omega
  exact UInt8.toNat_inj.mp this


/-- C90: embedding into a picture that already carries a payload (no longer than the new one, once encoded) gives, in each block that
meets the hypotheses, the same pixels as embedding into the original picture. Hypotheses: the pixels of the block keep the distance
of one marking from black and white, a quarter of the depth exceeds half the side of a block, and (unless arithmetic is exact) the
way from the block's value to none of its possible values is halfway between two integers. -/
theorem embed_replaces (L L' : Ldpc) (n levels : Nat) (image once twice : Mat UInt8) (first second : List UInt8) (depth : F)
    (hn : 0 < n) (hsq : image.IsSquare n) (hd : GoodDepth depth) (hd1 : 1 ≤ val depth)
    (hs : embedSlack F levels * val depth < 2 ^ levels / 2)
    (hdepth : 2 ^ levels / 2 < (1 / 4 - embedSlack F levels) * val depth)
    (hlen : encodedLength (domainBytes n levels) first.length ≤ encodedLength (domainBytes n levels) second.length)
    (h1 : embed L image first depth levels = .ok once) (h2 : embed L' once second depth levels = .ok twice) :
    ∃ direct, embed L' image second depth levels = .ok direct ∧ direct.IsSquare n ∧ ∀ i < n, ∀ j < n,
      (∀ x < n, ∀ y < n, x / 2 ^ levels = i / 2 ^ levels → y / 2 ^ levels = j / 2 ^ levels →
        (3 / 4 + embedSlack F levels) * val depth / 2 ^ levels ≤ ((image.get x y).toNat : ℝ) ∧
        ((image.get x y).toNat : ℝ) ≤ 255 - (3 / 4 + embedSlack F levels) * val depth / 2 ^ levels) →
      (u F = 0 ∨ ∀ (k m : ℤ) (bit : Bool), embedSlack F levels * val depth / 2 ^ levels <
        |(val depth * (k + signedQuarter bit) - blockValue levels image i j) / 2 ^ levels - (m + 1 / 2)|) →
      direct.get i j = twice.get i j := by
  obtain ⟨s1, s2⟩ := embed_shape L image once first depth levels h1
  have hsq1 : once.IsSquare n := ⟨s1.trans hsq.1, s2.trans hsq.2⟩
  obtain ⟨direct, hdir, hds⟩ := embed_transfer L' n levels image once twice second depth hn hsq hsq1 h2
  exact ⟨direct, hdir, hds, fun i hi j hj hroom htie => embed_replaces_block L L' n levels image once once twice direct first second depth hn
    hsq hd hd1 hs hdepth hlen h1 hsq1 h2 hdir i j hi hj (fun _ _ _ _ _ _ => rfl) hroom htie⟩

/-- C90, C62: embedding the same payload again changes no pixel in such a block. -/
theorem embed_again_exact (L : Ldpc) (n levels : Nat) (image once : Mat UInt8) (payload : List UInt8) (depth : F)
    (hn : 0 < n) (hsq : image.IsSquare n) (hd : GoodDepth depth) (hd1 : 1 ≤ val depth)
    (hs : embedSlack F levels * val depth < 2 ^ levels / 2)
    (hdepth : 2 ^ levels / 2 < (1 / 4 - embedSlack F levels) * val depth)
    (h1 : embed L image payload depth levels = .ok once) :
    ∃ again, embed L once payload depth levels = .ok again ∧ again.IsSquare n ∧ ∀ i < n, ∀ j < n,
      (∀ x < n, ∀ y < n, x / 2 ^ levels = i / 2 ^ levels → y / 2 ^ levels = j / 2 ^ levels →
        (3 / 4 + embedSlack F levels) * val depth / 2 ^ levels ≤ ((image.get x y).toNat : ℝ) ∧
        ((image.get x y).toNat : ℝ) ≤ 255 - (3 / 4 + embedSlack F levels) * val depth / 2 ^ levels) →
      (u F = 0 ∨ ∀ (k m : ℤ) (bit : Bool), embedSlack F levels * val depth / 2 ^ levels <
        |(val depth * (k + signedQuarter bit) - blockValue levels image i j) / 2 ^ levels - (m + 1 / 2)|) →
      again.get i j = once.get i j := by
  obtain ⟨s1, s2⟩ := embed_shape L image once payload depth levels h1
  have hsq1 : once.IsSquare n := ⟨s1.trans hsq.1, s2.trans hsq.2⟩
  obtain ⟨again, h2, has⟩ := embed_transfer L n levels once image once payload depth hn hsq1 hsq h1
  refine ⟨again, h2, has, fun i hi j hj hroom htie => ?_⟩
  exact (embed_replaces_block L L n levels image once once again once payload payload depth hn hsq hd hd1 hs hdepth le_rfl h1 hsq1 h2 h1
    i j hi hj (fun _ _ _ _ _ _ => rfl) hroom htie).symm

/-- C90: a picture that is marked again and again with payloads of one encoded length has, in each such block, the pixels of the original
marked once, with the last payload. -/
theorem embed_many (n levels len : Nat) (image : Mat UInt8) (depth : F)
    (hn : 0 < n) (hsq : image.IsSquare n) (hd : GoodDepth depth) (hd1 : 1 ≤ val depth)
    (hs : embedSlack F levels * val depth < 2 ^ levels / 2)
    (hdepth : 2 ^ levels / 2 < (1 / 4 - embedSlack F levels) * val depth)
    (L : Ldpc) (last : List UInt8) (before out : Mat UInt8)
    (h : Relation.ReflTransGen (fun a b => ∃ (L : Ldpc) (payload : List UInt8) (r : Mat UInt8), embed L a payload depth levels = .ok r ∧
      encodedLength (domainBytes n levels) payload.length = len ∧
      b.rows = r.rows ∧ b.cols = r.cols ∧ ∀ x < r.rows, ∀ y < r.cols, b.get x y = r.get x y) image before)
    (hlen : encodedLength (domainBytes n levels) last.length = len)
    (hlast : embed L before last depth levels = .ok out) :
    ∃ direct, embed L image last depth levels = .ok direct ∧ direct.IsSquare n ∧ ∀ i < n, ∀ j < n,
      (∀ x < n, ∀ y < n, x / 2 ^ levels = i / 2 ^ levels → y / 2 ^ levels = j / 2 ^ levels →
        (3 / 4 + embedSlack F levels) * val depth / 2 ^ levels ≤ ((image.get x y).toNat : ℝ) ∧
        ((image.get x y).toNat : ℝ) ≤ 255 - (3 / 4 + embedSlack F levels) * val depth / 2 ^ levels) →
      (u F = 0 ∨ ∀ (k m : ℤ) (bit : Bool), embedSlack F levels * val depth / 2 ^ levels <
        |(val depth * (k + signedQuarter bit) - blockValue levels image i j) / 2 ^ levels - (m + 1 / 2)|) →
      direct.get i j = out.get i j := by
  have hsquare : ∀ z, Relation.ReflTransGen (fun a b => ∃ (L : Ldpc) (payload : List UInt8) (r : Mat UInt8), embed L a payload depth levels = .ok r ∧
      encodedLength (domainBytes n levels) payload.length = len ∧
      b.rows = r.rows ∧ b.cols = r.cols ∧ ∀ x < r.rows, ∀ y < r.cols, b.get x y = r.get x y) image z → z.IsSquare n := by
    intro z hz
    induction hz with
    | refl => exact hsq
    | tail _ hst ih =>
      obtain ⟨L2, p2, r2, f1, _, f3, f4, _⟩ := hst
      obtain ⟨t1, t2⟩ := embed_shape L2 _ r2 p2 depth levels f1
      exact ⟨by rw [f3, t1]; exact ih.1, by rw [f4, t2]; exact ih.2⟩
  obtain ⟨direct, hdir, hds⟩ := embed_transfer L n levels image before out last depth hn hsq (hsquare before h) hlast
  refine ⟨direct, hdir, hds, fun i hi j hj hroom htie => ?_⟩
  -- one block
  have key : ∀ (before : Mat UInt8) (L : Ldpc) (last : List UInt8) (out direct : Mat UInt8),
      Relation.ReflTransGen (fun a b => ∃ (L : Ldpc) (payload : List UInt8) (r : Mat UInt8), embed L a payload depth levels = .ok r ∧
        encodedLength (domainBytes n levels) payload.length = len ∧
        b.rows = r.rows ∧ b.cols = r.cols ∧ ∀ x < r.rows, ∀ y < r.cols, b.get x y = r.get x y) image before →
      encodedLength (domainBytes n levels) last.length = len → embed L before last depth levels = .ok out →
      embed L image last depth levels = .ok direct →
      ∀ x < n, ∀ y < n, x / 2 ^ levels = i / 2 ^ levels → y / 2 ^ levels = j / 2 ^ levels → direct.get x y = out.get x y := by
    intro before L last out direct h
    induction h generalizing L last out direct with
    | refl =>
      intro _ e1 e2 x _ y _ _ _
      rw [e1] at e2
      rw [Except.ok.inj e2]
    | tail hr hstep ih =>
      rename_i b c
      obtain ⟨L1, payload, r1, e1, e2, e3, e4, e5⟩ := hstep
      intro hl f1 f2 x hx y hy hxi hyj
      have hbsq := hsquare b hr
      obtain ⟨s1, s2⟩ := embed_shape L1 b r1 payload depth levels e1
      have hr1 : r1.IsSquare n := ⟨s1.trans hbsq.1, s2.trans hbsq.2⟩
      obtain ⟨d1, d2, _⟩ := embed_transfer L1 n levels image b r1 payload depth hn hsq hbsq e1
      have hb : blockValue levels image x y = blockValue levels image i j := by
        unfold blockValue
        rw [hxi, hyj]
      refine embed_replaces_block L1 L n levels image d1 c out direct payload last depth hn hsq hd hd1 hs hdepth (by rw [e2, hl]) d2
        ⟨e3.trans hr1.1, e4.trans hr1.2⟩ f1 f2 x y hx hy ?_ ?_ (by rw [hb]; exact htie)
      · intro x' hx' y' hy' h1 h2
        rw [e5 x' (by rw [hr1.1]; exact hx') y' (by rw [hr1.2]; exact hy')]
        exact (ih L1 payload r1 d1 e2 e1 d2 x' hx' y' hy' (h1.trans hxi) (h2.trans hyj)).symm
      · intro x' hx' y' hy' h1 h2
        exact hroom x' hx' y' hy' (h1.trans hxi) (h2.trans hyj)
  exact key before L last out direct h hlen hlast hdir i hi j hj rfl rfl

end Sia
