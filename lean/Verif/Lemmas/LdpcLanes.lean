import Verif.Lemmas.LdpcWords

/-! Evaluation of the decoder on many error words at once: each block is a number with one lane of `2 q` bits per error word, of which
the lower `q` are used. -/
namespace Sia
namespace LdpcCode

/-- Rotates every lane left by `f ≤ q`. -/
def rotLanes (q mask f m : Nat) : Nat := (((m &&& mask) <<< f) ||| (((m &&& mask) <<< f) >>> q))

/-- The lower `q` bits of each of the lanes. -/
def LaneMask (q L mask : Nat) : Prop := ∀ p < L, ∀ x < 2 * q, mask.testBit (2 * q * p + x) = decide (x < q)

theorem rotLanes_testBit (q L mask f m p j : Nat) (hmask : LaneMask q L mask) (hp : p < L) (hf : f ≤ q) (hj : j < q) :
    (rotLanes q mask f m).testBit (2 * q * p + (q - 1 - j)) = m.testBit (2 * q * p + (q - 1 - (j + f) % q)) := by
  unfold rotLanes
  rw [Nat.testBit_or, Nat.testBit_shiftRight, Nat.testBit_shiftLeft, Nat.testBit_shiftLeft, Nat.testBit_and, Nat.testBit_and]
  rcases lt_or_ge (j + f) q with h | h
  · rw [Nat.mod_eq_of_lt h]
    have e1 : 2 * q * p + (q - 1 - j) - f = 2 * q * p + (q - 1 - (j + f)) := by omega
    have e2 : q + (2 * q * p + (q - 1 - j)) - f = 2 * q * p + (q + (q - 1 - (j + f))) := by omega
    rw [e1, e2, hmask p hp _ (by omega), hmask p hp _ (by omega), decide_eq_true (by omega : q - 1 - (j + f) < q),
      decide_eq_false (by omega : ¬ q + (q - 1 - (j + f)) < q), decide_eq_true (by omega : 2 * q * p + (q - 1 - j) ≥ f)]
    simp
  · have h2 : (j + f) % q = j + f - q ∨ (j + f = 2 * q ∧ False) := by
      rw [Nat.mod_eq_sub_mod h, Nat.mod_eq_of_lt (by omega)]
      exact .inl rfl
    rcases h2 with h2 | ⟨-, h2⟩
    · rw [h2]
      have e2 : q + (2 * q * p + (q - 1 - j)) - f = 2 * q * p + (q - 1 - (j + f - q)) := by omega
      rw [e2, hmask p hp _ (by omega), decide_eq_true (by omega : q - 1 - (j + f - q) < q),
        decide_eq_true (by omega : q + (2 * q * p + (q - 1 - j)) ≥ f)]
      have e3 : (decide (2 * q * p + (q - 1 - j) ≥ f) && (m.testBit (2 * q * p + (q - 1 - j) - f) &&
          mask.testBit (2 * q * p + (q - 1 - j) - f))) = false := by
        rcases Nat.eq_zero_or_pos p with h0 | h0
        · subst h0
          rw [decide_eq_false (by omega), Bool.false_and]
        · obtain ⟨p', rfl⟩ : ∃ p', p = p' + 1 := ⟨p - 1, by omega⟩
          have e4 : 2 * q * (p' + 1) + (q - 1 - j) - f = 2 * q * p' + (2 * q + (q - 1 - j) - f) := by
            rw [Nat.mul_add, Nat.mul_one]
            omega
          rw [e4, hmask p' (by omega) _ (by omega), decide_eq_false (by omega : ¬ 2 * q + (q - 1 - j) - f < q)]
          simp
      rw [e3]
      simp
    · exact h2.elim

/-- The words agree with the lanes. -/
def AgreeLanes (c : LdpcCode) (nb L : Nat) (w : Nat → Nat → Bool) (W : List Nat) : Prop :=
  ∀ p < L, ∀ b < nb, ∀ j < c.circulant,
    w p (b * c.circulant + j) = (W.getD b 0).testBit (2 * c.circulant * p + (c.circulant - 1 - j))

/-- The checks of a block row. -/
def syndromeLanes (q mask : Nat) (W : List Nat) : List (Nat × Nat) → Nat
  | [] => 0
  | e :: es => rotLanes q mask e.2 (W.getD e.1 0) ^^^ syndromeLanes q mask W es

/-- Adds one to the counters selected by `m`; level `l` holds the counters above `l`. -/
def bumpLanes (m : Nat) : Nat → List Nat → List Nat
  | p, [] => [p &&& m]
  | p, t :: ts => (t ||| (p &&& m)) :: bumpLanes m t ts

/-- The counters of a block. -/
def countLanes (q mask : Nat) (S : List Nat) : List (Nat × Nat) → List Nat
  | [] => []
  | e :: es => bumpLanes (rotLanes q mask (q - e.2) (S.getD e.1 0)) mask (countLanes q mask S es)

/-- The union of level `l` over the blocks. -/
def unionLevel (l : Nat) : List (List Nat) → Nat
  | [] => 0
  | ts :: T => ts.getD l 0 ||| unionLevel l T

/-- Every lane that has a bit in `m` becomes full. -/
def spread (q mask : Nat) : Nat → Nat → Nat
  | 0, m => m
  | i + 1, m => spread q mask i m ||| rotLanes q mask (2 ^ i) (spread q mask i m)

/-- The bits to flip in a block: `gs` are, for each level, the lanes whose largest counter is at this level. -/
def chosen : List Nat → List Nat → Nat
  | t :: ts, g :: gs => (t &&& g) ||| chosen ts gs
  | _, _ => 0

/-- For each level the lanes whose largest counter is at this level. -/
def atLevel (q lg mask : Nat) (T : List (List Nat)) : List Nat :=
  (List.range 6).map fun l => spread q mask lg (unionLevel l T) ^^^ spread q mask lg (unionLevel (l + 1) T)

/-- The rounds of the decoder. -/
def runLanes (q lg mask : Nat) (rows columns : List (List (Nat × Nat))) : Nat → List Nat → List Nat
  | 0, W => W
  | n + 1, W =>
    let S := rows.map (syndromeLanes q mask W)
    let T := columns.map (countLanes q mask S)
    if unionLevel 0 T &&& mask = 0 then W
    else
      let G := atLevel q lg mask T
      runLanes q lg mask rows columns n (List.zipWith (fun m ts => m ^^^ chosen ts G) W T)

variable {c : LdpcCode} {L mask : Nat}

theorem syndromeLanes_testBit (hm : LaneMask c.circulant L mask) {w : Nat → Nat → Bool} {W : List Nat} {nb : Nat}
    (h : c.AgreeLanes nb L w W) (es : List (Nat × Nat)) (he : ∀ e ∈ es, e.1 < nb ∧ e.2 < c.circulant) (p : Nat) (hp : p < L)
    (i : Nat) (hi : i < c.circulant) :
    (syndromeLanes c.circulant mask W es).testBit (2 * c.circulant * p + (c.circulant - 1 - i)) =
      (es.countP (fun e => w p (e.1 * c.circulant + (i + e.2) % c.circulant)) % 2 == 1) := by
  induction es with
  | nil => simp [syndromeLanes]
  | cons e es ih =>
    have h1 := he e (by simp)
    rw [syndromeLanes, Nat.testBit_xor, rotLanes_testBit _ L _ _ _ _ _ hm hp h1.2.le hi, ih fun e h => he e (by simp [h]),
      List.countP_cons, ← h p hp _ h1.1 _ (Nat.mod_lt _ c.circulant_pos)]
    cases w p (e.1 * c.circulant + (i + e.2) % c.circulant)
    · simp
    · generalize (es.countP fun e => w p (e.1 * c.circulant + (i + e.2) % c.circulant)) = x
      rcases Nat.mod_two_eq_zero_or_one x with h2 | h2 <;> simp [Nat.add_mod, h2]

theorem syndromesLanes_testBit (hm : LaneMask c.circulant L mask) {w : Nat → Nat → Bool} {W : List Nat}
    (h : c.AgreeLanes c.blocks L w W) (r : Nat) (hr : r < c.matrix.length) (p : Nat) (hp : p < L) (i : Nat) (hi : i < c.circulant) :
    ((c.rowsOf.map (syndromeLanes c.circulant mask W)).getD r 0).testBit (2 * c.circulant * p + (c.circulant - 1 - i)) =
      violated (w p) (c.check r i) := by
  have e2 : (c.rowsOf.map (syndromeLanes c.circulant mask W)).getD r 0 = syndromeLanes c.circulant mask W (c.entries r) := by
    rw [List.getD_eq_getElem _ _ (by simpa [rowsOf] using hr), List.getElem_map]
    simp [rowsOf]
  have hrow : c.entries r ∈ c.rowsOf := List.mem_map.2 ⟨r, List.mem_range.2 hr, rfl⟩
  rw [e2, syndromeLanes_testBit hm h _ (c.tables.row_ok _ hrow) p hp i hi]
  unfold violated
  rw [check_countP]

theorem bumpLanes_testBit (m x n : Nat) (ts : List Nat) (p base : Nat) (hp : p.testBit x = decide (base ≤ n)) (hn : n ≤ base + ts.length)
    (ht : ∀ l, (ts.getD l 0).testBit x = decide (base + l + 1 ≤ n)) :
    (bumpLanes m p ts).length = ts.length + 1 ∧
      ∀ l, ((bumpLanes m p ts).getD l 0).testBit x = decide (base + l + 1 ≤ n + if m.testBit x then 1 else 0) := by
  induction ts generalizing p base with
  | nil =>
    refine ⟨rfl, fun l => ?_⟩
    rw [List.length_nil] at hn
    cases l with
    | zero =>
      rw [bumpLanes, List.getD_cons_zero, Nat.testBit_and, hp]
      cases m.testBit x
      · simp; omega
      · simp
    | succ l =>
      rw [bumpLanes, List.getD_cons_succ, List.getD_nil, Nat.zero_testBit]
      symm
      rw [decide_eq_false_iff_not]
      split_ifs <;> omega
  | cons t ts ih =>
    have h0 : t.testBit x = decide (base + 1 ≤ n) := by simpa using ht 0
    rw [List.length_cons] at hn
    obtain ⟨i1, i2⟩ := ih t (base + 1) h0 (by omega) (fun l => by
      have := ht (l + 1)
      rw [List.getD_cons_succ] at this
      rw [this]
      congr 1
      exact propext ⟨fun _ => by omega, fun _ => by omega⟩)
    refine ⟨by simp [bumpLanes, i1], ?_⟩
    intro l
    cases l with
    | zero =>
      rw [bumpLanes, List.getD_cons_zero, Nat.testBit_or, Nat.testBit_and, h0, hp]
      cases m.testBit x <;> simp
      omega
    | succ l =>
      rw [bumpLanes, List.getD_cons_succ, i2 l]
      congr 1
      exact propext ⟨fun _ => by omega, fun _ => by omega⟩

theorem countLanes_testBit (hm : LaneMask c.circulant L mask) {w : Nat → Nat → Bool} {W : List Nat}
    (h : c.AgreeLanes c.blocks L w W) (es : List (Nat × Nat)) (he : ∀ e ∈ es, e.1 < c.matrix.length ∧ e.2 < c.circulant)
    (p : Nat) (hp : p < L) (j : Nat) (hj : j < c.circulant) :
    (countLanes c.circulant mask (c.rowsOf.map (syndromeLanes c.circulant mask W)) es).length = es.length ∧ ∀ l,
      ((countLanes c.circulant mask (c.rowsOf.map (syndromeLanes c.circulant mask W)) es).getD l 0).testBit
          (2 * c.circulant * p + (c.circulant - 1 - j)) =
        decide (l + 1 ≤ es.countP fun e => violated (w p) (c.check e.1 ((j + c.circulant - e.2 % c.circulant) % c.circulant))) := by
  induction es with
  | nil => exact ⟨rfl, fun l => by simp [countLanes]⟩
  | cons e es ih =>
    obtain ⟨i1, i2⟩ := ih fun e h => he e (by simp [h])
    have h1 := he e (by simp)
    have hx : mask.testBit (2 * c.circulant * p + (c.circulant - 1 - j)) = true := by
      rw [hm p hp _ (by omega)]
      simp; omega
    obtain ⟨b1, b2⟩ := bumpLanes_testBit
      (rotLanes c.circulant mask (c.circulant - e.2) ((c.rowsOf.map (syndromeLanes c.circulant mask W)).getD e.1 0))
      (2 * c.circulant * p + (c.circulant - 1 - j))
      (es.countP fun e => violated (w p) (c.check e.1 ((j + c.circulant - e.2 % c.circulant) % c.circulant))) _ mask 0
      (by rw [hx]; simp) (by rw [i1, Nat.zero_add]; exact List.countP_le_length)
      (fun l => by rw [i2 l, Nat.zero_add])
    rw [countLanes]
    refine ⟨by rw [b1, i1, List.length_cons], fun l => ?_⟩
    rw [b2 l, Nat.zero_add, List.countP_cons, rotLanes_testBit _ L _ _ _ _ _ hm hp (Nat.sub_le _ _) hj,
      syndromesLanes_testBit hm h _ h1.1 p hp _ (Nat.mod_lt _ c.circulant_pos), Nat.mod_eq_of_lt h1.2, Nat.add_sub_assoc h1.2.le]

theorem unionLevel_testBit (l x : Nat) (T : List (List Nat)) :
    (unionLevel l T).testBit x = true ↔ ∃ ts ∈ T, (ts.getD l 0).testBit x = true := by
  induction T with
  | nil => simp [unionLevel]
  | cons ts T ih =>
    rw [unionLevel, Nat.testBit_or, Bool.or_eq_true, ih]
    simp

theorem spread_testBit (hm : LaneMask c.circulant L mask) (i m p j : Nat) (hi : 2 ^ i ≤ c.circulant) (hp : p < L)
    (hj : j < c.circulant) :
    (spread c.circulant mask i m).testBit (2 * c.circulant * p + (c.circulant - 1 - j)) = true ↔
      ∃ k < 2 ^ i, m.testBit (2 * c.circulant * p + (c.circulant - 1 - (j + k) % c.circulant)) = true := by
  induction i generalizing j with
  | zero =>
    rw [spread]
    constructor
    · intro h
      exact ⟨0, by decide, by rw [Nat.add_zero, Nat.mod_eq_of_lt hj]; exact h⟩
    · rintro ⟨k, hk, h⟩
      have : k = 0 := by simpa using hk
      subst this
      rwa [Nat.add_zero, Nat.mod_eq_of_lt hj] at h
  | succ i ih =>
    have hi' : 2 ^ i ≤ c.circulant := le_trans (Nat.pow_le_pow_right (by decide) (by omega)) hi
    have hmod := Nat.mod_lt (j + 2 ^ i) c.circulant_pos
    rw [spread, Nat.testBit_or, Bool.or_eq_true, rotLanes_testBit _ L _ _ _ _ _ hm hp hi' hj, ih j hi' hj, ih _ hi' hmod, Nat.pow_succ]
    constructor
    · rintro (⟨k, hk, h⟩ | ⟨k, hk, h⟩)
      · exact ⟨k, by omega, h⟩
      · refine ⟨2 ^ i + k, by omega, ?_⟩
        rw [Nat.mod_add_mod] at h
        rwa [← Nat.add_assoc]
    · rintro ⟨k, hk, h⟩
      rcases lt_or_ge k (2 ^ i) with h' | h'
      · exact .inl ⟨k, h', h⟩
      · refine .inr ⟨k - 2 ^ i, by omega, ?_⟩
        rw [Nat.mod_add_mod, show j + 2 ^ i + (k - 2 ^ i) = j + k by omega]
        exact h

theorem spread_full (hm : LaneMask c.circulant L mask) (lg m p j : Nat) (hlg : 2 ^ lg = c.circulant) (hp : p < L)
    (hj : j < c.circulant) :
    (spread c.circulant mask lg m).testBit (2 * c.circulant * p + (c.circulant - 1 - j)) = true ↔
      ∃ k < c.circulant, m.testBit (2 * c.circulant * p + (c.circulant - 1 - k)) = true := by
  rw [spread_testBit hm lg m p j hlg.le hp hj, hlg]
  constructor
  · rintro ⟨k, -, h⟩
    exact ⟨_, Nat.mod_lt _ c.circulant_pos, h⟩
  · rintro ⟨k, hk, h⟩
    refine ⟨(k + c.circulant - j % c.circulant) % c.circulant, Nat.mod_lt _ c.circulant_pos, ?_⟩
    have e := (unshift c.circulant k j ((k + c.circulant - j % c.circulant) % c.circulant) (Nat.mod_lt _ c.circulant_pos) hk).2 rfl
    rw [Nat.add_comm j, e]
    exact h

theorem chosen_testBit (x : Nat) (ts gs : List Nat) :
    (chosen ts gs).testBit x = true ↔ ∃ l < gs.length, (ts.getD l 0).testBit x = true ∧ (gs.getD l 0).testBit x = true := by
  induction ts generalizing gs with
  | nil =>
    constructor
    · intro h; cases gs <;> simp [chosen] at h
    · rintro ⟨l, -, h, -⟩
      simp at h
  | cons t ts ih =>
    cases gs with
    | nil => simp [chosen]
    | cons g gs =>
      rw [chosen, Nat.testBit_or, Bool.or_eq_true, Nat.testBit_and, Bool.and_eq_true, ih]
      constructor
      · rintro (h | ⟨l, hl, h⟩)
        · exact ⟨0, by simp, by simpa using h⟩
        · exact ⟨l + 1, by simpa using hl, by simpa using h⟩
      · rintro ⟨l, hl, h⟩
        cases l with
        | zero => exact .inl (by simpa using h)
        | succ l => exact .inr ⟨l, by simpa using hl, by simpa using h⟩

theorem bitFlip_done (n : Nat) (w : Nat → Bool) (h : c.maxViolations w = 0) : c.bitFlip n w = w := by
  cases n with
  | zero => rfl
  | succ n =>
    unfold bitFlip
    rw [if_pos h]

theorem index_total (b j : Nat) (hb : b < c.blocks) (hj : j < c.circulant) : b * c.circulant + j < c.blocks * c.circulant :=
  (c.index_lt _ _ _ hj).2 hb

theorem maxViolations_ge (w : Nat → Bool) (m : Nat) (hm : 0 < m) :
    m ≤ c.maxViolations w ↔ ∃ b < c.blocks, ∃ j < c.circulant, m ≤ c.violations w (b * c.circulant + j) := by
  constructor
  · intro h
    by_contra hx
    push Not at hx
    have : c.maxViolations w ≤ m - 1 := by
      rw [maxViolations_le]
      intro v hv
      have := hx (v / c.circulant) (Nat.div_lt_of_lt_mul (by rwa [Nat.mul_comm] at hv)) (v % c.circulant) (Nat.mod_lt _ c.circulant_pos)
      rw [← c.split_index] at this
      omega
    omega
  · rintro ⟨b, hb, j, hj, h⟩
    exact le_trans h ((c.maxViolations_le w _).1 le_rfl _ (index_total b j hb hj))

theorem runLanes_agree (hm : LaneMask c.circulant L mask) (lg : Nat) (hlg : 2 ^ lg = c.circulant) (n : Nat) {w : Nat → Nat → Bool}
    {W : List Nat} (h : c.AgreeLanes c.blocks L w W) (hW : W.length = c.blocks) :
    c.AgreeLanes c.blocks L (fun p => c.bitFlip n (w p)) (runLanes c.circulant lg mask c.rowsOf c.columnsOf n W) := by
  induction n generalizing w W with
  | zero => exact h
  | succ n ih =>
    have hcl : c.columnsOf.length = c.blocks := by simp [columnsOf]
    set S := c.rowsOf.map (syndromeLanes c.circulant mask W) with hS
    set T := c.columnsOf.map (countLanes c.circulant mask S) with hT
    have hTl : T.length = c.blocks := by rw [hT, List.length_map, hcl]
    have hcol : ∀ b (hb : b < c.blocks), c.columnsOf[b]'(by omega) = c.column b := fun b hb => by simp [columnsOf]
    have hTb : ∀ b (hb : b < c.blocks), T[b]'(by omega) = countLanes c.circulant mask S (c.column b) :=
      fun b hb => by simp only [hT, List.getElem_map, hcol b hb]
    have hok : ∀ b < c.blocks, (c.column b).length ≤ 6 ∧ ∀ e ∈ c.column b, e.1 < c.matrix.length ∧ e.2 < c.circulant := by
      intro b hb
      have := c.tables.column_ok _ (List.getElem_mem (by omega : b < c.columnsOf.length))
      rwa [hcol b hb] at this
    have hbit : ∀ b (hb : b < c.blocks), ∀ p < L, ∀ j < c.circulant, ∀ l,
        ((T[b]'(by omega)).getD l 0).testBit (2 * c.circulant * p + (c.circulant - 1 - j)) =
          decide (l + 1 ≤ c.violations (w p) (b * c.circulant + j)) := by
      intro b hb p hp j hj l
      rw [hTb b hb, violations_column c (w p) b j hj]
      exact (countLanes_testBit hm h _ (hok b hb).2 p hp j hj).2 l
    have hle6 : ∀ p, c.maxViolations (w p) ≤ 6 := by
      intro p
      rw [maxViolations_le]
      intro v hv
      rw [c.split_index v, violations_column c (w p) _ _ (Nat.mod_lt _ c.circulant_pos)]
      exact le_trans List.countP_le_length (hok _ (Nat.div_lt_of_lt_mul (by rwa [Nat.mul_comm] at hv))).1
    have hunion : ∀ p < L, ∀ l, (∃ j < c.circulant, (unionLevel l T).testBit (2 * c.circulant * p + (c.circulant - 1 - j)) = true) ↔
        l + 1 ≤ c.maxViolations (w p) := by
      intro p hp l
      rw [maxViolations_ge _ _ (by omega)]
      constructor
      · rintro ⟨j, hj, hx⟩
        obtain ⟨ts, h1, h2⟩ := (unionLevel_testBit _ _ _).1 hx
        obtain ⟨b, hb, rfl⟩ := List.getElem_of_mem h1
        rw [hTl] at hb
        rw [hbit b hb p hp j hj l] at h2
        exact ⟨b, hb, j, hj, of_decide_eq_true h2⟩
      · rintro ⟨b, hb, j, hj, hx⟩
        refine ⟨j, hj, (unionLevel_testBit _ _ _).2 ⟨_, List.getElem_mem (by omega : b < T.length), ?_⟩⟩
        rw [hbit b hb p hp j hj l]
        exact decide_eq_true hx
    unfold runLanes
    rw [← hS]
    dsimp only
    rw [← hT]
    split_ifs with hstop
    · intro p hp b hb j hj
      have h0 : c.maxViolations (w p) = 0 := by
        by_contra hx
        obtain ⟨k, hk, hk2⟩ := (hunion p hp 0).2 (by omega)
        have h1 := congrArg (fun m => Nat.testBit m (2 * c.circulant * p + (c.circulant - 1 - k))) hstop
        simp only [Nat.testBit_and, Nat.zero_testBit] at h1
        rw [hk2, hm p hp _ (by omega), decide_eq_true (by omega)] at h1
        exact absurd h1 (by simp)
      beta_reduce
      rw [bitFlip_done _ _ h0]
      exact h p hp b hb j hj
    · set G := atLevel c.circulant lg mask T with hG
      have hGl : G.length = 6 := by simp [hG, atLevel]
      have hGbit : ∀ p < L, ∀ j < c.circulant, ∀ l < 6, (G.getD l 0).testBit (2 * c.circulant * p + (c.circulant - 1 - j)) =
          decide (l + 1 = c.maxViolations (w p)) := by
        intro p hp j hj l hl
        have e1 : G.getD l 0 = spread c.circulant mask lg (unionLevel l T) ^^^ spread c.circulant mask lg (unionLevel (l + 1) T) := by
          rw [List.getD_eq_getElem _ _ (by omega)]
          simp [hG, atLevel]
        have e2 : ∀ l, (spread c.circulant mask lg (unionLevel l T)).testBit (2 * c.circulant * p + (c.circulant - 1 - j)) =
            decide (l + 1 ≤ c.maxViolations (w p)) := by
          intro l
          rw [Bool.eq_iff_iff, decide_eq_true_eq, spread_full hm lg _ p j hlg hp hj, hunion p hp l]
        rw [e1, Nat.testBit_xor, e2, e2]
        by_cases h1 : l + 1 ≤ c.maxViolations (w p) <;> by_cases h2 : l + 1 + 1 ≤ c.maxViolations (w p) <;> simp [h1, h2] <;> omega
      have hstep : c.AgreeLanes c.blocks L (fun p => if c.maxViolations (w p) = 0 then w p else c.flip (w p))
          (List.zipWith (fun m ts => m ^^^ chosen ts G) W T) := by
        intro p hp b hb j hj
        have e1 : (List.zipWith (fun m ts => m ^^^ chosen ts G) W T).getD b 0 = W.getD b 0 ^^^ chosen (T[b]'(by omega)) G := by
          rw [List.getD_eq_getElem _ _ (by rw [List.length_zipWith]; omega), List.getElem_zipWith,
            List.getD_eq_getElem W _ (by omega)]
        have hv : c.violations (w p) (b * c.circulant + j) ≤ c.maxViolations (w p) :=
          (c.maxViolations_le (w p) _).1 le_rfl _ (index_total b j hb hj)
        have e2 : (chosen (T[b]'(by omega)) G).testBit (2 * c.circulant * p + (c.circulant - 1 - j)) =
            decide (c.maxViolations (w p) ≠ 0 ∧ c.violations (w p) (b * c.circulant + j) = c.maxViolations (w p)) := by
          rw [Bool.eq_iff_iff, decide_eq_true_eq, chosen_testBit, hGl]
          constructor
          · rintro ⟨l, hl, h1, h2⟩
            rw [hbit b hb p hp j hj l, decide_eq_true_eq] at h1
            rw [hGbit p hp j hj l hl, decide_eq_true_eq] at h2
            omega
          · rintro ⟨h1, h2⟩
            have := hle6 p
            refine ⟨c.maxViolations (w p) - 1, by omega, ?_, ?_⟩
            · rw [hbit b hb p hp j hj, decide_eq_true_eq]; omega
            · rw [hGbit p hp j hj _ (by omega), decide_eq_true_eq]; omega
        beta_reduce
        rw [e1, Nat.testBit_xor, ← h p hp b hb j hj, e2]
        by_cases h0 : c.maxViolations (w p) = 0
        · simp [h0]
        · rw [if_neg h0]
          unfold flip
          by_cases h1 : c.violations (w p) (b * c.circulant + j) = c.maxViolations (w p)
          · rw [if_pos h1, decide_eq_true ⟨h0, h1⟩, Bool.xor_true]
          · rw [if_neg h1, decide_eq_false (by tauto), Bool.xor_false]
      have := ih hstep (by rw [List.length_zipWith, hW, hTl, Nat.min_self])
      intro p hp b hb j hj
      rw [← this p hp b hb j hj]
      dsimp only
      conv_lhs => unfold bitFlip
      by_cases h0 : c.maxViolations (w p) = 0
      · rw [if_pos h0, if_pos h0, bitFlip_done _ _ h0]
      · rw [if_neg h0, if_neg h0]

/-- The punctured blocks, appended to the transmitted ones. -/
def fillLanes (q mask : Nat) (rows : List (List (Nat × Nat))) (W : List Nat) : List Nat :=
  W ++ (rows.drop 8).map (syndromeLanes q mask W)

theorem fillLanes_agree (hm : LaneMask c.circulant L mask) {w : Nat → Nat → Bool} {W : List Nat}
    (h : c.AgreeLanes (c.n / c.circulant) L w W) (hW : W.length = c.n / c.circulant) :
    c.AgreeLanes c.blocks L (fun p => c.fill (w p)) (fillLanes c.circulant mask c.rowsOf W) ∧
      (fillLanes c.circulant mask c.rowsOf W).length = c.blocks := by
  have hr : c.rowsOf.length = c.matrix.length := by simp [rowsOf]
  have hblk : c.blocks = c.n / c.circulant + (c.matrix.length - 8) := by cases c <;> rfl
  refine ⟨?_, by rw [fillLanes, List.length_append, List.length_map, List.length_drop, hW, hr, hblk]⟩
  intro p hp b hb j hj
  by_cases hs : b < c.n / c.circulant
  · have e1 : (fillLanes c.circulant mask c.rowsOf W).getD b 0 = W.getD b 0 := by
      unfold fillLanes
      rw [List.getD_append _ _ _ _ (by omega)]
    have e2 : b * c.circulant + j < c.n := by
      rw [c.n_eq, c.index_lt _ _ _ hj]
      exact hs
    beta_reduce
    rw [e1, ← h p hp b hs j hj, fill_lt c _ _ e2]
  · have htm : c.IsTM := by
      by_contra hx
      have h1 := c.tc_n hx
      have : c.blocks * c.circulant / c.circulant = c.blocks := Nat.mul_div_cancel _ c.circulant_pos
      rw [← h1] at this
      omega
    obtain ⟨g1, g2, g3, -⟩ := c.tm_rows htm
    obtain ⟨a, rfl⟩ : ∃ a, b = 16 + a := ⟨b - 16, by omega⟩
    have ha : a < 4 := by omega
    have e1 : (fillLanes c.circulant mask c.rowsOf W).getD (16 + a) 0 = syndromeLanes c.circulant mask W (c.entries (8 + a)) := by
      unfold fillLanes
      rw [List.getD_append_right _ _ _ _ (by omega), hW, g2, Nat.add_sub_cancel_left,
        List.getD_eq_getElem _ _ (by rw [List.length_map, List.length_drop]; omega), List.getElem_map, List.getElem_drop]
      simp [rowsOf]
    beta_reduce
    rw [e1, fill_tm c htm (w p) a j ha hj]
    have hrow : c.entries (8 + a) ∈ c.rowsOf := List.mem_map.2 ⟨8 + a, List.mem_range.2 (by omega), rfl⟩
    have hag : c.AgreeLanes c.blocks L (fun p u => decide (u < c.n) && w p u) W := by
      intro p hp b' hb' j' hj'
      by_cases hs' : b' < c.n / c.circulant
      · have e2 : b' * c.circulant + j' < c.n := by
          rw [c.n_eq, c.index_lt _ _ _ hj']
          exact hs'
        beta_reduce
        rw [decide_eq_true e2, Bool.true_and, h p hp b' hs' j' hj']
      · have e2 : ¬b' * c.circulant + j' < c.n := by
          rw [c.n_eq, c.index_lt _ _ _ hj']
          exact hs'
        beta_reduce
        rw [decide_eq_false e2, Bool.false_and, List.getD_eq_default _ _ (by omega)]
        simp
    rw [syndromeLanes_testBit hm hag _ (c.tables.row_ok _ hrow) p hp j hj]
    unfold violated
    rw [check_countP]

/-- No data bit is wrong in any lane. -/
def clearedLanes (mask k : Nat) (W : List Nat) : Bool := (W.take k).all fun m => m &&& mask == 0

theorem clears_of_lanes (hm : LaneMask c.circulant L mask) (lg : Nat) (hlg : 2 ^ lg = c.circulant) {e : Nat → Nat → Bool} {W : List Nat}
    (h : c.AgreeLanes (c.n / c.circulant) L e W) (hW : W.length = c.n / c.circulant)
    (hc : clearedLanes mask (c.k / c.circulant)
      (runLanes c.circulant lg mask c.rowsOf c.columnsOf 20 (fillLanes c.circulant mask c.rowsOf W)) = true) :
    ∀ p < L, c.Clears (e p) := by
  obtain ⟨h1, h2⟩ := fillLanes_agree hm h hW
  have h3 := runLanes_agree hm lg hlg 20 h1 h2
  intro p hp v hv
  have hmod := Nat.mod_lt v c.circulant_pos
  have hb : v / c.circulant < c.k / c.circulant := by
    refine Nat.div_lt_of_lt_mul ?_
    rw [c.k_eq, Nat.mul_comm] at hv
    exact hv
  have hk : c.k / c.circulant ≤ c.blocks := by cases c <;> decide
  have h4 := h3 p hp (v / c.circulant) (by omega) _ hmod
  beta_reduce at h4
  rw [← c.split_index v] at h4
  rw [h4]
  generalize runLanes c.circulant lg mask c.rowsOf c.columnsOf 20 (fillLanes c.circulant mask c.rowsOf W) = V at hc
  by_contra hx
  rw [Bool.not_eq_false] at hx
  have hlen : v / c.circulant < V.length := by
    by_contra hl
    rw [List.getD_eq_default _ _ (by omega)] at hx
    simp at hx
  have h5 := List.all_eq_true.1 hc (V.getD (v / c.circulant) 0) (by
    rw [List.getD_eq_getElem _ _ hlen, List.mem_take_iff_getElem]
    exact ⟨_, by omega, rfl⟩)
  rw [beq_iff_eq] at h5
  have h6 := congrArg (fun m => Nat.testBit m (2 * c.circulant * p + (c.circulant - 1 - v % c.circulant))) h5
  simp only [Nat.testBit_and, Nat.zero_testBit] at h6
  rw [hx, hm p hp _ (by omega), decide_eq_true (by omega)] at h6
  exact absurd h6 (by simp)

end LdpcCode
end Sia
