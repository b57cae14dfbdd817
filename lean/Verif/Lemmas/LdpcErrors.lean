import Verif.Lemmas.LdpcLanes

/-! Error words with one and two wrong bits: rotated so that the first is the first bit of its block, one lane for each place of the
second in its block. -/
namespace Sia
namespace LdpcCode

/-- The number `m` in `L` lanes of `w` bits. -/
def lanesOf (w m : Nat) : Nat → Nat
  | 0 => 0
  | L + 1 => lanesOf w m L ||| (m <<< (w * L))

theorem lanesOf_testBit (w m L x : Nat) :
    (lanesOf w m L).testBit x = true ↔ ∃ p < L, w * p ≤ x ∧ m.testBit (x - w * p) = true := by
  induction L with
  | zero => simp [lanesOf]
  | succ L ih =>
    rw [lanesOf, Nat.testBit_or, Bool.or_eq_true, ih, Nat.testBit_shiftLeft, Bool.and_eq_true, decide_eq_true_eq]
    constructor
    · rintro (⟨p, hp, h⟩ | h)
      · exact ⟨p, by omega, h⟩
      · exact ⟨L, by omega, h⟩
    · rintro ⟨p, hp, h⟩
      rcases Nat.lt_succ_iff_lt_or_eq.1 hp with h' | rfl
      · exact .inl ⟨p, h', h⟩
      · exact .inr h

theorem lanesOf_lane (w m L p x : Nat) (hm : m < 2 ^ w) (hp : p < L) (hx : x < w) :
    (lanesOf w m L).testBit (w * p + x) = m.testBit x := by
  rw [Bool.eq_iff_iff, lanesOf_testBit]
  constructor
  · rintro ⟨p', -, h1, h2⟩
    rcases lt_trichotomy p' p with h | rfl | h
    · obtain ⟨d, rfl⟩ : ∃ d, p = p' + 1 + d := ⟨p - p' - 1, by omega⟩
      rw [show w * (p' + 1 + d) + x - w * p' = w + (w * d + x) by rw [Nat.mul_add, Nat.mul_add, Nat.mul_one]; omega,
        Nat.testBit_lt_two_pow (lt_of_lt_of_le hm (Nat.pow_le_pow_right (by decide) (by omega)))] at h2
      exact absurd h2 (by simp)
    · rwa [Nat.add_sub_cancel_left] at h2
    · obtain ⟨d, rfl⟩ : ∃ d, p' = p + 1 + d := ⟨p' - p - 1, by omega⟩
      rw [Nat.mul_add, Nat.mul_add, Nat.mul_one] at h1
      omega
  · intro h
    exact ⟨p, hp, by omega, by rwa [Nat.add_sub_cancel_left]⟩

/-- The lower halves of the lanes. -/
def maskOf (q L : Nat) : Nat := lanesOf (2 * q) (2 ^ q - 1) L

theorem maskOf_spec (q L : Nat) : LaneMask q L (maskOf q L) := by
  intro p hp x hx
  unfold maskOf
  rw [lanesOf_lane _ _ _ _ _ _ hp hx, Nat.testBit_two_pow_sub_one]
  have : 2 ^ q ≤ 2 ^ (2 * q) := Nat.pow_le_pow_right (by decide) (by omega)
  have := Nat.two_pow_pos q
  omega

/-- The first bit of the block in every lane. -/
def firstBits (q L : Nat) : Nat := lanesOf (2 * q) (2 ^ (q - 1)) L

theorem firstBits_testBit (q L p j : Nat) (hp : p < L) (hj : j < q) :
    (firstBits q L).testBit (2 * q * p + (q - 1 - j)) = (j == 0) := by
  unfold firstBits
  rw [lanesOf_lane _ _ _ _ _ (Nat.pow_lt_pow_right (by decide) (by omega)) hp (by omega), top_testBit q j hj]

/-- Bit `p` of the block in lane `p`. -/
def diagonal (q : Nat) : Nat := lanesOf (2 * q - 1) (2 ^ (q - 1)) q

theorem diagonal_testBit (q p j : Nat) (hp : p < q) (hj : j < q) : (diagonal q).testBit (2 * q * p + (q - 1 - j)) = (j == p) := by
  unfold diagonal
  have e : ∀ x, 2 * q * x = (2 * q - 1) * x + x := by
    intro x
    obtain ⟨r, hr⟩ : ∃ r, 2 * q = r + 1 := ⟨2 * q - 1, by omega⟩
    rw [hr, Nat.add_sub_cancel, Nat.add_mul, Nat.one_mul]
  rw [Bool.eq_iff_iff, lanesOf_testBit, beq_iff_eq, e]
  constructor
  · rintro ⟨p', hp', h1, h2⟩
    rw [Nat.testBit_two_pow, decide_eq_true_eq] at h2
    rcases lt_trichotomy p' p with h | rfl | h
    · obtain ⟨d, rfl⟩ : ∃ d, p = p' + 1 + d := ⟨p - p' - 1, by omega⟩
      rw [Nat.mul_add, Nat.mul_add, Nat.mul_one] at h2
      omega
    · omega
    · obtain ⟨d, rfl⟩ : ∃ d, p' = p + 1 + d := ⟨p' - p - 1, by omega⟩
      rw [Nat.mul_add, Nat.mul_add, Nat.mul_one] at h1 h2
      omega
  · rintro rfl
    refine ⟨j, hj, by omega, ?_⟩
    rw [Nat.testBit_two_pow, decide_eq_true_eq]
    omega

/-- The word with the single bit `t`. -/
def unit (t v : Nat) : Bool := v == t

variable (c : LdpcCode)

/-- Error words with the first bit of block `b` and, in lane `p`, bit `p` of block `b'`. -/
def pairLanes (b b' : Nat) : List Nat :=
  (List.range (c.n / c.circulant)).map fun i =>
    (if i = b then firstBits c.circulant c.circulant else 0) ^^^ (if i = b' then diagonal c.circulant else 0)

theorem unit_index (b t i j : Nat) (ht : t < c.circulant) (hj : j < c.circulant) :
    unit (b * c.circulant + t) (i * c.circulant + j) = (decide (i = b) && (j == t)) := by
  unfold unit
  rw [Bool.eq_iff_iff, beq_iff_eq, c.index_eq hj ht]
  simp

theorem pairLanes_agree (b b' : Nat) :
    c.AgreeLanes (c.n / c.circulant) c.circulant
      (fun p => xorWord (unit (b * c.circulant)) (unit (b' * c.circulant + p))) (c.pairLanes b b') := by
  intro p hp i hi j hj
  have e1 : (c.pairLanes b b').getD i 0 =
      (if i = b then firstBits c.circulant c.circulant else 0) ^^^ (if i = b' then diagonal c.circulant else 0) := by
    unfold pairLanes
    rw [List.getD_eq_getElem _ _ (by simpa using hi), List.getElem_map, List.getElem_range]
  have e2 := c.unit_index b 0 i j c.circulant_pos hj
  rw [Nat.add_zero] at e2
  unfold xorWord
  beta_reduce
  rw [e1, Nat.testBit_xor, e2, c.unit_index _ _ _ _ hp hj]
  congr 1
  · by_cases h : i = b
    · rw [if_pos h, firstBits_testBit _ _ _ _ hp hj, decide_eq_true h, Bool.true_and]
    · rw [if_neg h, Nat.zero_testBit, decide_eq_false h, Bool.false_and]
  · by_cases h : i = b'
    · rw [if_pos h, diagonal_testBit _ _ _ hp hj, decide_eq_true h, Bool.true_and]
    · rw [if_neg h, Nat.zero_testBit, decide_eq_false h, Bool.false_and]

/-- The logarithm of the block size. -/
def lg : LdpcCode → Nat
  | .TC128 => 4 | .TC256 => 5 | .TC512 => 6 | .TM2048 => 7 | .TM8192 => 9

theorem two_pow_lg : 2 ^ c.lg = c.circulant := by cases c <;> rfl

/-- `rowsOf`, written out. -/
def rowTable : LdpcCode → List (List (Nat × Nat))
  | .TC128 =>
      [[(0, 0), (0, 7), (1, 2), (2, 14), (3, 6), (5, 0), (6, 13), (7, 0)], [(0, 6), (1, 0), (1, 15), (2, 0), (3, 1), (4, 0), (6,
      0), (7, 7)], [(0, 4), (1, 1), (2, 0), (2, 15), (3, 14), (4, 11), (5, 0), (7, 3)], [(0, 0), (1, 1), (2, 9), (3, 0), (3, 13),
      (4, 14), (5, 1), (6, 0)]]
  | .TC256 =>
      [[(0, 0), (0, 31), (1, 15), (2, 25), (3, 0), (5, 20), (6, 12), (7, 0)], [(0, 28), (1, 0), (1, 30), (2, 29), (3, 24), (4, 0),
      (6, 1), (7, 20)], [(0, 8), (1, 0), (2, 0), (2, 28), (3, 1), (4, 29), (5, 0), (7, 21)], [(0, 18), (1, 30), (2, 0), (3, 0),
      (3, 30), (4, 25), (5, 26), (6, 0)]]
  | .TC512 =>
      [[(0, 0), (0, 63), (1, 30), (2, 50), (3, 25), (5, 43), (6, 62), (7, 0)], [(0, 56), (1, 0), (1, 61), (2, 50), (3, 23), (4,
      0), (6, 37), (7, 26)], [(0, 16), (1, 0), (2, 0), (2, 55), (3, 27), (4, 56), (5, 0), (7, 43)], [(0, 35), (1, 56), (2, 62),
      (3, 0), (3, 11), (4, 58), (5, 3), (6, 0)]]
  | .TM2048 =>
      [[(8, 0), (16, 0), (19, 16)], [(9, 0), (16, 0), (17, 0)], [(10, 0), (17, 0), (18, 0)], [(11, 0), (18, 0), (19, 0)], [(0, 0),
      (4, 0), (12, 0), (16, 103), (17, 105), (18, 0)], [(1, 0), (5, 0), (13, 0), (17, 53), (18, 74), (19, 45)], [(2, 0), (6, 0),
      (14, 0), (16, 89), (18, 8), (19, 119)], [(3, 0), (7, 0), (15, 0), (16, 97), (17, 112), (19, 35)], [(0, 0), (6, 50), (7, 29),
      (12, 115), (13, 30), (16, 0)], [(1, 0), (4, 0), (7, 47), (13, 59), (14, 102), (17, 0)], [(2, 0), (4, 31), (5, 122), (14, 1),
      (15, 69), (18, 0)], [(3, 0), (5, 64), (6, 93), (12, 94), (15, 99), (19, 0)]]
  | .TM8192 =>
      [[(8, 0), (16, 0), (19, 108)], [(9, 0), (16, 0), (17, 0)], [(10, 0), (17, 0), (18, 0)], [(11, 0), (18, 0), (19, 0)], [(0,
      0), (4, 0), (12, 0), (16, 126), (17, 238), (18, 481)], [(1, 0), (5, 0), (13, 0), (17, 375), (18, 436), (19, 350)], [(2, 0),
      (6, 0), (14, 0), (16, 263), (18, 219), (19, 16)], [(3, 0), (7, 0), (15, 0), (16, 503), (17, 388), (19, 312)], [(0, 0), (6,
      96), (7, 28), (12, 59), (13, 225), (16, 0)], [(1, 0), (4, 84), (7, 260), (13, 318), (14, 382), (17, 0)], [(2, 0), (4, 415),
      (5, 403), (14, 184), (15, 279), (18, 0)], [(3, 0), (5, 48), (6, 7), (12, 328), (15, 185), (19, 0)]]

/-- `columnsOf`, written out. -/
def columnTable : LdpcCode → List (List (Nat × Nat))
  | .TC128 =>
      [[(0, 0), (0, 7), (1, 6), (2, 4), (3, 0)], [(0, 2), (1, 0), (1, 15), (2, 1), (3, 1)], [(0, 14), (1, 0), (2, 0), (2, 15), (3,
      9)], [(0, 6), (1, 1), (2, 14), (3, 0), (3, 13)], [(1, 0), (2, 11), (3, 14)], [(0, 0), (2, 0), (3, 1)], [(0, 13), (1, 0), (3,
      0)], [(0, 0), (1, 7), (2, 3)]]
  | .TC256 =>
      [[(0, 0), (0, 31), (1, 28), (2, 8), (3, 18)], [(0, 15), (1, 0), (1, 30), (2, 0), (3, 30)], [(0, 25), (1, 29), (2, 0), (2,
      28), (3, 0)], [(0, 0), (1, 24), (2, 1), (3, 0), (3, 30)], [(1, 0), (2, 29), (3, 25)], [(0, 20), (2, 0), (3, 26)], [(0, 12),
      (1, 1), (3, 0)], [(0, 0), (1, 20), (2, 21)]]
  | .TC512 =>
      [[(0, 0), (0, 63), (1, 56), (2, 16), (3, 35)], [(0, 30), (1, 0), (1, 61), (2, 0), (3, 56)], [(0, 50), (1, 50), (2, 0), (2,
      55), (3, 62)], [(0, 25), (1, 23), (2, 27), (3, 0), (3, 11)], [(1, 0), (2, 56), (3, 58)], [(0, 43), (2, 0), (3, 3)], [(0,
      62), (1, 37), (3, 0)], [(0, 0), (1, 26), (2, 43)]]
  | .TM2048 =>
      [[(4, 0), (8, 0)], [(5, 0), (9, 0)], [(6, 0), (10, 0)], [(7, 0), (11, 0)], [(4, 0), (9, 0), (10, 31)], [(5, 0), (10, 122),
      (11, 64)], [(6, 0), (8, 50), (11, 93)], [(7, 0), (8, 29), (9, 47)], [(0, 0)], [(1, 0)], [(2, 0)], [(3, 0)], [(4, 0), (8,
      115), (11, 94)], [(5, 0), (8, 30), (9, 59)], [(6, 0), (9, 102), (10, 1)], [(7, 0), (10, 69), (11, 99)], [(0, 0), (1, 0), (4,
      103), (6, 89), (7, 97), (8, 0)], [(1, 0), (2, 0), (4, 105), (5, 53), (7, 112), (9, 0)], [(2, 0), (3, 0), (4, 0), (5, 74),
      (6, 8), (10, 0)], [(0, 16), (3, 0), (5, 45), (6, 119), (7, 35), (11, 0)]]
  | .TM8192 =>
      [[(4, 0), (8, 0)], [(5, 0), (9, 0)], [(6, 0), (10, 0)], [(7, 0), (11, 0)], [(4, 0), (9, 84), (10, 415)], [(5, 0), (10, 403),
      (11, 48)], [(6, 0), (8, 96), (11, 7)], [(7, 0), (8, 28), (9, 260)], [(0, 0)], [(1, 0)], [(2, 0)], [(3, 0)], [(4, 0), (8,
      59), (11, 328)], [(5, 0), (8, 225), (9, 318)], [(6, 0), (9, 382), (10, 184)], [(7, 0), (10, 279), (11, 185)], [(0, 0), (1,
      0), (4, 126), (6, 263), (7, 503), (8, 0)], [(1, 0), (2, 0), (4, 238), (5, 375), (7, 388), (9, 0)], [(2, 0), (3, 0), (4,
      481), (5, 436), (6, 219), (10, 0)], [(0, 108), (3, 0), (5, 350), (6, 16), (7, 312), (11, 0)]]

theorem rowTable_eq : ∀ c : LdpcCode, c.rowsOf = c.rowTable := by
  intro c
  cases c <;> decide +kernel

theorem columnTable_eq : ∀ c : LdpcCode, c.columnsOf = c.columnTable := by
  intro c
  cases c <;> decide +kernel

/-! The same evaluation, in the form the kernel is fastest with: recursors, the operations of `Nat` it has built in, and results passed on
evaluated. -/

/-- `k x`, evaluating `x` first (the kernel substitutes arguments unevaluated). -/
noncomputable def forceF {α : Type} (x : Nat) (k : Nat → α) : α := @Nat.rec (fun _ => α) (k 0) (fun n _ => k (Nat.succ n)) x

/-- `k l`, evaluating the members of `l` first. -/
noncomputable def forceListF {α : Type} (l : List Nat) : (List Nat → α) → α :=
  @List.rec Nat (fun _ => (List Nat → α) → α) (fun k => k []) (fun x _ ih k => forceF x fun y => ih fun ys => k (y :: ys)) l

/-- `k T`, evaluating the numbers in `T` first. -/
noncomputable def forceListsF {α : Type} (l : List (List Nat)) : (List (List Nat) → α) → α :=
  @List.rec (List Nat) (fun _ => (List (List Nat) → α) → α) (fun k => k [])
    (fun x _ ih k => forceListF x fun y => ih fun ys => k (y :: ys)) l

theorem forceF_eq {α : Type} (x : Nat) (k : Nat → α) : forceF x k = k x := by cases x <;> rfl

theorem forceListF_eq {α : Type} (l : List Nat) (k : List Nat → α) : forceListF l k = k l := by
  induction l generalizing k with
  | nil => rfl
  | cons x xs ih =>
    have : forceListF (x :: xs) k = forceF x fun y => forceListF xs fun ys => k (y :: ys) := rfl
    rw [this, forceF_eq, ih]

theorem forceListsF_eq {α : Type} (T : List (List Nat)) (k : List (List Nat) → α) : forceListsF T k = k T := by
  induction T generalizing k with
  | nil => rfl
  | cons x xs ih =>
    have : forceListsF (x :: xs) k = forceListF x fun y => forceListsF xs fun ys => k (y :: ys) := rfl
    rw [this, forceListF_eq, ih]

/-- `getD`. -/
noncomputable def nthF (W : List Nat) : Nat → Nat :=
  @List.rec Nat (fun _ => Nat → Nat) (fun _ => 0) (fun x _ ih i => @Nat.rec (fun _ => Nat) x (fun n _ => ih n) i) W

theorem nthF_eq (W : List Nat) (i : Nat) : nthF W i = W.getD i 0 := by
  induction W generalizing i with
  | nil => simp [nthF]
  | cons x xs ih =>
    cases i with
    | zero => rfl
    | succ n =>
      rw [List.getD_cons_succ, ← ih]
      rfl

/-- `List.map`. -/
noncomputable def mapF {α β : Type} (f : α → β) (l : List α) : List β := @List.rec α (fun _ => List β) [] (fun x _ ih => f x :: ih) l

theorem mapF_eq {α β : Type} (f : α → β) (l : List α) : mapF f l = l.map f := by
  induction l with
  | nil => rfl
  | cons x xs ih =>
    rw [List.map_cons, ← ih]
    rfl

/-- `rotLanes`. -/
def rotF (q mask f m : Nat) : Nat := (fun s => Nat.lor s (Nat.shiftRight s q)) (Nat.shiftLeft (Nat.land m mask) f)

theorem rotF_eq (q mask f m : Nat) : rotF q mask f m = rotLanes q mask f m := rfl

/-- `syndromeLanes`. -/
noncomputable def syndromeF (q mask : Nat) (W : List Nat) (es : List (Nat × Nat)) : Nat :=
  @List.rec (Nat × Nat) (fun _ => Nat) 0 (fun e _ ih => Nat.xor (rotF q mask e.2 (nthF W e.1)) ih) es

theorem syndromeF_eq (q mask : Nat) (W : List Nat) (es : List (Nat × Nat)) : syndromeF q mask W es = syndromeLanes q mask W es := by
  induction es with
  | nil => rfl
  | cons e es ih =>
    rw [syndromeLanes, ← ih, ← nthF_eq]
    rfl

/-- `bumpLanes`. -/
noncomputable def bumpF (m p : Nat) (ts : List Nat) : List Nat :=
  @List.rec Nat (fun _ => Nat → List Nat) (fun p => [Nat.land p m]) (fun t _ ih p => Nat.lor t (Nat.land p m) :: ih t) ts p

theorem bumpF_eq (m p : Nat) (ts : List Nat) : bumpF m p ts = bumpLanes m p ts := by
  induction ts generalizing p with
  | nil => rfl
  | cons t ts ih =>
    rw [bumpLanes, ← ih]
    rfl

/-- `countLanes`. -/
noncomputable def countF (q mask : Nat) (S : List Nat) (es : List (Nat × Nat)) : List Nat :=
  @List.rec (Nat × Nat) (fun _ => List Nat) [] (fun e _ ih => bumpF (rotF q mask (Nat.sub q e.2) (nthF S e.1)) mask ih) es

theorem countF_eq (q mask : Nat) (S : List Nat) (es : List (Nat × Nat)) : countF q mask S es = countLanes q mask S es := by
  induction es with
  | nil => rfl
  | cons e es ih =>
    rw [countLanes, ← ih, ← nthF_eq, ← bumpF_eq]
    rfl

/-- `unionLevel`. -/
noncomputable def unionF (l : Nat) (T : List (List Nat)) : Nat :=
  @List.rec (List Nat) (fun _ => Nat) 0 (fun ts _ ih => Nat.lor (nthF ts l) ih) T

theorem unionF_eq (l : Nat) (T : List (List Nat)) : unionF l T = unionLevel l T := by
  induction T with
  | nil => rfl
  | cons ts T ih =>
    rw [unionLevel, ← ih, ← nthF_eq]
    rfl

/-- `spread`. -/
noncomputable def spreadF (q mask i m : Nat) : Nat :=
  @Nat.rec (fun _ => Nat) m (fun i ih => Nat.lor ih (rotF q mask (Nat.pow 2 i) ih)) i

theorem spreadF_eq (q mask i m : Nat) : spreadF q mask i m = spread q mask i m := by
  induction i with
  | zero => rfl
  | succ i ih =>
    rw [spread, ← ih]
    rfl

/-- `chosen`. -/
noncomputable def chosenF (ts gs : List Nat) : Nat :=
  @List.rec Nat (fun _ => List Nat → Nat) (fun _ => 0)
    (fun t _ ih gs => @List.casesOn Nat (fun _ => Nat) gs 0 (fun g gs => Nat.lor (Nat.land t g) (ih gs))) ts gs

theorem chosenF_eq (ts gs : List Nat) : chosenF ts gs = chosen ts gs := by
  induction ts generalizing gs with
  | nil => cases gs <;> rfl
  | cons t ts ih =>
    cases gs with
    | nil => rfl
    | cons g gs =>
      rw [chosen, ← ih]
      rfl

/-- `atLevel`. -/
noncomputable def atLevelF (q lg mask : Nat) (T : List (List Nat)) : List Nat :=
  mapF (fun l => Nat.xor (spreadF q mask lg (unionF l T)) (spreadF q mask lg (unionF (Nat.succ l) T))) [0, 1, 2, 3, 4, 5]

theorem atLevelF_eq (q lg mask : Nat) (T : List (List Nat)) : atLevelF q lg mask T = atLevel q lg mask T := by
  unfold atLevelF atLevel
  rw [mapF_eq]
  refine List.map_congr_left fun l _ => ?_
  rw [spreadF_eq, spreadF_eq, unionF_eq, unionF_eq]
  rfl

/-- The bits of a block are flipped. -/
noncomputable def zipF (W : List Nat) (T : List (List Nat)) (G : List Nat) : List Nat :=
  @List.rec Nat (fun _ => List (List Nat) → List Nat) (fun _ => [])
    (fun m _ ih T => @List.casesOn (List Nat) (fun _ => List Nat) T [] (fun ts T => Nat.xor m (chosenF ts G) :: ih T)) W T

theorem zipF_eq (W : List Nat) (T : List (List Nat)) (G : List Nat) :
    zipF W T G = List.zipWith (fun m ts => m ^^^ chosen ts G) W T := by
  induction W generalizing T with
  | nil => rfl
  | cons m W ih =>
    cases T with
    | nil => rfl
    | cons ts T =>
      rw [List.zipWith_cons_cons, ← ih, ← chosenF_eq]
      rfl

/-- `runLanes`. -/
noncomputable def runF (q lg mask : Nat) (rows columns : List (List (Nat × Nat))) (n : Nat) : List Nat → List Nat :=
  @Nat.rec (fun _ => List Nat → List Nat) (fun W => W) (fun _ ih W =>
    forceListF (mapF (syndromeF q mask W) rows) fun S =>
    forceListsF (mapF (countF q mask S) columns) fun T =>
    @Bool.rec (fun _ => List Nat) (forceListF (atLevelF q lg mask T) fun G => forceListF (zipF W T G) ih) W
      (Nat.beq (Nat.land (unionF 0 T) mask) 0)) n

theorem runF_eq (q lg mask : Nat) (rows columns : List (List (Nat × Nat))) (n : Nat) (W : List Nat) :
    runF q lg mask rows columns n W = runLanes q lg mask rows columns n W := by
  induction n generalizing W with
  | zero => rfl
  | succ n ih =>
    have e : runF q lg mask rows columns (n + 1) W =
        forceListF (mapF (syndromeF q mask W) rows) fun S =>
        forceListsF (mapF (countF q mask S) columns) fun T =>
        @Bool.rec (fun _ => List Nat)
          (forceListF (atLevelF q lg mask T) fun G => forceListF (zipF W T G) (runF q lg mask rows columns n)) W
          (Nat.beq (Nat.land (unionF 0 T) mask) 0) := rfl
    rw [e, forceListF_eq, forceListsF_eq, runLanes, mapF_eq, mapF_eq, List.map_congr_left fun es _ => syndromeF_eq q mask W es,
      List.map_congr_left fun es _ => countF_eq q mask (rows.map (syndromeLanes q mask W)) es]
    dsimp only
    rw [forceListF_eq, forceListF_eq, atLevelF_eq, zipF_eq, ih, unionF_eq]
    generalize columns.map (countLanes q mask (rows.map (syndromeLanes q mask W))) = T
    have e2 : Nat.land (unionLevel 0 T) mask = unionLevel 0 T &&& mask := rfl
    rw [e2]
    split_ifs with h
    · rw [h]
      rfl
    · have h2 : Nat.beq (unionLevel 0 T &&& mask) 0 = false := by
        rw [← Bool.not_eq_true]
        exact fun hx => h (Nat.eq_of_beq_eq_true hx)
      rw [h2]

/-- The decoder clears all lanes. -/
noncomputable def clearsTest (c : LdpcCode) (L : Nat) (W : List Nat) : Bool :=
  forceF (maskOf c.circulant L) fun mask =>
  forceListF W fun W =>
  forceListF (fillLanes c.circulant mask c.rowTable W) fun W =>
  clearedLanes mask (c.k / c.circulant) (runF c.circulant c.lg mask c.rowTable c.columnTable 20 W)

theorem clears_of_test {L : Nat} {e : Nat → Nat → Bool} {W : List Nat} (h : c.AgreeLanes (c.n / c.circulant) L e W)
    (hW : W.length = c.n / c.circulant) (ht : c.clearsTest L W = true) : ∀ p < L, c.Clears (e p) := by
  refine clears_of_lanes (maskOf_spec c.circulant L) c.lg c.two_pow_lg h hW ?_
  unfold clearsTest at ht
  rw [forceF_eq, forceListF_eq, forceListF_eq, runF_eq, ← rowTable_eq, ← columnTable_eq] at ht
  exact ht

/-- The decoder clears the error words of `pairLanes`. -/
noncomputable def pairTest (b b' : Nat) : Bool := c.clearsTest c.circulant (c.pairLanes b b')

theorem clears_first_pair (b b' t : Nat) (ht : t < c.circulant) (h : c.pairTest b b' = true) :
    c.Clears (xorWord (unit (b * c.circulant)) (unit (b' * c.circulant + t))) :=
  c.clears_of_test (c.pairLanes_agree b b') (by simp [pairLanes]) h t ht

/-- The error word with the first bit of block `b`. -/
def singleLanes (b : Nat) : List Nat :=
  (List.range (c.n / c.circulant)).map fun i => if i = b then firstBits c.circulant 1 else 0

theorem singleLanes_agree (b : Nat) :
    c.AgreeLanes (c.n / c.circulant) 1 (fun _ => unit (b * c.circulant)) (c.singleLanes b) := by
  intro p hp i hi j hj
  have e1 : (c.singleLanes b).getD i 0 = if i = b then firstBits c.circulant 1 else 0 := by
    unfold singleLanes
    rw [List.getD_eq_getElem _ _ (by simpa using hi), List.getElem_map, List.getElem_range]
  have e2 := c.unit_index b 0 i j c.circulant_pos hj
  rw [Nat.add_zero] at e2
  beta_reduce
  rw [e1, e2]
  by_cases h : i = b
  · rw [if_pos h, firstBits_testBit _ _ _ _ hp hj, decide_eq_true h, Bool.true_and]
  · rw [if_neg h, Nat.zero_testBit, decide_eq_false h, Bool.false_and]

/-- The decoder clears the error word of `singleLanes`. -/
noncomputable def singleTest (b : Nat) : Bool := c.clearsTest 1 (c.singleLanes b)

theorem singleTest_all : ∀ c : LdpcCode, ∀ b < c.n / c.circulant, c.singleTest b = true := by
  intro c
  cases c <;> decide +kernel

theorem clears_first (b : Nat) (hb : b < c.n / c.circulant) : c.Clears (unit (b * c.circulant)) :=
  c.clears_of_test (c.singleLanes_agree b) (by simp [singleLanes]) (singleTest_all c b hb) 0 (by decide)

theorem unit_rot (b t s : Nat) (ht : t < c.circulant) (hs : s < c.circulant) :
    unit (b * c.circulant + (t + s) % c.circulant) = c.rot (c.circulant - s) (unit (b * c.circulant + t)) := by
  funext v
  unfold rot
  have hm := Nat.mod_lt v c.circulant_pos
  conv_lhs => rw [c.split_index v]
  rw [c.unit_index _ _ _ _ (Nat.mod_lt _ c.circulant_pos) hm, c.unit_index _ _ _ _ ht (Nat.mod_lt _ c.circulant_pos)]
  congr 1
  generalize v % c.circulant = j at *
  generalize c.circulant = q at *
  rw [Bool.eq_iff_iff, beq_iff_eq, beq_iff_eq]
  rcases lt_or_ge (t + s) q with h | h
  · rw [Nat.mod_eq_of_lt h]
    rcases lt_or_ge (j + (q - s)) q with h' | h'
    · rw [Nat.mod_eq_of_lt h']; omega
    · rw [Nat.mod_eq_sub_mod h', Nat.mod_eq_of_lt (by omega)]; omega
  · rw [Nat.mod_eq_sub_mod h, Nat.mod_eq_of_lt (by omega)]
    rcases lt_or_ge (j + (q - s)) q with h' | h'
    · rw [Nat.mod_eq_of_lt h']; omega
    · rw [Nat.mod_eq_sub_mod h', Nat.mod_eq_of_lt (by omega)]; omega

theorem block_lt {u : Nat} (hu : u < c.n) : u / c.circulant < c.n / c.circulant := by
  refine Nat.div_lt_of_lt_mul ?_
  rw [c.n_eq, Nat.mul_comm] at hu
  exact hu

theorem clears_unit (u : Nat) (hu : u < c.n) : c.Clears (unit u) := by
  have h := c.clears_rot (c.circulant - u % c.circulant) (c.clears_first _ (c.block_lt hu))
  have e := c.unit_rot (u / c.circulant) 0 (u % c.circulant) c.circulant_pos (Nat.mod_lt _ c.circulant_pos)
  rw [Nat.zero_add, Nat.mod_mod, Nat.add_zero, ← c.split_index u] at e
  rw [e]
  exact h

theorem rot_xor (s : Nat) (a b : Nat → Bool) : c.rot s (xorWord a b) = xorWord (c.rot s a) (c.rot s b) := rfl

theorem clears_pair_le (hT : ∀ b' < c.n / c.circulant, ∀ b ≤ b', c.pairTest b b' = true) (u v : Nat) (hv : v < c.n)
    (hle : u / c.circulant ≤ v / c.circulant) : c.Clears (xorWord (unit u) (unit v)) := by
  have hu := Nat.mod_lt u c.circulant_pos
  have hv' := Nat.mod_lt v c.circulant_pos
  have h := c.clears_rot (c.circulant - u % c.circulant)
    (c.clears_first_pair (u / c.circulant) (v / c.circulant) ((v % c.circulant + c.circulant - u % c.circulant) % c.circulant)
      (Nat.mod_lt _ c.circulant_pos) (hT _ (c.block_lt hv) _ hle))
  have e := c.unit_rot (u / c.circulant) 0 (u % c.circulant) c.circulant_pos hu
  rw [Nat.zero_add, Nat.mod_mod, Nat.add_zero, ← c.split_index u] at e
  have e2 := c.unit_rot (v / c.circulant) ((v % c.circulant + c.circulant - u % c.circulant) % c.circulant) (u % c.circulant)
    (Nat.mod_lt _ c.circulant_pos) hu
  have e3 : ((v % c.circulant + c.circulant - u % c.circulant) % c.circulant + u % c.circulant) % c.circulant = v % c.circulant := by
    rw [Nat.mod_add_mod, Nat.sub_add_cancel (by omega), Nat.add_mod_right, Nat.mod_mod]
  rw [e3, ← c.split_index v] at e2
  rw [rot_xor, ← e, ← e2] at h
  exact h

theorem clears_pair (hT : ∀ b' < c.n / c.circulant, ∀ b ≤ b', c.pairTest b b' = true) (u v : Nat) (hu : u < c.n) (hv : v < c.n) :
    c.Clears (xorWord (unit u) (unit v)) := by
  rcases le_total (u / c.circulant) (v / c.circulant) with h | h
  · exact c.clears_pair_le hT u v hv h
  · have := c.clears_pair_le hT v u hu h
    rwa [show xorWord (unit u) (unit v) = xorWord (unit v) (unit u) from funext fun x => Bool.xor_comm _ _]

end LdpcCode
end Sia
