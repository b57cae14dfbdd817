import Verif.Lemmas.LdpcFill

/-! Code words satisfy the checks; bytes and bits; from error words to `CorrectsBits`. -/
namespace Sia
namespace LdpcCode

/-- The matrix by rows. -/
def rowsOf (c : LdpcCode) : List (List (Nat × Nat)) := (List.range c.matrix.length).map c.entries
/-- The matrix by columns. -/
def columnsOf (c : LdpcCode) : List (List (Nat × Nat)) := (List.range c.blocks).map c.column

theorem tables (c : LdpcCode) : Tables c c.rowsOf c.columnsOf := by
  refine ⟨rfl, rfl, ?_, ?_⟩
  · cases c <;> decide +kernel
  · cases c <;> decide +kernel

/-! ### Code words -/

/-- The code word of the data word with the single bit `t`. -/
def basisWord (c : LdpcCode) (t v : Nat) : Bool := if v < c.k then v == t else c.generatorBit t v

/-- The sum of the first code words of a data word. -/
def sumWord (c : LdpcCode) (data : Nat → Bool) (m v : Nat) : Bool :=
  (List.range m).countP (fun t => data t && c.basisWord t v) % 2 == 1

theorem sumWord_succ (c : LdpcCode) (data : Nat → Bool) (m : Nat) :
    c.sumWord data (m + 1) = xorWord (c.sumWord data m) (fun v => data m && c.basisWord m v) := by
  funext v
  unfold sumWord xorWord
  rw [List.range_succ, List.countP_append, List.countP_singleton]
  dsimp only
  generalize (List.range m).countP (fun t => data t && c.basisWord t v) = x
  rcases Bool.eq_false_or_eq_true (data m && c.basisWord m v) with h0 | h0 <;> rw [h0]
  · rcases Nat.mod_two_eq_zero_or_one x with h | h <;> simp [Nat.add_mod, h]
  · simp

theorem codeWord_eq (c : LdpcCode) (data : Nat → Bool) : c.codeWord data = c.sumWord data c.k := by
  funext v
  unfold codeWord sumWord basisWord
  split_ifs with h
  · have e : (List.range c.k).countP (fun t => data t && v == t) = if data v then 1 else 0 := by
      cases hd : data v
      · rw [if_neg (by simp), List.countP_eq_zero]
        intro t _ ht
        simp only [Bool.and_eq_true, beq_iff_eq] at ht
        obtain ⟨h1, rfl⟩ := ht
        rw [hd] at h1
        exact absurd h1 (by simp)
      · rw [if_pos rfl, List.countP_eq_length_filter, filter_eq_single c.k v h _ (fun i _ => ?_)]
        · rfl
        · simp only [Bool.and_eq_true, beq_iff_eq]
          exact ⟨fun h => h.2.symm, fun h => by subst h; exact ⟨hd, rfl⟩⟩
    rw [e]
    cases data v <;> rfl
  · rfl

/-- The punctured bits make the word satisfy every check. -/
def Good (c : LdpcCode) (w : Nat → Bool) : Prop := c.Satisfies (c.fill w)

theorem good_xor (c : LdpcCode) {a b : Nat → Bool} (ha : c.Good a) (hb : c.Good b) : c.Good (xorWord a b) := by
  intro l hl
  rw [fill_xor, violated_xor, ha l hl, hb l hl]
  rfl

theorem satisfies_rot (c : LdpcCode) (s : Nat) {w : Nat → Bool} (h : c.Satisfies w) : c.Satisfies (c.rot s w) := by
  intro l hl
  unfold checks at hl
  obtain ⟨r, hr, hl⟩ := List.mem_flatMap.1 hl
  obtain ⟨i, hi, rfl⟩ := List.mem_map.1 hl
  rw [violated_rot]
  exact h _ (List.mem_flatMap.2 ⟨r, hr, List.mem_map.2 ⟨_, List.mem_range.2 (Nat.mod_lt _ c.circulant_pos), rfl⟩⟩)

theorem good_rot (c : LdpcCode) (s : Nat) {w : Nat → Bool} (h : c.Good w) : c.Good (c.rot s w) := by
  unfold Good
  rw [fill_rot]
  exact c.satisfies_rot s h

theorem violated_zero (l : List Nat) : violated (fun _ => false) l = false := by
  unfold violated
  rw [List.countP_eq_zero.2 (by simp)]
  rfl

theorem fill_zero (c : LdpcCode) : c.fill (fun _ => false) = fun _ => false := by
  funext v
  unfold fill
  split_ifs
  · rfl
  · cases c.determining v with
    | nil => rfl
    | cons l _ =>
      simp

theorem good_zero (c : LdpcCode) : c.Good (fun _ => false) := by
  intro l _
  rw [fill_zero]
  exact violated_zero l

/-- The numbers of a basis code word. -/
def basisMasks (c : LdpcCode) (d : Nat) : List Nat :=
  (List.range (c.n / c.circulant)).map fun b =>
    if b < c.k / c.circulant then (if b = d then 2 ^ (c.circulant - 1) else 0)
    else (c.generator.getD d []).getD (b - c.k / c.circulant) 0

theorem top_testBit (q j : Nat) (hj : j < q) : (2 ^ (q - 1)).testBit (q - 1 - j) = (j == 0) := by
  rw [Nat.testBit_two_pow, Bool.eq_iff_iff, beq_iff_eq, decide_eq_true_eq]
  omega

theorem index_lt (c : LdpcCode) (m b x : Nat) (hx : x < c.circulant) : b * c.circulant + x < m * c.circulant ↔ b < m := by
  rw [← not_le, c.le_index _ _ _ hx, not_le]

theorem index_div' (c : LdpcCode) (b x : Nat) (hx : x < c.circulant) : (b * c.circulant + x) / c.circulant = b := by
  have := c.index_div b x
  rwa [Nat.mod_eq_of_lt hx] at this

theorem index_mod' (c : LdpcCode) (b x : Nat) (hx : x < c.circulant) : (b * c.circulant + x) % c.circulant = x := by
  have := c.index_mod b x
  rwa [Nat.mod_eq_of_lt hx] at this

theorem basis_agree (c : LdpcCode) (d : Nat) : c.AgreeSent (c.basisWord (d * c.circulant)) (c.basisMasks d) := by
  intro b hb j hj
  have e1 : (c.basisMasks d).getD b 0 = if b < c.k / c.circulant then (if b = d then 2 ^ (c.circulant - 1) else 0)
      else (c.generator.getD d []).getD (b - c.k / c.circulant) 0 := by
    unfold basisMasks
    rw [List.getD_eq_getElem _ _ (by simpa using hb), List.getElem_map, List.getElem_range]
  rw [e1]
  unfold basisWord
  by_cases hk : b < c.k / c.circulant
  · rw [if_pos hk, if_pos (by rw [c.k_eq, c.index_lt _ _ _ hj]; exact hk)]
    by_cases hd : b = d
    · rw [if_pos hd, top_testBit _ _ hj, Bool.eq_iff_iff, beq_iff_eq, beq_iff_eq, hd]
      omega
    · rw [if_neg hd, Nat.zero_testBit, beq_eq_false_iff_ne]
      intro hx
      exact hd ((c.index_eq hj c.circulant_pos).1 (by rw [hx, Nat.add_zero])).1
  · rw [if_neg hk, if_neg (by rw [c.k_eq, c.index_lt _ _ _ hj]; exact hk)]
    unfold generatorBit
    dsimp only
    have e2 : (b * c.circulant + j - c.k) / c.circulant = b - c.k / c.circulant := by
      conv_lhs => rw [c.k_eq]
      rw [show b * c.circulant + j - c.k / c.circulant * c.circulant = (b - c.k / c.circulant) * c.circulant + j by
        rw [Nat.sub_mul]
        have := Nat.mul_le_mul_right c.circulant (not_lt.1 hk)
        omega, c.index_div' _ _ hj]
    rw [Nat.mul_div_cancel _ c.circulant_pos, e2, c.index_mod' _ _ hj, Nat.mul_mod_left, Nat.sub_zero, Nat.add_mod_right,
      Nat.mod_eq_of_lt hj]

/-- All checks hold for the numbers. -/
def cleanMasks (q : Nat) (rows : List (List (Nat × Nat))) (W : List Nat) : Bool := rows.all fun es => syndrome q W es % 2 ^ q == 0

theorem satisfies_of_masks (c : LdpcCode) {w : Nat → Bool} {W : List Nat} (h : c.Agree w W)
    (hc : cleanMasks c.circulant c.rowsOf W = true) : c.Satisfies w := by
  intro l hl
  unfold checks at hl
  obtain ⟨r, hr, hl⟩ := List.mem_flatMap.1 hl
  obtain ⟨i, hi, rfl⟩ := List.mem_map.1 hl
  rw [List.mem_range] at hr hi
  have hrow : c.entries r ∈ c.rowsOf := List.mem_map.2 ⟨r, List.mem_range.2 hr, rfl⟩
  have h0 := List.all_eq_true.1 hc _ hrow
  rw [beq_iff_eq] at h0
  have h1 := syndrome_testBit c h _ (c.tables.row_ok _ hrow) i hi
  have h2 : (syndrome c.circulant W (c.entries r)).testBit (c.circulant - 1 - i) = false := by
    by_contra hx
    have := (nonzero_mod c.circulant (syndrome c.circulant W (c.entries r))).2 ⟨i, hi, by simpa using hx⟩
    rw [h0] at this
    simp at this
  unfold violated
  rw [check_countP, ← h1, h2]

theorem basis_clean (c : LdpcCode) : ∀ d < c.k / c.circulant,
    cleanMasks c.circulant c.rowsOf (runFill c.circulant c.rowsOf (c.basisMasks d)) = true := by
  cases c <;> decide +kernel

theorem good_basis_zero (c : LdpcCode) (d : Nat) (hd : d < c.k / c.circulant) : c.Good (c.basisWord (d * c.circulant)) :=
  c.satisfies_of_masks (c.runFill_agree c.tables (c.basis_agree d) (by simp [basisMasks])).1 (c.basis_clean d hd)

theorem unshift_zero (q j t : Nat) (hj : j < q) (ht : t < q) : (j + (q - t)) % q = 0 ↔ j = t := by
  rcases lt_or_ge (j + (q - t)) q with h | h
  · rw [Nat.mod_eq_of_lt h]; omega
  · rw [Nat.mod_eq_sub_mod h, Nat.mod_eq_of_lt (by omega)]; omega

theorem basis_rot (c : LdpcCode) (d t : Nat) (ht : t < c.circulant) :
    c.basisWord (d * c.circulant + t) = c.rot (c.circulant - t) (c.basisWord (d * c.circulant)) := by
  funext v
  have hlt := c.rot_index_lt_iff (c.k / c.circulant) v (c.circulant - t)
  rw [← c.k_eq] at hlt
  have hm := Nat.mod_lt v c.circulant_pos
  unfold rot basisWord
  by_cases hk : v < c.k
  · rw [if_pos hk, if_pos (hlt.2 hk), Bool.eq_iff_iff, beq_iff_eq, beq_iff_eq]
    conv_lhs => rw [c.split_index v]
    rw [c.index_eq hm ht]
    have := c.index_eq (b := v / c.circulant) (b' := d) (Nat.mod_lt (v % c.circulant + (c.circulant - t)) c.circulant_pos) c.circulant_pos
    rw [Nat.add_zero] at this
    rw [this, unshift_zero _ _ _ hm ht]
  · rw [if_neg hk, if_neg (fun h => hk (hlt.1 h))]
    unfold generatorBit
    dsimp only
    have e : ∀ x, (v / c.circulant * c.circulant + x % c.circulant - c.k) / c.circulant = (v - c.k) / c.circulant := by
      have key : ∀ y < c.circulant, (v / c.circulant * c.circulant + y - c.k) / c.circulant = v / c.circulant - c.k / c.circulant := by
        intro y hy
        have hle : c.k / c.circulant ≤ v / c.circulant := Nat.div_le_div_right (not_lt.1 hk)
        conv_lhs => rw [c.k_eq]
        rw [show v / c.circulant * c.circulant + y - c.k / c.circulant * c.circulant =
          (v / c.circulant - c.k / c.circulant) * c.circulant + y by
            rw [Nat.sub_mul]
            have := Nat.mul_le_mul_right c.circulant hle
            omega, c.index_div' _ _ hy]
      intro x
      rw [key _ (Nat.mod_lt _ c.circulant_pos)]
      have := key _ hm
      rw [← c.split_index v] at this
      exact this.symm
    rw [e, c.index_div' _ _ ht, c.index_mod' _ _ ht, index_mod, Nat.mul_div_cancel _ c.circulant_pos, Nat.mul_mod_left, Nat.sub_zero,
      Nat.add_mod_right, Nat.mod_mod, Nat.add_sub_assoc ht.le]

theorem good_basis (c : LdpcCode) (t : Nat) (ht : t < c.k) : c.Good (c.basisWord t) := by
  rw [c.split_index t, basis_rot c _ _ (Nat.mod_lt _ c.circulant_pos)]
  refine c.good_rot _ (c.good_basis_zero _ ?_)
  refine Nat.div_lt_of_lt_mul ?_
  rw [c.k_eq, Nat.mul_comm] at ht
  exact ht

theorem good_codeWord (c : LdpcCode) (data : Nat → Bool) : c.Good (c.codeWord data) := by
  rw [codeWord_eq]
  have key : ∀ m ≤ c.k, c.Good (c.sumWord data m) := by
    intro m
    induction m with
    | zero => exact fun _ => c.good_zero
    | succ m ih =>
      intro hm
      rw [sumWord_succ]
      refine c.good_xor (ih (by omega)) ?_
      cases data m
      · simpa using c.good_zero
      · simpa using c.good_basis m (by omega)
  exact key _ le_rfl

/-! ### Errors -/

/-- The decoder turns an error word into one without wrong data bits. -/
def Clears (c : LdpcCode) (e : Nat → Bool) : Prop := ∀ v < c.k, c.bitFlip 20 (c.fill e) v = false

theorem clears_rot (c : LdpcCode) (s : Nat) {e : Nat → Bool} (h : c.Clears e) : c.Clears (c.rot s e) := by
  intro v hv
  rw [fill_rot, bitFlip_rot]
  unfold rot
  refine h _ ?_
  rw [c.k_eq] at hv ⊢
  exact (c.rot_index_lt_iff _ _ _).2 hv

theorem fill_congr (c : LdpcCode) {a b : Nat → Bool} (h : ∀ v < c.n, a v = b v) : c.fill a = c.fill b := by
  funext v
  unfold fill
  split_ifs with hv
  · exact h v hv
  · cases c.determining v with
    | nil => rfl
    | cons l _ =>
      dsimp only
      rw [List.countP_congr fun u _ => ?_]
      by_cases hu : u < c.n
      · simp [hu, h u hu]
      · simp [hu]

/-- What the decoder returns for a code word with errors. -/
theorem decoded (c : LdpcCode) (data r e : Nat → Bool) (hr : ∀ v < c.n, r v = (c.codeWord data v ^^ e v)) (he : c.Clears e) :
    ∀ v < c.k, c.bitFlip 20 (c.fill r) v = data v := by
  intro v hv
  have hn : c.k ≤ c.n := by cases c <;> decide
  rw [c.fill_congr (b := xorWord (c.codeWord data) e) hr, fill_xor, bitFlip_add c (c.good_codeWord data)]
  unfold xorWord
  rw [he v hv, Bool.xor_false, fill_lt c _ _ (by omega)]
  unfold codeWord
  rw [if_pos hv]

theorem clears_zero (c : LdpcCode) : c.Clears (fun _ => false) := by
  have h0 : c.maxViolations (fun _ => false) = 0 := by
    refine Nat.le_zero.1 ((c.maxViolations_le _ _).2 fun v _ => ?_)
    unfold violations
    rw [Nat.le_zero, List.sum_eq_zero]
    intro x hx
    obtain ⟨l, _, rfl⟩ := List.mem_map.1 hx
    rw [violated_zero]
    rfl
  intro v _
  rw [fill_zero]
  unfold bitFlip
  rw [if_pos h0]

/-- The numbers of an error word with the given wrong bits. -/
def errorMasks (c : LdpcCode) (l : List (Nat × Nat)) : List Nat :=
  (List.range (c.n / c.circulant)).map fun b =>
    l.foldr (fun p acc => (if p.1 = b then 2 ^ (c.circulant - 1 - p.2) else 0) ^^^ acc) 0

/-- No data bit is wrong. -/
def clearedMasks (q k : Nat) (W : List Nat) : Bool := (W.take k).all fun m => m % 2 ^ q == 0

theorem clears_of_masks (c : LdpcCode) {e : Nat → Bool} {W : List Nat} (h : c.AgreeSent e W) (hW : W.length = c.n / c.circulant)
    (hc : clearedMasks c.circulant (c.k / c.circulant)
      (runFlip c.circulant c.rowsOf c.columnsOf 20 (runFill c.circulant c.rowsOf W)) = true) : c.Clears e := by
  obtain ⟨h1, h2⟩ := c.runFill_agree c.tables h hW
  have h3 := c.runFlip_agree c.tables 20 h1 h2
  intro v hv
  have hm := Nat.mod_lt v c.circulant_pos
  have hb : v / c.circulant < c.k / c.circulant := by
    refine Nat.div_lt_of_lt_mul ?_
    rw [c.k_eq, Nat.mul_comm] at hv
    exact hv
  have hk : c.k / c.circulant ≤ c.blocks := by cases c <;> decide
  rw [c.split_index v, h3 _ (by omega) _ hm]
  generalize runFlip c.circulant c.rowsOf c.columnsOf 20 (runFill c.circulant c.rowsOf W) = V at hc
  by_contra hx
  rw [Bool.not_eq_false] at hx
  have hlen : v / c.circulant < V.length := by
    by_contra hl
    rw [List.getD_eq_default _ _ (by omega)] at hx
    simp at hx
  have h4 := List.all_eq_true.1 hc (V.getD (v / c.circulant) 0) (by
    rw [List.getD_eq_getElem _ _ hlen, List.mem_take_iff_getElem]
    exact ⟨_, by omega, rfl⟩)
  have h5 := (nonzero_mod c.circulant (V.getD (v / c.circulant) 0)).2 ⟨_, hm, hx⟩
  rw [beq_iff_eq] at h4
  rw [h4] at h5
  simp at h5

end LdpcCode
end Sia
