import Verif.Lemmas.LdpcWords
import Verif.Lemmas.LdpcInverse
import Mathlib.Data.ZMod.Basic
import Mathlib.Algebra.BigOperators.Ring.Finset

/-! The data bits of a word that satisfies all checks determine the others: the blocks of the matrix at the parity bits have an inverse. -/
namespace Sia
namespace LdpcCode

/-- A bit as a number modulo two. -/
def bit2 (b : Bool) : ZMod 2 := if b then 1 else 0

theorem bit2_countP {α : Type} (l : List α) (p : α → Bool) : bit2 (l.countP p % 2 == 1) = (l.map fun x => bit2 (p x)).sum := by
  have h : (l.map fun x => bit2 (p x)).sum = ((l.countP p : Nat) : ZMod 2) := by
    induction l with
    | nil => simp
    | cons x l ih =>
      rw [List.map_cons, List.sum_cons, ih, List.countP_cons]
      cases p x <;> simp [bit2, add_comm]
  rw [h]
  rcases Nat.mod_two_eq_zero_or_one (l.countP p) with h1 | h1
  · rw [h1, (ZMod.natCast_eq_zero_iff _ 2).2 (Nat.dvd_of_mod_eq_zero h1)]
    rfl
  · have h2 : ((l.countP p : Nat) : ZMod 2) = ((1 : Nat) : ZMod 2) := (ZMod.natCast_eq_natCast_iff' _ _ 2).2 h1
    rw [h1, h2]
    simp [bit2]

/-- The sum of the selected checks, by columns. -/
def transposed (q : Nat) (S : List Nat) : List (Nat × Nat) → Nat
  | [] => 0
  | e :: es => rotl q (q - e.2) (S.getD e.1 0) ^^^ transposed q S es

theorem transposed_testBit (q : Nat) (S : List Nat) (es : List (Nat × Nat)) (j : Nat) (hj : j < q) :
    bit2 ((transposed q S es).testBit (q - 1 - j)) =
      (es.map fun e => bit2 ((S.getD e.1 0).testBit (q - 1 - (j + (q - e.2)) % q))).sum := by
  induction es with
  | nil => simp [transposed, bit2]
  | cons e es ih =>
    rw [transposed, Nat.testBit_xor, rotl_testBit _ _ _ _ (Nat.sub_le _ _) hj, List.map_cons, List.sum_cons, ← ih]
    cases (S.getD e.1 0).testBit (q - 1 - (j + (q - e.2)) % q) <;> cases (transposed q S es).testBit (q - 1 - j) <;> decide

theorem sum_shift (q f : Nat) (hf : f < q) (g h : Nat → ZMod 2) :
    ∑ i ∈ Finset.range q, g i * h ((i + f) % q) = ∑ j ∈ Finset.range q, h j * g ((j + (q - f)) % q) := by
  have hq : 0 < q := by omega
  refine Finset.sum_nbij' (fun i => (i + f) % q) (fun j => (j + (q - f)) % q) ?_ ?_ ?_ ?_ ?_
  · intro i _
    exact Finset.mem_range.2 (Nat.mod_lt _ hq)
  · intro i _
    exact Finset.mem_range.2 (Nat.mod_lt _ hq)
  · intro i hi
    have := Finset.mem_range.1 hi
    beta_reduce
    rw [Nat.mod_add_mod, show i + f + (q - f) = i + q by omega, Nat.add_mod_right, Nat.mod_eq_of_lt this]
  · intro i hi
    have := Finset.mem_range.1 hi
    beta_reduce
    rw [Nat.mod_add_mod, show i + (q - f) + f = i + q by omega, Nat.add_mod_right, Nat.mod_eq_of_lt this]
  · intro i hi
    have := Finset.mem_range.1 hi
    beta_reduce
    rw [Nat.mod_add_mod, show i + f + (q - f) = i + q by omega, Nat.add_mod_right, Nat.mod_eq_of_lt this, mul_comm]

theorem exchange_row (q blocks : Nat) (W : Nat → ZMod 2) (s : Nat → ZMod 2) (es : List (Nat × Nat))
    (he : ∀ e ∈ es, e.1 < blocks ∧ e.2 < q) :
    ∑ i ∈ Finset.range q, s i * (es.map fun e => W (e.1 * q + (i + e.2) % q)).sum =
      ∑ b ∈ Finset.range blocks, ∑ j ∈ Finset.range q,
        W (b * q + j) * ((es.filter fun e => e.1 == b).map fun e => s ((j + (q - e.2)) % q)).sum := by
  induction es with
  | nil => simp
  | cons e es ih =>
    have h1 := he e (by simp)
    have h2 := ih fun e h => he e (by simp [h])
    have e1 : ∀ i, s i * ((e :: es).map fun e => W (e.1 * q + (i + e.2) % q)).sum =
        s i * W (e.1 * q + (i + e.2) % q) + s i * (es.map fun e => W (e.1 * q + (i + e.2) % q)).sum := fun i => by
      rw [List.map_cons, List.sum_cons, mul_add]
    have e2 : ∀ b j, W (b * q + j) * (((e :: es).filter fun e => e.1 == b).map fun e => s ((j + (q - e.2)) % q)).sum =
        (if b = e.1 then W (b * q + j) * s ((j + (q - e.2)) % q) else 0) +
          W (b * q + j) * ((es.filter fun e => e.1 == b).map fun e => s ((j + (q - e.2)) % q)).sum := fun b j => by
      rw [List.filter_cons]
      by_cases h : e.1 = b
      · rw [if_pos (by simpa using h), if_pos h.symm, List.map_cons, List.sum_cons, mul_add]
      · rw [if_neg (by simpa using h), if_neg fun h' => h h'.symm, zero_add]
    simp only [e1, e2, Finset.sum_add_distrib, h2]
    congr 1
    rw [sum_shift q e.2 h1.2 s (fun j => W (e.1 * q + j))]
    symm
    refine Eq.trans (Finset.sum_eq_single e.1 ?_ ?_) ?_
    · intro b _ hb
      simp [hb]
    · intro hb
      exact absurd (Finset.mem_range.2 h1.1) hb
    · simp

theorem list_range_sum (n : Nat) (f : Nat → ZMod 2) : ((List.range n).map f).sum = ∑ r ∈ Finset.range n, f r := by
  induction n with
  | zero => simp
  | succ n ih => rw [List.range_succ, List.map_append, List.sum_append, ih, Finset.sum_range_succ]; simp

theorem column_sum (c : LdpcCode) (b : Nat) (g : Nat × Nat → ZMod 2) :
    ((c.column b).map g).sum = ∑ r ∈ Finset.range c.matrix.length, (((c.entries r).filter fun e => e.1 == b).map fun e => g (r, e.2)).sum := by
  unfold column
  rw [List.map_flatMap, List.flatMap_def, List.sum_flatten, List.map_map, ← list_range_sum]
  congr 1
  refine List.map_congr_left fun r _ => ?_
  simp [Function.comp_def]

/-- The selected checks add up to the first bit of block `b0`, apart from data bits. -/
def SelectsBit (c : LdpcCode) (S : List Nat) (b0 : Nat) : Bool :=
  (List.range (c.blocks - c.k / c.circulant)).all fun p =>
    transposed c.circulant S (c.column (c.k / c.circulant + p)) % 2 ^ c.circulant ==
      if c.k / c.circulant + p = b0 then 2 ^ (c.circulant - 1) else 0

theorem zero_bit_of_selects (c : LdpcCode) (S : List Nat) (b0 : Nat) (h0 : c.k / c.circulant ≤ b0) (hb : b0 < c.blocks)
    (hS : c.SelectsBit S b0 = true)
    (w : Nat → Bool) (hw : c.Satisfies w) (hz : ∀ v < c.k, w v = false) : w (b0 * c.circulant) = false := by
  set q := c.circulant with hq
  have hq0 : 0 < q := c.circulant_pos
  have hrow : ∀ r < c.matrix.length, ∀ e ∈ c.entries r, e.1 < c.blocks ∧ e.2 < q := fun r hr e he =>
    c.tables.row_ok (c.entries r) (List.mem_map.2 ⟨r, List.mem_range.2 hr, rfl⟩) e he
  have key : ∑ r ∈ Finset.range c.matrix.length, ∑ i ∈ Finset.range q, bit2 ((S.getD r 0).testBit (q - 1 - i)) *
      ((c.entries r).map fun e => bit2 (w (e.1 * q + (i + e.2) % q))).sum = 0 := by
    refine Finset.sum_eq_zero fun r hr => Finset.sum_eq_zero fun i hi => ?_
    have h1 := hw (c.check r i) (by
      unfold checks
      exact List.mem_flatMap.2 ⟨r, List.mem_range.2 (Finset.mem_range.1 hr), List.mem_map.2 ⟨i, List.mem_range.2 (Finset.mem_range.1 hi), rfl⟩⟩)
    unfold violated at h1
    rw [check_countP] at h1
    have h2 := bit2_countP (c.entries r) fun e => w (e.1 * c.circulant + (i + e.2) % c.circulant)
    rw [h1] at h2
    rw [← hq] at h2
    rw [← h2]
    simp [bit2]
  have step : ∑ r ∈ Finset.range c.matrix.length, ∑ i ∈ Finset.range q, bit2 ((S.getD r 0).testBit (q - 1 - i)) *
      ((c.entries r).map fun e => bit2 (w (e.1 * q + (i + e.2) % q))).sum =
      ∑ b ∈ Finset.range c.blocks, ∑ j ∈ Finset.range q,
        bit2 (w (b * q + j)) * bit2 ((transposed q S (c.column b)).testBit (q - 1 - j)) := by
    rw [Finset.sum_congr rfl fun r hr => exchange_row q c.blocks (fun v => bit2 (w v))
      (fun i => bit2 ((S.getD r 0).testBit (q - 1 - i))) (c.entries r) (hrow r (Finset.mem_range.1 hr))]
    rw [Finset.sum_comm]
    refine Finset.sum_congr rfl fun b _ => ?_
    rw [Finset.sum_comm]
    refine Finset.sum_congr rfl fun j hj => ?_
    rw [transposed_testBit q S _ j (Finset.mem_range.1 hj), column_sum, Finset.mul_sum]
  rw [step] at key
  have hterm : ∀ b ∈ Finset.range c.blocks, ∀ j ∈ Finset.range q,
      bit2 (w (b * q + j)) * bit2 ((transposed q S (c.column b)).testBit (q - 1 - j)) =
        if b = b0 then (if j = 0 then bit2 (w (b0 * q)) else 0) else 0 := by
    intro b hb j hj
    have hb := Finset.mem_range.1 hb
    have hj := Finset.mem_range.1 hj
    rcases lt_or_ge b (c.k / q) with h | h
    · have h2 : w (b * q + j) = false := by
        refine hz _ ?_
        rw [c.k_eq, ← hq]
        have : (b + 1) * q ≤ c.k / q * q := Nat.mul_le_mul_right _ h
        rw [Nat.add_mul, Nat.one_mul] at this
        omega
      rw [h2, if_neg (by omega)]
      simp [bit2]
    · unfold SelectsBit at hS
      rw [List.all_eq_true] at hS
      have h3 := hS (b - c.k / q) (List.mem_range.2 (by rw [← hq]; omega))
      rw [beq_iff_eq, ← hq, Nat.add_sub_cancel' h] at h3
      have h4 : (transposed q S (c.column b)).testBit (q - 1 - j) = (transposed q S (c.column b) % 2 ^ q).testBit (q - 1 - j) := by
        rw [Nat.testBit_mod_two_pow, decide_eq_true (by omega : q - 1 - j < q), Bool.true_and]
      rw [h4, h3]
      by_cases hbb : b = b0
      · rw [if_pos hbb, if_pos hbb, top_testBit q j hj]
        by_cases hj0 : j = 0
        · subst hj0 hbb
          simp [bit2]
        · simp [bit2, hj0]
      · rw [if_neg hbb, if_neg hbb]
        simp [bit2]
  rw [Finset.sum_congr rfl fun b hb => Finset.sum_congr rfl fun j hj => hterm b hb j hj] at key
  rw [Finset.sum_eq_single b0 (fun b _ hb => by simp [hb]) (fun h => absurd (Finset.mem_range.2 hb) h)] at key
  rw [Finset.sum_eq_single 0 (fun j _ hj => by simp [hj]) (fun h => absurd (Finset.mem_range.2 hq0) h)] at key
  simp only [if_true] at key
  revert key
  cases w (b0 * q) <;> simp [bit2]

theorem inverse_selects (c : LdpcCode) : ∀ p < c.blocks - c.k / c.circulant,
    c.SelectsBit (c.inverseRows.getD p []) (c.k / c.circulant + p) = true := by
  cases c <;> decide +kernel

/-- A word without data that satisfies all checks is zero. -/
theorem zero_of_satisfies (c : LdpcCode) (w : Nat → Bool) (hw : c.Satisfies w) (hz : ∀ v < c.k, w v = false) :
    ∀ v < c.blocks * c.circulant, w v = false := by
  intro v hv
  rcases lt_or_ge v c.k with h | h
  · exact hz v h
  have hb : v / c.circulant < c.blocks := Nat.div_lt_of_lt_mul (by rwa [Nat.mul_comm] at hv)
  have hk : c.k / c.circulant ≤ v / c.circulant := Nat.div_le_div_right h
  have h1 := c.inverse_selects (v / c.circulant - c.k / c.circulant) (by omega)
  rw [Nat.add_sub_cancel' hk] at h1
  have h2 := c.zero_bit_of_selects _ _ hk hb h1 (c.rot (v % c.circulant) w) (c.satisfies_rot _ hw) (fun u hu => by
    unfold rot
    refine hz _ ?_
    have hlt := c.rot_index_lt_iff (c.k / c.circulant) u (v % c.circulant)
    rw [← c.k_eq] at hlt
    exact hlt.2 hu)
  unfold rot at h2
  have e1 := c.index_div' (v / c.circulant) 0 c.circulant_pos
  have e2 := c.index_mod' (v / c.circulant) 0 c.circulant_pos
  rw [Nat.add_zero] at e1 e2
  rw [e1, e2, Nat.zero_add, Nat.mod_mod, ← c.split_index v] at h2
  exact h2

end LdpcCode
end Sia
