import Verif.Model.LdpcCcsds
import Verif.Spec.EncodingSpec
import Mathlib.Data.Nat.ModEq
import Mathlib.Algebra.BigOperators.Group.List.Basic
import Mathlib.Tactic.Ring
import Mathlib.Tactic.Linarith

/-! Parity checks, bit flipping: linearity and shifts. -/
namespace Sia
namespace LdpcCode

theorem circulant_pos (c : LdpcCode) : 0 < c.circulant := by cases c <;> decide

/-! ### Sums of words -/

/-- Sum of two words. -/
def xorWord (a b : Nat → Bool) (v : Nat) : Bool := a v ^^ b v

theorem countP_xor (a b : Nat → Bool) (l : List Nat) :
    l.countP (xorWord a b) % 2 = (l.countP a + l.countP b) % 2 := by
  induction l with
  | nil => rfl
  | cons x l ih =>
    rw [List.countP_cons, List.countP_cons, List.countP_cons]
    have hx : xorWord a b x = (a x ^^ b x) := rfl
    rw [hx]
    rcases Bool.eq_false_or_eq_true (a x) with h1 | h1 <;> rcases Bool.eq_false_or_eq_true (b x) with h2 | h2 <;>
      rw [h1, h2] <;> simp <;> omega

theorem violated_xor (a b : Nat → Bool) (l : List Nat) : violated (xorWord a b) l = (violated a l ^^ violated b l) := by
  have h := countP_xor a b l
  unfold violated
  rw [h]
  rcases Nat.mod_two_eq_zero_or_one (l.countP a) with h1 | h1 <;> rcases Nat.mod_two_eq_zero_or_one (l.countP b) with h2 | h2 <;>
    simp [Nat.add_mod, h1, h2]

theorem violated_congr {a b : Nat → Bool} {l : List Nat} (h : ∀ v ∈ l, a v = b v) : violated a l = violated b l := by
  unfold violated
  rw [List.countP_congr fun v hv => by rw [h v hv]]

/-- A word that satisfies every check. -/
def Satisfies (c : LdpcCode) (w : Nat → Bool) : Prop := ∀ l ∈ c.checks, violated w l = false

theorem violations_congr (c : LdpcCode) {a b : Nat → Bool} (h : ∀ l ∈ c.checks, violated a l = violated b l) (v : Nat) :
    c.violations a v = c.violations b v := by
  unfold violations
  congr 1
  refine List.map_congr_left fun l hl => ?_
  rw [h l hl]

theorem maxViolations_congr (c : LdpcCode) {a b : Nat → Bool} (h : ∀ l ∈ c.checks, violated a l = violated b l) :
    c.maxViolations a = c.maxViolations b := by
  unfold maxViolations
  rw [List.map_congr_left fun v _ => violations_congr c h v]

theorem violated_add (c : LdpcCode) {a : Nat → Bool} (ha : c.Satisfies a) (e : Nat → Bool) :
    ∀ l ∈ c.checks, violated (xorWord a e) l = violated e l := fun l hl => by
  rw [violated_xor, ha l hl, Bool.false_xor]

theorem flip_add (c : LdpcCode) {a : Nat → Bool} (ha : c.Satisfies a) (e : Nat → Bool) :
    c.flip (xorWord a e) = xorWord a (c.flip e) := by
  funext v
  have h : c.flip (xorWord a e) v = if c.violations e v = c.maxViolations e then !(a v ^^ e v) else (a v ^^ e v) := by
    unfold flip
    rw [violations_congr c (violated_add c ha e), maxViolations_congr c (violated_add c ha e)]
    rfl
  rw [h]
  unfold xorWord flip
  by_cases h' : c.violations e v = c.maxViolations e
  · rw [if_pos h', if_pos h', Bool.xor_not]
  · rw [if_neg h', if_neg h']

theorem bitFlip_add (c : LdpcCode) {a : Nat → Bool} (ha : c.Satisfies a) (rounds : Nat) (e : Nat → Bool) :
    c.bitFlip rounds (xorWord a e) = xorWord a (c.bitFlip rounds e) := by
  induction rounds generalizing e with
  | zero => rfl
  | succ n ih =>
    unfold bitFlip
    rw [maxViolations_congr c (violated_add c ha e), flip_add c ha]
    split_ifs
    · rfl
    · exact ih _

/-! ### Which checks determine punctured bits -/

theorem check_countP (c : LdpcCode) (w : Nat → Bool) (r i : Nat) :
    (c.check r i).countP w = (c.entries r).countP fun e => w (e.1 * c.circulant + (i + e.2) % c.circulant) := by
  unfold check
  rw [List.countP_map]
  rfl

theorem index_div (c : LdpcCode) (b x : Nat) : (b * c.circulant + x % c.circulant) / c.circulant = b := by
  have := Nat.mod_lt x c.circulant_pos
  rw [Nat.add_comm, Nat.add_mul_div_right _ _ c.circulant_pos, Nat.div_eq_of_lt this, Nat.zero_add]

theorem index_mod (c : LdpcCode) (b x : Nat) : (b * c.circulant + x % c.circulant) % c.circulant = x % c.circulant := by
  rw [Nat.add_comm, Nat.add_mul_mod_self_right, Nat.mod_mod]

theorem index_eq (c : LdpcCode) {b b' x y : Nat} (hx : x < c.circulant) (hy : y < c.circulant) :
    b * c.circulant + x = b' * c.circulant + y ↔ b = b' ∧ x = y := by
  constructor
  · intro h
    have h1 := c.index_div b x
    have h2 := c.index_div b' y
    rw [Nat.mod_eq_of_lt hx] at h1
    rw [Nat.mod_eq_of_lt hy, ← h, h1] at h2
    subst h2
    exact ⟨rfl, by omega⟩
  · rintro ⟨rfl, rfl⟩; rfl

/-! ### Shifts -/

/-- A word with every block shifted by `s`. -/
def rot (c : LdpcCode) (s : Nat) (w : Nat → Bool) (v : Nat) : Bool :=
  w (v / c.circulant * c.circulant + (v % c.circulant + s) % c.circulant)

theorem shift_assoc (q i f s : Nat) : ((i + f) % q + s) % q = ((i + s) % q + f) % q := by
  rw [Nat.mod_add_mod, Nat.mod_add_mod]
  congr 1
  ring

theorem violated_rot (c : LdpcCode) (s : Nat) (w : Nat → Bool) (r i : Nat) :
    violated (c.rot s w) (c.check r i) = violated w (c.check r ((i + s) % c.circulant)) := by
  unfold violated
  rw [check_countP, check_countP]
  have : ∀ e : Nat × Nat, c.rot s w (e.1 * c.circulant + (i + e.2) % c.circulant) =
      w (e.1 * c.circulant + ((i + s) % c.circulant + e.2) % c.circulant) := by
    intro e
    unfold rot
    rw [index_div, index_mod, shift_assoc]
  simp only [this]

theorem unshift (q j f i : Nat) (hi : i < q) (hj : j < q) : (i + f) % q = j ↔ i = (j + q - f % q) % q := by
  have hf := Nat.mod_lt f (by omega : 0 < q)
  have e1 : (i + f) % q = (i + f % q) % q := by rw [Nat.add_mod_mod]
  rw [e1]
  clear e1
  generalize f % q = f at hf ⊢
  rcases lt_or_ge (i + f) q with h | h
  · rw [Nat.mod_eq_of_lt h]
    rcases lt_or_ge (j + q - f) q with h' | h'
    · rw [Nat.mod_eq_of_lt h']; omega
    · rw [Nat.mod_eq_sub_mod h', Nat.mod_eq_of_lt (by omega)]; omega
  · rw [Nat.mod_eq_sub_mod h, Nat.mod_eq_of_lt (by omega)]
    rcases lt_or_ge (j + q - f) q with h' | h'
    · rw [Nat.mod_eq_of_lt h']; omega
    · rw [Nat.mod_eq_sub_mod h', Nat.mod_eq_of_lt (by omega)]; omega

/-- The violated checks at a bit, listed by the entries of the matrix. -/
theorem violations_eq (c : LdpcCode) (w : Nat → Bool) (b j : Nat) (hj : j < c.circulant) :
    c.violations w (b * c.circulant + j) = ((List.range c.matrix.length).map fun r => (c.entries r).countP fun e =>
      e.1 == b && violated w (c.check r ((j + c.circulant - e.2 % c.circulant) % c.circulant))).sum := by
  unfold violations checks
  rw [List.map_flatMap, List.flatMap_def, List.sum_flatten, List.map_map]
  congr 1
  refine List.map_congr_left fun r _ => ?_
  simp only [Function.comp_apply, List.map_map]
  generalize hP : (fun i => violated w (c.check r i)) = P
  have hP' : ∀ i, violated w (c.check r i) = P i := fun i => by rw [← hP]
  have e1 : ∀ i, ((fun check => if violated w check = true then List.count (b * c.circulant + j) check else 0) ∘ fun i => c.check r i) i =
      if P i = true then (c.entries r).countP (fun e => e.1 * c.circulant + (i + e.2) % c.circulant == b * c.circulant + j) else 0 := by
    intro i
    simp only [Function.comp_apply, hP']
    rw [List.count, check_countP]
  rw [List.map_congr_left fun i _ => e1 i]
  simp only [hP']
  generalize c.entries r = es
  induction es with
  | nil => simp
  | cons e es ih =>
    simp only [List.countP_cons]
    have e2 : ∀ i, (if P i = true then (es.countP (fun e => e.1 * c.circulant + (i + e.2) % c.circulant == b * c.circulant + j) +
          if (e.1 * c.circulant + (i + e.2) % c.circulant == b * c.circulant + j) = true then 1 else 0) else 0) =
        (if P i = true then es.countP (fun e => e.1 * c.circulant + (i + e.2) % c.circulant == b * c.circulant + j) else 0) +
          (if P i = true ∧ e.1 * c.circulant + (i + e.2) % c.circulant = b * c.circulant + j then 1 else 0) := by
      intro i
      by_cases h1 : P i = true
      · simp [h1]
      · simp [h1]
    rw [List.map_congr_left fun i _ => e2 i, List.sum_map_add, ih]
    congr 1
    set i0 := (j + c.circulant - e.2 % c.circulant) % c.circulant with hi0
    have hlt : i0 < c.circulant := Nat.mod_lt _ c.circulant_pos
    have e3 : ∀ i ∈ List.range c.circulant,
        (if P i = true ∧ e.1 * c.circulant + (i + e.2) % c.circulant = b * c.circulant + j then 1 else 0) =
          if i = i0 then (if (e.1 == b && P i0) = true then 1 else 0) else 0 := by
      intro i hi
      rw [List.mem_range] at hi
      have e4 : e.1 * c.circulant + (i + e.2) % c.circulant = b * c.circulant + j ↔ e.1 = b ∧ i = i0 := by
        rw [index_eq c (Nat.mod_lt _ c.circulant_pos) hj, unshift _ _ _ _ hi hj, ← hi0]
      simp only [e4]
      by_cases h : i = i0
      · subst h
        by_cases h2 : e.1 = b <;> simp [h2]
      · simp [h]
    rw [List.map_congr_left e3]
    clear e2 e3 e1 hP hP' ih
    generalize (if (e.1 == b && P i0) = true then 1 else 0) = x
    generalize c.circulant = q at hlt
    induction q with
    | zero => omega
    | succ q ihq =>
      rw [List.range_succ, List.map_append, List.sum_append]
      simp only [List.map_cons, List.map_nil, List.sum_cons, List.sum_nil]
      rcases Nat.lt_succ_iff_lt_or_eq.1 hlt with h | h
      · rw [ihq h, if_neg (by omega)]; rfl
      · subst h
        rw [if_pos rfl, List.sum_eq_zero]
        · omega
        · intro y hy
          obtain ⟨i, hi, rfl⟩ := List.mem_map.1 hy
          rw [List.mem_range] at hi
          rw [if_neg (by omega)]

theorem violations_rot (c : LdpcCode) (s : Nat) (w : Nat → Bool) (b j : Nat) (hj : j < c.circulant) :
    c.violations (c.rot s w) (b * c.circulant + j) = c.violations w (b * c.circulant + (j + s) % c.circulant) := by
  rw [violations_eq c _ b j hj, violations_eq c _ b _ (Nat.mod_lt _ c.circulant_pos)]
  congr 1
  refine List.map_congr_left fun r _ => ?_
  congr 1
  funext e
  rw [violated_rot]
  congr 3
  have hf := Nat.mod_lt e.2 c.circulant_pos
  rw [Nat.mod_add_mod, Nat.add_sub_assoc hf.le, Nat.add_sub_assoc hf.le, Nat.mod_add_mod]
  congr 1
  ring

theorem split_index (c : LdpcCode) (v : Nat) : v = v / c.circulant * c.circulant + v % c.circulant := by
  rw [Nat.mul_comm, Nat.div_add_mod]

theorem violations_rot' (c : LdpcCode) (s : Nat) (w : Nat → Bool) (v : Nat) :
    c.violations (c.rot s w) v = c.violations w (v / c.circulant * c.circulant + (v % c.circulant + s) % c.circulant) := by
  conv_lhs => rw [c.split_index v]
  exact c.violations_rot s w _ _ (Nat.mod_lt _ c.circulant_pos)

theorem foldl_max_le (l : List Nat) (a m : Nat) : l.foldl max a ≤ m ↔ a ≤ m ∧ ∀ x ∈ l, x ≤ m := by
  induction l generalizing a with
  | nil => simp
  | cons x l ih =>
    rw [List.foldl_cons, ih]
    simp only [max_le_iff, List.mem_cons, forall_eq_or_imp]
    tauto

theorem maxViolations_le (c : LdpcCode) (w : Nat → Bool) (m : Nat) :
    c.maxViolations w ≤ m ↔ ∀ v < c.blocks * c.circulant, c.violations w v ≤ m := by
  unfold maxViolations
  rw [foldl_max_le]
  simp

theorem rot_index_lt (c : LdpcCode) (v s : Nat) (h : v < c.blocks * c.circulant) :
    v / c.circulant * c.circulant + (v % c.circulant + s) % c.circulant < c.blocks * c.circulant := by
  have h1 : v / c.circulant < c.blocks := Nat.div_lt_of_lt_mul (by rwa [Nat.mul_comm] at h)
  have h2 := Nat.mod_lt (v % c.circulant + s) c.circulant_pos
  have h3 : (v / c.circulant + 1) * c.circulant ≤ c.blocks * c.circulant := Nat.mul_le_mul_right _ h1
  rw [Nat.add_mul, Nat.one_mul] at h3
  omega

theorem maxViolations_rot (c : LdpcCode) (s : Nat) (w : Nat → Bool) : c.maxViolations (c.rot s w) = c.maxViolations w := by
  apply le_antisymm
  · rw [maxViolations_le]
    intro v hv
    rw [violations_rot']
    exact (c.maxViolations_le w _).1 le_rfl _ (c.rot_index_lt v s hv)
  · rw [maxViolations_le]
    intro v hv
    set s' := c.circulant - s % c.circulant
    have h := (c.maxViolations_le (c.rot s w) _).1 le_rfl _ (c.rot_index_lt v s' hv)
    rw [violations_rot', index_div, index_mod, Nat.mod_add_mod] at h
    have hs := Nat.mod_lt s c.circulant_pos
    have hv' := Nat.mod_lt v c.circulant_pos
    have e : (v % c.circulant + s' + s) % c.circulant = v % c.circulant := by
      have e1 : v % c.circulant + s' + s = v % c.circulant + (c.circulant * (s / c.circulant + 1)) := by
        have e2 := Nat.div_add_mod s c.circulant
        have e3 : s' + s % c.circulant = c.circulant := Nat.sub_add_cancel hs.le
        rw [Nat.mul_add, Nat.mul_one]
        omega
      rw [e1, Nat.add_mul_mod_self_left, Nat.mod_mod]
    rw [e, ← c.split_index] at h
    exact h

theorem flip_rot (c : LdpcCode) (s : Nat) (w : Nat → Bool) : c.flip (c.rot s w) = c.rot s (c.flip w) := by
  funext v
  unfold flip
  rw [violations_rot', maxViolations_rot]
  rfl

theorem bitFlip_rot (c : LdpcCode) (s rounds : Nat) (w : Nat → Bool) : c.bitFlip rounds (c.rot s w) = c.rot s (c.bitFlip rounds w) := by
  induction rounds generalizing w with
  | zero => rfl
  | succ n ih =>
    unfold bitFlip
    rw [maxViolations_rot, flip_rot]
    split_ifs
    · rfl
    · exact ih _

end LdpcCode
end Sia
