import Verif.Lemmas.LdpcLemmas
import Mathlib.Data.List.GetD
import Mathlib.Tactic.IntervalCases

/-! Evaluation of the decoder on words given by one number per block. -/
namespace Sia
namespace LdpcCode

/-- Number whose bits below `q` are those of `m` rotated left by `f ≤ q`. -/
def rotl (q f m : Nat) : Nat := ((m % 2 ^ q) <<< f) ||| ((m % 2 ^ q) >>> (q - f))

theorem rotl_testBit (q f m i : Nat) (hf : f ≤ q) (hi : i < q) :
    (rotl q f m).testBit (q - 1 - i) = m.testBit (q - 1 - (i + f) % q) := by
  unfold rotl
  rw [Nat.testBit_or, Nat.testBit_shiftLeft, Nat.testBit_shiftRight, Nat.testBit_mod_two_pow, Nat.testBit_mod_two_pow]
  rcases lt_or_ge (i + f) q with h | h
  · rw [Nat.mod_eq_of_lt h]
    have e1 : q - 1 - i - f = q - 1 - (i + f) := by omega
    rw [e1, decide_eq_true (by omega : q - 1 - (i + f) < q), decide_eq_true (by omega : q - 1 - i ≥ f),
      decide_eq_false (by omega : ¬ q - f + (q - 1 - i) < q)]
    simp
  · rw [Nat.mod_eq_sub_mod h]
    rcases lt_or_ge (i + f - q) q with h' | h'
    · rw [Nat.mod_eq_of_lt h']
      have e1 : q - f + (q - 1 - i) = q - 1 - (i + f - q) := by omega
      rw [e1, decide_eq_true (by omega : q - 1 - (i + f - q) < q), decide_eq_false (by omega : ¬ q - 1 - i ≥ f)]
      simp
    · omega

/-- The word agrees with the numbers, first bit of a block most significant. -/
def Agree (c : LdpcCode) (w : Nat → Bool) (W : List Nat) : Prop :=
  ∀ b < c.blocks, ∀ j < c.circulant, w (b * c.circulant + j) = (W.getD b 0).testBit (c.circulant - 1 - j)

/-- The checks of a block row, one bit per check. -/
def syndrome (q : Nat) (W : List Nat) : List (Nat × Nat) → Nat
  | [] => 0
  | e :: es => rotl q e.2 (W.getD e.1 0) ^^^ syndrome q W es

/-- The entries of a block column. -/
def column (c : LdpcCode) (b : Nat) : List (Nat × Nat) :=
  (List.range c.matrix.length).flatMap fun r => ((c.entries r).filter fun e => e.1 == b).map fun e => (r, e.2)

/-- Adds one to the counters selected by `m`; level `l` holds the counters above `l`. -/
def bump (m : Nat) : Nat → List Nat → List Nat
  | _, [] => []
  | p, t :: ts => (t ||| (p &&& m)) :: bump m t ts

/-- The counters of a block. -/
def counters (q : Nat) (S : List Nat) : List (Nat × Nat) → List Nat
  | [] => [0, 0, 0, 0, 0, 0]
  | e :: es => bump (rotl q (q - e.2) (S.getD e.1 0)) (2 ^ q - 1) (counters q S es)

/-- The largest counter. -/
def largest (q : Nat) (T : List (List Nat)) : Nat → Nat
  | 0 => 0
  | d + 1 => if T.any fun ts => ts.getD d 0 % 2 ^ q != 0 then d + 1 else largest q T d

/-- The rounds of the decoder. `rows` and `columns` are the matrix. -/
def runFlip (q : Nat) (rows columns : List (List (Nat × Nat))) : Nat → List Nat → List Nat
  | 0, W => W
  | n + 1, W =>
    let T := columns.map (counters q (rows.map (syndrome q W)))
    match largest q T 6 with
    | 0 => W
    | d + 1 => runFlip q rows columns n (List.zipWith (fun m ts => m ^^^ ts.getD d 0) W T)

/-- Facts about the matrices that are checked by evaluation. -/
structure Tables (c : LdpcCode) (rows columns : List (List (Nat × Nat))) : Prop where
  rows_eq : rows = (List.range c.matrix.length).map c.entries
  columns_eq : columns = (List.range c.blocks).map c.column
  row_ok : ∀ es ∈ rows, ∀ e ∈ es, e.1 < c.blocks ∧ e.2 < c.circulant
  column_ok : ∀ es ∈ columns, es.length ≤ 6 ∧ ∀ e ∈ es, e.1 < c.matrix.length ∧ e.2 < c.circulant

theorem syndrome_testBit (c : LdpcCode) {w : Nat → Bool} {W : List Nat} (h : c.Agree w W) (es : List (Nat × Nat))
    (he : ∀ e ∈ es, e.1 < c.blocks ∧ e.2 < c.circulant) (i : Nat) (hi : i < c.circulant) :
    (syndrome c.circulant W es).testBit (c.circulant - 1 - i) =
      (es.countP (fun e => w (e.1 * c.circulant + (i + e.2) % c.circulant)) % 2 == 1) := by
  induction es with
  | nil => simp [syndrome]
  | cons e es ih =>
    have h1 := he e (by simp)
    rw [syndrome, Nat.testBit_xor, rotl_testBit _ _ _ _ h1.2.le hi, ih fun e h => he e (by simp [h]), List.countP_cons,
      ← h _ h1.1 _ (Nat.mod_lt _ c.circulant_pos)]
    cases w (e.1 * c.circulant + (i + e.2) % c.circulant)
    · simp
    · generalize (es.countP fun e => w (e.1 * c.circulant + (i + e.2) % c.circulant)) = x
      rcases Nat.mod_two_eq_zero_or_one x with h2 | h2 <;> simp [Nat.add_mod, h2]

theorem syndromes_testBit (c : LdpcCode) {rows columns : List (List (Nat × Nat))} (H : Tables c rows columns) {w : Nat → Bool}
    {W : List Nat} (h : c.Agree w W) (r : Nat) (hr : r < c.matrix.length) (i : Nat) (hi : i < c.circulant) :
    ((rows.map (syndrome c.circulant W)).getD r 0).testBit (c.circulant - 1 - i) = violated w (c.check r i) := by
  have hlen : rows.length = c.matrix.length := by rw [H.rows_eq]; simp
  have e1 : rows[r]'(by omega) = c.entries r := by simp [H.rows_eq]
  have e2 : (rows.map (syndrome c.circulant W)).getD r 0 = syndrome c.circulant W (c.entries r) := by
    rw [List.getD_eq_getElem _ _ (by simp; omega), List.getElem_map, e1]
  rw [e2, syndrome_testBit c h _ (fun e he => H.row_ok _ (e1 ▸ List.getElem_mem _) e he) i hi]
  unfold violated
  rw [check_countP]

theorem bump_testBit (m x n : Nat) (ts : List Nat) (p base : Nat) (hp : p.testBit x = decide (base ≤ n))
    (ht : ∀ l < ts.length, (ts.getD l 0).testBit x = decide (base + l + 1 ≤ n)) :
    (bump m p ts).length = ts.length ∧
      ∀ l < ts.length, ((bump m p ts).getD l 0).testBit x = decide (base + l + 1 ≤ n + if m.testBit x then 1 else 0) := by
  induction ts generalizing p base with
  | nil => simp [bump]
  | cons t ts ih =>
    have h0 : t.testBit x = decide (base + 1 ≤ n) := by simpa using ht 0 (by simp)
    obtain ⟨i1, i2⟩ := ih t (base + 1) h0 (fun l hl => by
      have := ht (l + 1) (by simp; omega)
      rw [List.getD_cons_succ] at this
      rw [this]
      congr 1
      exact propext ⟨fun _ => by omega, fun _ => by omega⟩)
    refine ⟨by simp [bump, i1], ?_⟩
    intro l hl
    cases l with
    | zero =>
      rw [bump, List.getD_cons_zero, Nat.testBit_or, Nat.testBit_and, h0, hp]
      cases m.testBit x <;> simp
      omega
    | succ l =>
      rw [bump, List.getD_cons_succ, i2 l (by simpa using hl)]
      congr 1
      exact propext ⟨fun _ => by omega, fun _ => by omega⟩

theorem counters_testBit (c : LdpcCode) {rows columns : List (List (Nat × Nat))} (H : Tables c rows columns) {w : Nat → Bool}
    {W : List Nat} (h : c.Agree w W) (es : List (Nat × Nat)) (he : ∀ e ∈ es, e.1 < c.matrix.length ∧ e.2 < c.circulant)
    (j : Nat) (hj : j < c.circulant) :
    (counters c.circulant (rows.map (syndrome c.circulant W)) es).length = 6 ∧ ∀ l < 6,
      ((counters c.circulant (rows.map (syndrome c.circulant W)) es).getD l 0).testBit (c.circulant - 1 - j) =
        decide (l + 1 ≤ es.countP fun e => violated w (c.check e.1 ((j + c.circulant - e.2 % c.circulant) % c.circulant))) := by
  induction es with
  | nil =>
    refine ⟨rfl, fun l hl => ?_⟩
    have : ([0, 0, 0, 0, 0, 0] : List Nat).getD l 0 = 0 := by
      interval_cases l <;> rfl
    rw [counters, this]
    simp
  | cons e es ih =>
    obtain ⟨i1, i2⟩ := ih fun e h => he e (by simp [h])
    have h1 := he e (by simp)
    have hx : (2 ^ c.circulant - 1).testBit (c.circulant - 1 - j) = true := by
      rw [Nat.testBit_two_pow_sub_one]
      simp; omega
    obtain ⟨b1, b2⟩ := bump_testBit (rotl c.circulant (c.circulant - e.2) ((rows.map (syndrome c.circulant W)).getD e.1 0))
      (c.circulant - 1 - j) _ (counters c.circulant (rows.map (syndrome c.circulant W)) es) (2 ^ c.circulant - 1) 0 (by rw [hx]; simp)
      (fun l hl => by rw [i1] at hl; rw [i2 l hl, Nat.zero_add])
    rw [counters]
    refine ⟨by rw [b1, i1], fun l hl => ?_⟩
    rw [b2 l (by rw [i1]; exact hl), Nat.zero_add, List.countP_cons, rotl_testBit _ _ _ _ (Nat.sub_le _ _) hj,
      syndromes_testBit c H h _ h1.1 _ (Nat.mod_lt _ c.circulant_pos), Nat.mod_eq_of_lt h1.2, Nat.add_sub_assoc h1.2.le]

theorem violations_column (c : LdpcCode) (w : Nat → Bool) (b j : Nat) (hj : j < c.circulant) :
    c.violations w (b * c.circulant + j) =
      (c.column b).countP fun e => violated w (c.check e.1 ((j + c.circulant - e.2 % c.circulant) % c.circulant)) := by
  rw [violations_eq c w b j hj, column, List.countP_flatMap]
  congr 1
  refine List.map_congr_left fun r _ => ?_
  rw [Function.comp_apply, List.countP_map, List.countP_filter]
  refine List.countP_congr fun e _ => ?_
  simp [Bool.and_comm]

theorem nonzero_mod (q m : Nat) : (m % 2 ^ q != 0) = true ↔ ∃ j < q, m.testBit (q - 1 - j) = true := by
  rw [bne_iff_ne]
  constructor
  · intro h
    obtain ⟨i, hi⟩ := Nat.exists_testBit_of_ne_zero h
    rw [Nat.testBit_mod_two_pow] at hi
    simp only [Bool.and_eq_true, decide_eq_true_eq] at hi
    exact ⟨q - 1 - i, by omega, by rw [show q - 1 - (q - 1 - i) = i by omega]; exact hi.2⟩
  · rintro ⟨j, hj, h⟩ h0
    have : (m % 2 ^ q).testBit (q - 1 - j) = true := by
      rw [Nat.testBit_mod_two_pow, h]; simp; omega
    rw [h0] at this
    simp at this

theorem largest_spec (q : Nat) (T : List (List Nat)) (d : Nat) :
    largest q T d ≤ d ∧ (∀ l < d, (∃ ts ∈ T, ts.getD l 0 % 2 ^ q ≠ 0) → l + 1 ≤ largest q T d) ∧
      (largest q T d = 0 ∨ ∃ ts ∈ T, ts.getD (largest q T d - 1) 0 % 2 ^ q ≠ 0) := by
  induction d with
  | zero => exact ⟨le_rfl, fun l hl => absurd hl (by omega), .inl rfl⟩
  | succ d ih =>
    obtain ⟨i1, i2, i3⟩ := ih
    unfold largest
    split_ifs with h
    · refine ⟨le_rfl, fun l hl _ => by omega, .inr ?_⟩
      obtain ⟨ts, h1, h2⟩ := List.any_eq_true.1 h
      exact ⟨ts, h1, by simpa using h2⟩
    · refine ⟨by omega, fun l hl hex => ?_, i3⟩
      rcases Nat.lt_succ_iff_lt_or_eq.1 hl with h' | rfl
      · exact i2 l h' hex
      · obtain ⟨ts, h1, h2⟩ := hex
        exact absurd (List.any_eq_true.2 ⟨ts, h1, by simpa using h2⟩) h

theorem runFlip_agree (c : LdpcCode) {rows columns : List (List (Nat × Nat))} (H : Tables c rows columns) (n : Nat) {w : Nat → Bool}
    {W : List Nat} (h : c.Agree w W) (hW : W.length = c.blocks) :
    c.Agree (c.bitFlip n w) (runFlip c.circulant rows columns n W) := by
  induction n generalizing w W with
  | zero => exact h
  | succ n ih =>
    have hcl : columns.length = c.blocks := by rw [H.columns_eq]; simp
    set T := columns.map (counters c.circulant (rows.map (syndrome c.circulant W))) with hT
    have hTl : T.length = c.blocks := by rw [hT, List.length_map, hcl]
    have hcol : ∀ b (hb : b < c.blocks), columns[b]'(by omega) = c.column b := fun b hb => by simp [H.columns_eq]
    have hTb : ∀ b (hb : b < c.blocks), T[b]'(by omega) = counters c.circulant (rows.map (syndrome c.circulant W)) (c.column b) :=
      fun b hb => by simp only [hT, List.getElem_map, hcol b hb]
    have hbit : ∀ b (hb : b < c.blocks), ∀ j < c.circulant, ∀ l < 6,
        ((T[b]'(by omega)).getD l 0).testBit (c.circulant - 1 - j) = decide (l + 1 ≤ c.violations w (b * c.circulant + j)) := by
      intro b hb j hj l hl
      have hok := H.column_ok _ (List.getElem_mem (by omega : b < columns.length))
      rw [hcol b hb] at hok
      rw [hTb b hb, violations_column c w b j hj]
      exact (counters_testBit c H h _ hok.2 j hj).2 l hl
    have hle6 : ∀ b < c.blocks, ∀ j < c.circulant, c.violations w (b * c.circulant + j) ≤ 6 := by
      intro b hb j hj
      have hok := H.column_ok _ (List.getElem_mem (by omega : b < columns.length))
      rw [hcol b hb] at hok
      rw [violations_column c w b j hj]
      exact le_trans List.countP_le_length hok.1
    obtain ⟨l1, l2, l3⟩ := largest_spec c.circulant T 6
    have hmem : ∀ b (hb : b < c.blocks), T[b]'(by omega) ∈ T := fun b hb => List.getElem_mem _
    have hmax : c.maxViolations w = largest c.circulant T 6 := by
      apply le_antisymm
      · rw [maxViolations_le]
        intro v hv
        have hb : v / c.circulant < c.blocks := Nat.div_lt_of_lt_mul (by rwa [Nat.mul_comm] at hv)
        have hj := Nat.mod_lt v c.circulant_pos
        rw [c.split_index v]
        by_contra hlt
        push Not at hlt
        have h6 := hle6 _ hb _ hj
        have := l2 (c.violations w (v / c.circulant * c.circulant + v % c.circulant) - 1) (by omega)
          ⟨_, hmem _ hb, by
            have hx := (nonzero_mod c.circulant ((T[v / c.circulant]'(by omega)).getD
              (c.violations w (v / c.circulant * c.circulant + v % c.circulant) - 1) 0)).2
              ⟨v % c.circulant, hj, by rw [hbit _ hb _ hj _ (by omega)]; simp; omega⟩
            simpa using hx⟩
        omega
      · rcases l3 with l3 | ⟨ts, t1, t2⟩
        · omega
        · by_cases h0 : largest c.circulant T 6 = 0
          · omega
          · obtain ⟨b, hb, rfl⟩ := List.getElem_of_mem t1
            rw [hTl] at hb
            obtain ⟨j, hj, hj2⟩ := (nonzero_mod c.circulant _).1 (bne_iff_ne.2 t2)
            rw [hbit b hb j hj _ (by omega)] at hj2
            have hj3 := of_decide_eq_true hj2
            have hv : b * c.circulant + j < c.blocks * c.circulant := by
              have h3 : (b + 1) * c.circulant ≤ c.blocks * c.circulant := Nat.mul_le_mul_right _ hb
              rw [Nat.add_mul, Nat.one_mul] at h3
              omega
            have := (c.maxViolations_le w _).1 le_rfl _ hv
            omega
    unfold bitFlip runFlip
    rw [← hT, hmax]
    dsimp only
    rcases hd : largest c.circulant T 6 with _ | d
    · rw [if_pos rfl]; exact h
    · rw [if_neg (by omega)]
      dsimp only
      refine ih ?_ (by rw [List.length_zipWith, hW, hTl, Nat.min_self])
      intro b hb j hj
      have e1 : (List.zipWith (fun m ts => m ^^^ ts.getD d 0) W T).getD b 0 = W.getD b 0 ^^^ (T[b]'(by omega)).getD d 0 := by
        rw [List.getD_eq_getElem _ _ (by rw [List.length_zipWith]; omega), List.getElem_zipWith,
          List.getD_eq_getElem W _ (by omega)]
      rw [e1, Nat.testBit_xor, ← h b hb j hj, hbit b hb j hj d (by omega)]
      unfold flip
      rw [hmax, hd]
      have hle : c.violations w (b * c.circulant + j) ≤ d + 1 := by
        have hv : b * c.circulant + j < c.blocks * c.circulant := by
          have h3 : (b + 1) * c.circulant ≤ c.blocks * c.circulant := Nat.mul_le_mul_right _ hb
          rw [Nat.add_mul, Nat.one_mul] at h3
          omega
        have := (c.maxViolations_le w _).1 le_rfl _ hv
        omega
      by_cases hx : c.violations w (b * c.circulant + j) = d + 1
      · rw [if_pos hx, decide_eq_true (by omega), Bool.xor_true]
      · rw [if_neg hx, decide_eq_false (by omega), Bool.xor_false]

end LdpcCode
end Sia
