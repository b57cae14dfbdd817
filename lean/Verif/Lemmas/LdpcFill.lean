import Verif.Lemmas.LdpcMasks
import Mathlib.Data.List.Count
import Mathlib.Data.List.Nodup

/-! Punctured bits, code words, and the errors the decoder corrects. -/
namespace Sia
namespace LdpcCode

/-! ### Punctured bits -/

theorem mem_check (c : LdpcCode) (r i b j : Nat) (hj : j < c.circulant) :
    b * c.circulant + j ∈ c.check r i ↔ ∃ e ∈ c.entries r, e.1 = b ∧ (i + e.2) % c.circulant = j := by
  unfold check
  rw [List.mem_map]
  refine exists_congr fun e => and_congr_right fun _ => ?_
  exact c.index_eq (Nat.mod_lt _ c.circulant_pos) hj

theorem n_eq (c : LdpcCode) : c.n = c.n / c.circulant * c.circulant := by cases c <;> rfl

theorem k_eq (c : LdpcCode) : c.k = c.k / c.circulant * c.circulant := by cases c <;> rfl

theorem le_index (c : LdpcCode) (m b x : Nat) (hx : x < c.circulant) : m * c.circulant ≤ b * c.circulant + x ↔ m ≤ b := by
  constructor
  · intro h
    by_contra hlt
    have h3 : (b + 1) * c.circulant ≤ m * c.circulant := Nat.mul_le_mul_right _ (by omega)
    rw [Nat.add_mul, Nat.one_mul] at h3
    omega
  · intro h
    have := Nat.mul_le_mul_right c.circulant h
    omega

theorem punctured_count (c : LdpcCode) (r i : Nat) :
    (c.check r i).countP (fun u => decide (c.n ≤ u)) = (c.entries r).countP fun e => decide (c.n / c.circulant ≤ e.1) := by
  rw [check_countP]
  refine List.countP_congr fun e _ => ?_
  rw [decide_eq_true_eq, decide_eq_true_eq, c.n_eq, c.le_index _ _ _ (Nat.mod_lt _ c.circulant_pos), ← c.n_eq]

/-- The rows that determine punctured bits. -/
def IsTM (c : LdpcCode) : Prop := c = .TM2048 ∨ c = .TM8192

theorem tm_rows (c : LdpcCode) (h : c.IsTM) : c.matrix.length = 12 ∧ c.n / c.circulant = 16 ∧ c.blocks = 20 ∧
    (∀ r < 12, ((c.entries r).countP fun e => decide (16 ≤ e.1)) = 1 → 8 ≤ r) ∧
    (∀ r < 12, 8 ≤ r → ((c.entries r).countP fun e => decide (16 ≤ e.1)) = 1 ∧ (r + 8, 0) ∈ c.entries r ∧
      ∀ e ∈ c.entries r, 16 ≤ e.1 → e = (r + 8, 0)) := by
  rcases h with rfl | rfl <;> refine ⟨by decide +kernel, by decide +kernel, by decide +kernel, by decide +kernel, by decide +kernel⟩

theorem filter_eq_single (q j : Nat) (hj : j < q) (p : Nat → Bool) (hp : ∀ i < q, p i = true ↔ i = j) :
    (List.range q).filter p = [j] := by
  have h1 : (List.range q).filter p = (List.range q).filter (fun i => i == j) := by
    refine List.filter_congr fun i hi => ?_
    rw [List.mem_range] at hi
    rw [Bool.eq_iff_iff, hp i hi, beq_iff_eq]
  rw [h1, List.filter_beq, List.count_eq_one_of_mem List.nodup_range (List.mem_range.2 hj)]
  rfl

/-- Every punctured bit is in exactly one check that has no other punctured bit. -/
theorem determining_tm (c : LdpcCode) (h : c.IsTM) (a j : Nat) (ha : a < 4) (hj : j < c.circulant) :
    c.determining ((16 + a) * c.circulant + j) = [c.check (8 + a) j] := by
  obtain ⟨h1, h2, h3, h4, h5⟩ := c.tm_rows h
  unfold determining checks
  rw [h1, List.filter_flatMap]
  have key : ∀ r ∈ List.range 12, List.filter (fun check => check.contains ((16 + a) * c.circulant + j) &&
      check.countP (fun u => decide (c.n ≤ u)) == 1) ((List.range c.circulant).map fun i => c.check r i) =
      if r = 8 + a then [c.check r j] else [] := by
    intro r hr
    rw [List.mem_range] at hr
    rw [List.filter_map]
    by_cases h8 : 8 ≤ r
    · obtain ⟨g1, g2, g3⟩ := h5 r hr h8
      by_cases hra : r = 8 + a
      · rw [if_pos hra, filter_eq_single c.circulant j hj _ (fun i hi => ?_)]
        · rfl
        · rw [Function.comp_apply, punctured_count, h2, g1, Bool.and_eq_true, List.contains_iff_mem, mem_check c _ _ _ _ hj]
          constructor
          · rintro ⟨⟨e, e1, e2, e3⟩, -⟩
            have := g3 e e1 (by omega)
            subst this
            rwa [Nat.add_zero, Nat.mod_eq_of_lt hi] at e3
          · rintro rfl
            refine ⟨⟨_, g2, by omega, ?_⟩, rfl⟩
            rw [Nat.add_zero, Nat.mod_eq_of_lt hi]
      · rw [if_neg hra, List.map_eq_nil_iff, List.filter_eq_nil_iff]
        intro i hi hx
        rw [Function.comp_apply, Bool.and_eq_true, List.contains_iff_mem, mem_check c _ _ _ _ hj] at hx
        obtain ⟨⟨e, e1, e2, e3⟩, -⟩ := hx
        have := g3 e e1 (by omega)
        subst this
        simp only at e2
        omega
    · rw [if_neg (by omega), List.map_eq_nil_iff, List.filter_eq_nil_iff]
      intro i hi hx
      rw [Function.comp_apply, punctured_count, h2, Bool.and_eq_true, beq_iff_eq] at hx
      exact h8 (h4 r hr hx.2)
  rw [List.flatMap_congr key]
  interval_cases a <;> rfl

theorem check_lt (c : LdpcCode) {l : List Nat} (hl : l ∈ c.checks) : ∀ v ∈ l, v < c.blocks * c.circulant := by
  unfold checks at hl
  obtain ⟨r, hr, hl⟩ := List.mem_flatMap.1 hl
  obtain ⟨i, hi, rfl⟩ := List.mem_map.1 hl
  rw [List.mem_range] at hr
  have hb : ∀ r < c.matrix.length, ∀ e ∈ c.entries r, e.1 < c.blocks := by cases c <;> decide +kernel
  intro v hv
  obtain ⟨e, he, rfl⟩ := List.mem_map.1 hv
  have h1 := hb r hr e he
  have h2 := Nat.mod_lt (i + e.2) c.circulant_pos
  have h3 : (e.1 + 1) * c.circulant ≤ c.blocks * c.circulant := Nat.mul_le_mul_right _ h1
  rw [Nat.add_mul, Nat.one_mul] at h3
  omega

theorem determining_none (c : LdpcCode) (v : Nat) (hv : c.blocks * c.circulant ≤ v) : c.determining v = [] := by
  unfold determining
  rw [List.filter_eq_nil_iff]
  intro l hl hx
  rw [Bool.and_eq_true, List.contains_iff_mem] at hx
  have := c.check_lt hl v hx.1
  omega

theorem tc_n (c : LdpcCode) (h : ¬c.IsTM) : c.n = c.blocks * c.circulant := by
  cases c <;> first | rfl | exact absurd (by simp [IsTM]) h

theorem fill_lt (c : LdpcCode) (w : Nat → Bool) (v : Nat) (hv : v < c.n) : c.fill w v = w v := by
  unfold fill
  rw [if_pos hv]

theorem fill_tm (c : LdpcCode) (h : c.IsTM) (w : Nat → Bool) (a j : Nat) (ha : a < 4) (hj : j < c.circulant) :
    c.fill w ((16 + a) * c.circulant + j) = violated (fun u => decide (u < c.n) && w u) (c.check (8 + a) j) := by
  have h2 := (c.tm_rows h).2.1
  have hn : ¬(16 + a) * c.circulant + j < c.n := by
    rw [c.n_eq, h2, not_lt, c.le_index _ _ _ hj]
    omega
  unfold fill
  rw [if_neg hn, determining_tm c h a j ha hj]
  rfl

theorem fill_none (c : LdpcCode) (w : Nat → Bool) (v : Nat) (hv : c.blocks * c.circulant ≤ v) : c.fill w v = false ∨ c.fill w v = w v := by
  unfold fill
  split_ifs
  · exact .inr rfl
  · rw [determining_none c v hv]; exact .inl rfl

theorem fill_xor (c : LdpcCode) (a b : Nat → Bool) : c.fill (xorWord a b) = xorWord (c.fill a) (c.fill b) := by
  funext v
  unfold xorWord fill
  split_ifs
  · rfl
  · cases c.determining v with
    | nil => rfl
    | cons l _ =>
      have := violated_xor (fun u => decide (u < c.n) && a u) (fun u => decide (u < c.n) && b u) l
      have e : xorWord (fun u => decide (u < c.n) && a u) (fun u => decide (u < c.n) && b u) =
          fun u => decide (u < c.n) && (a u ^^ b u) := by
        funext u
        unfold xorWord
        rcases Bool.eq_false_or_eq_true (decide (u < c.n)) with h | h <;> simp only [h] <;> simp
      rw [e] at this
      exact this

/-- The places of a word: block and position, or beyond the word. -/
theorem place (c : LdpcCode) (v : Nat) : v < c.n ∨ (c.IsTM ∧ ∃ a < 4, ∃ j < c.circulant, v = (16 + a) * c.circulant + j) ∨
    (c.n ≤ v ∧ c.blocks * c.circulant ≤ v) := by
  by_cases h1 : v < c.n
  · exact .inl h1
  by_cases h2 : c.blocks * c.circulant ≤ v
  · exact .inr (.inr ⟨by omega, h2⟩)
  by_cases h3 : c.IsTM
  · refine .inr (.inl ⟨h3, ?_⟩)
    obtain ⟨-, g2, g3, -⟩ := c.tm_rows h3
    have hb : v / c.circulant < c.blocks := Nat.div_lt_of_lt_mul (by rw [Nat.mul_comm]; omega)
    have hj := Nat.mod_lt v c.circulant_pos
    have hn : 16 ≤ v / c.circulant := by
      rw [not_lt, c.n_eq, g2] at h1
      exact (Nat.le_div_iff_mul_le c.circulant_pos).2 h1
    refine ⟨v / c.circulant - 16, by omega, _, hj, ?_⟩
    rw [show 16 + (v / c.circulant - 16) = v / c.circulant by omega]
    exact c.split_index v
  · have := c.tc_n h3
    omega

theorem rot_index_lt_iff (c : LdpcCode) (m v s : Nat) :
    v / c.circulant * c.circulant + (v % c.circulant + s) % c.circulant < m * c.circulant ↔ v < m * c.circulant := by
  rw [← not_le, ← not_le, c.le_index _ _ _ (Nat.mod_lt _ c.circulant_pos), Nat.le_div_iff_mul_le c.circulant_pos]

theorem fill_rot (c : LdpcCode) (s : Nat) (w : Nat → Bool) : c.fill (c.rot s w) = c.rot s (c.fill w) := by
  funext v
  have hiff := c.rot_index_lt_iff (c.n / c.circulant) v s
  rw [← c.n_eq] at hiff
  rcases c.place v with h | ⟨h, a, ha, j, hj, rfl⟩ | ⟨h1, h2⟩
  · rw [fill_lt c _ _ h]
    unfold rot
    rw [fill_lt c _ _ (hiff.2 h)]
  · have hjm : j = j % c.circulant := (Nat.mod_eq_of_lt hj).symm
    have e1 : c.rot s (c.fill w) ((16 + a) * c.circulant + j) = c.fill w ((16 + a) * c.circulant + (j + s) % c.circulant) := by
      unfold rot
      rw [hjm, index_div, index_mod, ← hjm]
    rw [e1, fill_tm c h _ a j ha hj, fill_tm c h _ a _ ha (Nat.mod_lt _ c.circulant_pos), ← violated_rot]
    congr 1
    funext u
    have hu := c.rot_index_lt_iff (c.n / c.circulant) u s
    rw [← c.n_eq] at hu
    unfold rot
    congr 1
    exact decide_eq_decide.2 hu.symm
  · have h2' : c.blocks * c.circulant ≤ v / c.circulant * c.circulant + (v % c.circulant + s) % c.circulant := by
      have := c.rot_index_lt_iff c.blocks v s
      omega
    have e : ∀ (w : Nat → Bool) (u : Nat), c.n ≤ u → c.blocks * c.circulant ≤ u → c.fill w u = false := by
      intro w u hu hu'
      unfold fill
      rw [if_neg (by omega), determining_none c u hu']
    rw [e _ _ h1 h2]
    exact (e w _ (by omega) h2').symm

/-- Bits of the punctured blocks, appended to the numbers of the transmitted ones. -/
def runFill (q : Nat) (rows : List (List (Nat × Nat))) (W : List Nat) : List Nat := W ++ (rows.drop 8).map (syndrome q W)

/-- The word agrees with the numbers on the transmitted bits. -/
def AgreeSent (c : LdpcCode) (w : Nat → Bool) (W : List Nat) : Prop :=
  ∀ b < c.n / c.circulant, ∀ j < c.circulant, w (b * c.circulant + j) = (W.getD b 0).testBit (c.circulant - 1 - j)

theorem runFill_agree (c : LdpcCode) {rows columns : List (List (Nat × Nat))} (H : Tables c rows columns) {w : Nat → Bool}
    {W : List Nat} (h : c.AgreeSent w W) (hW : W.length = c.n / c.circulant) :
    c.Agree (c.fill w) (runFill c.circulant rows W) ∧ (runFill c.circulant rows W).length = c.blocks := by
  have hr : rows.length = c.matrix.length := by rw [H.rows_eq]; simp
  have hblk : c.blocks = c.n / c.circulant + (c.matrix.length - 8) := by cases c <;> rfl
  refine ⟨?_, by rw [runFill, List.length_append, List.length_map, List.length_drop, hW, hr, hblk]⟩
  intro b hb j hj
  by_cases hs : b < c.n / c.circulant
  · have e1 : (runFill c.circulant rows W).getD b 0 = W.getD b 0 := by
      unfold runFill
      rw [List.getD_append _ _ _ _ (by omega)]
    have e2 : b * c.circulant + j < c.n := by
      rw [c.n_eq, ← not_le, c.le_index _ _ _ hj]
      omega
    rw [e1, ← h b hs j hj, fill_lt c _ _ e2]
  · have htm : c.IsTM := by
      by_contra hx
      have h1 := c.tc_n hx
      have : c.blocks * c.circulant / c.circulant = c.blocks := Nat.mul_div_cancel _ c.circulant_pos
      rw [← h1] at this
      omega
    obtain ⟨g1, g2, g3, -⟩ := c.tm_rows htm
    obtain ⟨a, rfl⟩ : ∃ a, b = 16 + a := ⟨b - 16, by omega⟩
    have ha : a < 4 := by omega
    have e1 : (runFill c.circulant rows W).getD (16 + a) 0 = syndrome c.circulant W (c.entries (8 + a)) := by
      unfold runFill
      rw [List.getD_append_right _ _ _ _ (by omega), hW, g2, Nat.add_sub_cancel_left,
        List.getD_eq_getElem _ _ (by rw [List.length_map, List.length_drop]; omega), List.getElem_map, List.getElem_drop]
      simp [H.rows_eq]
    rw [e1, fill_tm c htm w a j ha hj]
    have hrow : c.entries (8 + a) ∈ rows := by
      rw [H.rows_eq]
      exact List.mem_map.2 ⟨8 + a, List.mem_range.2 (by omega), rfl⟩
    have hag : c.Agree (fun u => decide (u < c.n) && w u) W := by
      intro b' hb' j' hj'
      by_cases hs' : b' < c.n / c.circulant
      · have e2 : b' * c.circulant + j' < c.n := by
          rw [c.n_eq, ← not_le, c.le_index _ _ _ hj']
          omega
        beta_reduce
        rw [decide_eq_true e2, Bool.true_and, h b' hs' j' hj']
      · have e2 : ¬b' * c.circulant + j' < c.n := by
          rw [c.n_eq, not_lt, c.le_index _ _ _ hj']
          omega
        beta_reduce
        rw [decide_eq_false e2, Bool.false_and, List.getD_eq_default _ _ (by omega)]
        simp
    rw [syndrome_testBit c hag _ (H.row_ok _ hrow) j hj]
    unfold violated
    rw [check_countP]

end LdpcCode
end Sia
