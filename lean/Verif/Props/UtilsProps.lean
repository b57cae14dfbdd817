import Verif.Model.Utils
import Verif.Props.RandomProps
import Verif.Lemmas.Lists

/-! C45 (nested vectors to matrix), C56 (approximate comparison helpers). -/
namespace Sia

theorem getElem?_flatten_rect {α : Type} (w : Nat) (x : List (List α)) (h : ∀ r ∈ x, r.length = w) (i j : Nat) (hi : i < x.length)
    (hj : j < w) : x.flatten[i * w + j]? = (x[i]?).bind (·[j]?) := by
  induction x generalizing i with
  | nil => simp at hi
  | cons r rest ih =>
    have hr := h r List.mem_cons_self
    rw [List.flatten_cons]
    cases i with
    | zero =>
      rw [Nat.zero_mul, Nat.zero_add, List.getElem?_append_left (by omega)]
      simp
    | succ i =>
      rw [List.getElem?_append_right (by rw [hr]; nlinarith), hr, show (i + 1) * w + j - w = i * w + j by
        rw [Nat.add_mul]; omega]
      rw [ih (fun r' hr' => h r' (List.mem_cons_of_mem _ hr')) i (by simpa using hi)]
      simp

theorem length_flatten_rect {α : Type} (w : Nat) (x : List (List α)) (h : ∀ r ∈ x, r.length = w) : x.flatten.length = x.length * w := by
  induction x with
  | nil => simp
  | cons r rest ih =>
    rw [List.flatten_cons, List.length_append, ih (fun r' hr' => h r' (List.mem_cons_of_mem _ hr')), h r List.mem_cons_self,
      List.length_cons]
    ring

/-- C45: on a non-empty rectangular nested vector the result has its rows and columns, and element `[i, j]` is `x[i][j]`. -/
theorem nested_vector_to_matrix {α : Type} [Inhabited α] (x : List (List α)) (w : Nat) (h0 : x ≠ []) (h : ∀ r ∈ x, r.length = w) :
    ∃ m, vector2dAsNdArray x = .ok m ∧ m.rows = x.length ∧ m.cols = w ∧
      ∀ i (hi : i < x.length) j (hj : j < (x[i]).length), m.get i j = x[i][j] := by
  cases x with
  | nil => exact absurd rfl h0
  | cons first rest =>
    have hw := h first List.mem_cons_self
    have hlen := length_flatten_rect w (first :: rest) h
    refine ⟨⟨(first :: rest).length, w, fun i j => (first :: rest).flatten.getD (i * w + j) default⟩, ?_, rfl, rfl, ?_⟩
    · show fromShapeVec (first :: rest).length first.length (first :: rest).flatten = _
      rw [hw]
      unfold fromShapeVec
      rw [if_pos hlen]
    · intro i hi j hj
      have hj' : j < w := by rw [← h _ (List.getElem_mem hi)]; exact hj
      dsimp only
      rw [List.getD_eq_getElem?_getD, getElem?_flatten_rect w (first :: rest) h i j hi hj', List.getElem?_eq_getElem hi,
        Option.bind_some, List.getElem?_eq_getElem hj, Option.getD_some]

/-- C45: an empty vector aborts; a vector is accepted exactly if its total size is the number of rows times the length of the
first row (in particular some ragged vectors are, and are silently reshaped). -/
theorem nested_vector_accepts_iff {α : Type} [Inhabited α] (x : List (List α)) :
    (∃ m, vector2dAsNdArray x = .ok m) ↔ ∃ first rest, x = first :: rest ∧
      (x.map List.length).sum = x.length * first.length := by
  cases x with
  | nil => simp [vector2dAsNdArray]
  | cons first rest =>
    have e : vector2dAsNdArray (first :: rest) = fromShapeVec (first :: rest).length first.length (first :: rest).flatten := rfl
    rw [e]
    unfold fromShapeVec
    rw [List.length_flatten]
    constructor
    · rintro ⟨m, h⟩
      split_ifs at h with hc
      exact ⟨first, rest, rfl, hc⟩
    · rintro ⟨f, r, hx, hc⟩
      cases hx
      rw [if_pos hc]
      exact ⟨_, rfl⟩

/-- A ragged vector is reshaped silently: `[[1, 2], [3], [4, 5, 6]]` reads as `[[1, 2], [3, 4], [5, 6]]`. -/
theorem ragged_vector_reshaped : ∃ m : Mat Nat, vector2dAsNdArray [[1, 2], [3], [4, 5, 6]] = .ok m ∧ m.rows = 3 ∧ m.cols = 2 ∧
    m.get 1 1 = 4 := ⟨_, rfl, rfl, rfl, rfl⟩

example : vector2dAsNdArray ([] : List (List Nat)) = .error .indexOutOfRange := rfl
example : vector2dAsNdArray [[1, 2], [3]] = .error .shapeMismatch := rfl
example : ∃ m, vector2dAsNdArray [[1, 2, 3], [4, 5, 6]] = .ok m ∧ m.rows = 2 ∧ m.cols = 3 ∧ m.get 1 0 = 4 := ⟨_, rfl, rfl, rfl, rfl⟩

/-! ### C56 -/

theorem approxDelta_fin : approxDelta = .fin (rne64 (1 / 10000)) :=
  (ofRat_fin _ 0 (by norm_num) (by norm_num) (by norm_num)).1

theorem sub_fin_cases (a b : ℚ) : F64.sub (.fin a) (.fin b) = .fin (rne64 (a - b)) ∨ ∃ s, F64.sub (.fin a) (.fin b) = .inf s := by
  have e : F64.sub (.fin a) (.fin b) = F64.ofRat (a - b) := by
    show F64.ofRat (a + -b) = _
    rw [← sub_eq_add_neg]
  rw [e]
  unfold F64.ofRat
  dsimp only
  split_ifs
  · exact Or.inr ⟨_, rfl⟩
  · exact Or.inl rfl

/-- C56: if the comparison of two numbers passes, both are finite (not NaN, not infinite) and their exact difference is less than
the double nearest to 0.0001; conversely it passes whenever the exact difference is at most 0.00009. -/
theorem assertApprox_sound (e a : F64) :
    (assertApprox e a = .ok () → ∃ x y : ℚ, e = .fin x ∧ a = .fin y ∧ |x - y| < rne64 (1 / 10000)) ∧
    (∀ x y : ℚ, e = .fin x → a = .fin y → |x - y| ≤ 9 / 100000 → assertApprox e a = .ok ()) := by
  constructor
  · intro h
    unfold assertApprox at h
    split_ifs at h with hl
    rw [approxDelta_fin] at hl
    cases e with
    | nan => cases a <;> simp [F64.sub, F64.add, F64.neg, F64.abs, F64.lt] at hl
    | inf s =>
      cases a with
      | nan => simp [F64.sub, F64.add, F64.neg, F64.abs, F64.lt] at hl
      | inf t => cases s <;> cases t <;> simp [F64.sub, F64.add, F64.neg, F64.abs, F64.lt] at hl
      | fin y => simp [F64.sub, F64.add, F64.neg, F64.abs, F64.lt] at hl
    | fin x =>
      cases a with
      | nan => simp [F64.sub, F64.add, F64.neg, F64.abs, F64.lt] at hl
      | inf t => simp [F64.sub, F64.add, F64.neg, F64.abs, F64.lt] at hl
      | fin y =>
        refine ⟨x, y, rfl, rfl, ?_⟩
        rcases sub_fin_cases x y with hs | ⟨s, hs⟩
        · rw [hs] at hl
          have hl' : |rne64 (x - y)| < rne64 (1 / 10000) := by simpa [F64.abs, F64.lt] using hl
          by_contra hge
          rw [not_lt] at hge
          rcases le_total 0 (x - y) with h0 | h0
          · rw [abs_of_nonneg h0] at hge
            have := le_rne64_of_le _ _ (rep64_rne64 _) hge
            have h2 := le_abs_self (rne64 (x - y))
            linarith
          · rw [abs_of_nonpos h0] at hge
            have hrep : Rep64 (-rne64 (1 / 10000)) := by
              obtain ⟨m, e, h1, h2, h3⟩ := rep64_rne64 (1 / 10000)
              exact ⟨-m, e, by rwa [abs_neg], h2, by rw [h3]; push_cast; ring⟩
            have := rne64_le_of_le (x - y) _ hrep (by linarith)
            have h2 := neg_le_abs (rne64 (x - y))
            linarith
        · rw [hs] at hl
          simp [F64.abs, F64.lt] at hl
  · rintro x y rfl rfl h
    have hpos : (95 / 1000000 : ℚ) ≤ rne64 (1 / 10000) := by
      refine le_trans ?_ (le_rne64_of_le (1 / 10000) (104 / 2 ^ 20) ⟨104, -20, by norm_num, by norm_num, by norm_num⟩ (by norm_num)) 
      norm_num
    have hb : |rne64 (x - y)| ≤ 94 / 1000000 := by
      have h0 := abs_le.mp h
      rcases rne64_err (x - y) with he | he
      · have h1 := abs_le.mp he
        have h2 : (1 : ℚ) / 2 ^ 53 * |x - y| ≤ 1 / 1000000 := by
          have : (1 : ℚ) / 2 ^ 53 * |x - y| ≤ 1 / 2 ^ 53 * (9 / 100000) := by gcongr
          refine this.trans (by norm_num)
        rw [abs_le]
        constructor <;> linarith
      · have h1 := abs_le.mp he
        have h2 : (1 : ℚ) / 2 ^ 1075 ≤ 1 / 1000000 := by
          apply one_div_le_one_div_of_le (by norm_num)
          calc (1000000 : ℚ) ≤ 2 ^ 20 := by norm_num
            _ ≤ 2 ^ 1075 := pow_le_pow_right₀ (by norm_num) (by norm_num)
        rw [abs_le]
        constructor <;> linarith
    have hs : F64.sub (.fin x) (.fin y) = .fin (rne64 (x - y)) := by
      show F64.ofRat (x + -y) = _
      rw [← sub_eq_add_neg]
      unfold F64.ofRat
      dsimp only
      rw [if_neg]
      rw [not_le]
      refine lt_of_le_of_lt hb ?_
      calc (94 / 1000000 : ℚ) < 2 ^ 0 := by norm_num
        _ ≤ 2 ^ 1024 := pow_le_pow_right₀ (by norm_num) (by norm_num)
    unfold assertApprox
    rw [if_pos]
    rw [hs, approxDelta_fin]
    show decide (|rne64 (x - y)| < rne64 (1 / 10000)) = true
    rw [decide_eq_true_eq]
    linarith

/-- C56: comparing vectors passes exactly if every element of `actual` has a counterpart in `expected` with which the comparison
passes: a longer `actual` aborts, but elements missing from `actual` are never noticed. -/
theorem assertApprox1d_iff (expected actual : List F64) :
    assertApprox1d expected actual = .ok () ↔
      ∃ h : actual.length ≤ expected.length, ∀ i (hi : i < actual.length), assertApprox expected[i] actual[i] = .ok () := by
  have key : ∀ (actual : List F64) (k : Nat), assertApprox1dFrom expected k actual = .ok () ↔
      ∀ i (hi : i < actual.length), ∃ e, expected[k + i]? = some e ∧ assertApprox e actual[i] = .ok () := by
    intro actual
    induction actual with
    | nil => intro k; simp [assertApprox1dFrom]
    | cons x rest ih =>
      intro k
      have hstep : assertApprox1dFrom expected k (x :: rest) = .ok () ↔
          (∃ e, expected[k]? = some e ∧ assertApprox e x = .ok ()) ∧ assertApprox1dFrom expected (k + 1) rest = .ok () := by
        conv_lhs => unfold assertApprox1dFrom
        cases he : expected[k]? with
        | none => simp [bind, Except.bind]
        | some e =>
          cases ha : assertApprox e x with
          | error p => simp [bind, Except.bind, ha]
          | ok u => simp [bind, Except.bind, ha]
      rw [hstep, ih]
      constructor
      · rintro ⟨h1, h2⟩ i hi
        cases i with
        | zero => exact h1
        | succ i =>
          have := h2 i (by simpa using hi)
          rw [show k + 1 + i = k + (i + 1) by omega] at this
          exact this
      · intro h
        refine ⟨h 0 (by simp), fun i hi => ?_⟩
        have := h (i + 1) (by simpa using hi)
        rw [show k + (i + 1) = k + 1 + i by omega] at this
        exact this
  unfold assertApprox1d
  rw [key]
  constructor
  · intro h
    have hle : actual.length ≤ expected.length := by
      by_contra hlt
      obtain ⟨e, he, _⟩ := h expected.length (by omega)
      rw [Nat.zero_add, List.getElem?_eq_none le_rfl] at he
      cases he
    refine ⟨hle, fun i hi => ?_⟩
    obtain ⟨e, he, ha⟩ := h i hi
    rw [Nat.zero_add, List.getElem?_eq_getElem (by omega)] at he
    cases he
    exact ha
  · rintro ⟨hle, h⟩ i hi
    exact ⟨expected[i], by rw [Nat.zero_add, List.getElem?_eq_getElem (by omega)], h i hi⟩

/-- C56: an empty result is accepted against any expectation. -/
theorem assertApprox1d_nil (expected : List F64) : assertApprox1d expected [] = .ok () := rfl

theorem unit_seq (a b : Res Unit) : (a >>= fun _ => b) = .ok () ↔ a = .ok () ∧ b = .ok () := by
  cases a with
  | error e => simp [bind, Except.bind]
  | ok u => simp [bind, Except.bind]

/-- C56: complex numbers and pairs pass exactly if both parts do. -/
theorem assertApproxPair_iff (e a : F64 × F64) :
    (assertApproxComplex e a = .ok () ↔ assertApprox e.1 a.1 = .ok () ∧ assertApprox e.2 a.2 = .ok ()) ∧
    (assertApproxTuple e a = .ok () ↔ assertApprox e.1 a.1 = .ok () ∧ assertApprox e.2 a.2 = .ok ()) :=
  ⟨unit_seq _ _, unit_seq _ _⟩

theorem forM_ok_iff {α : Type} (f : α → Res Unit) (l : List α) : l.forM f = .ok () ↔ ∀ x ∈ l, f x = .ok () := by
  induction l with
  | nil => simp [pure, Except.pure]
  | cons x l ih =>
    have e : (x :: l).forM f = f x >>= fun _ => l.forM f := rfl
    rw [e, unit_seq, ih]
    simp

theorem assertMatrix_iff {α : Type} (check : α → α → Res Unit) (e a : Mat α) :
    assertMatrix check e a = .ok () ↔ ∀ i < a.rows, ∀ j < a.cols, i < e.rows ∧ j < e.cols ∧ check (e.get i j) (a.get i j) = .ok () := by
  unfold assertMatrix
  rw [forM_ok_iff]
  constructor
  · intro h i hi j hj
    have h1 := (forM_ok_iff _ _).1 (h i (List.mem_range.2 hi)) j (List.mem_range.2 hj)
    unfold assertElement at h1
    split_ifs at h1 with hc
    exact ⟨hc.1, hc.2, h1⟩
  · intro h i hi
    rw [forM_ok_iff]
    intro j hj
    obtain ⟨h1, h2, h3⟩ := h i (List.mem_range.1 hi) j (List.mem_range.1 hj)
    unfold assertElement
    rw [if_pos ⟨h1, h2⟩]
    exact h3

/-- C56: matrices pass exactly if every element of `actual` has a counterpart in `expected` with which the comparison passes, of
real and of complex elements; rows and columns missing from `actual` are never noticed. -/
theorem assertApprox2d_iff (e a : Mat F64) (e' a' : Mat (F64 × F64)) :
    (assertApprox2d e a = .ok () ↔
      ∀ i < a.rows, ∀ j < a.cols, i < e.rows ∧ j < e.cols ∧ assertApprox (e.get i j) (a.get i j) = .ok ()) ∧
    (assertApprox2dComplex e' a' = .ok () ↔
      ∀ i < a'.rows, ∀ j < a'.cols, i < e'.rows ∧ j < e'.cols ∧ assertApprox (e'.get i j).1 (a'.get i j).1 = .ok () ∧
        assertApprox (e'.get i j).2 (a'.get i j).2 = .ok ()) := by
  refine ⟨assertMatrix_iff _ _ _, (assertMatrix_iff _ _ _).trans ?_⟩
  simp only [(assertApproxPair_iff _ _).1]

/-- A 1 x 2 matrix passes against a 2 x 3 one, but not the other way round. -/
example : assertApprox2d ⟨2, 3, fun _ _ => .fin 1⟩ ⟨1, 2, fun _ _ => .fin (100005 / 100000)⟩ = .ok () ∧
    assertApprox2d ⟨1, 2, fun _ _ => .fin 1⟩ ⟨2, 3, fun _ _ => .fin 1⟩ ≠ .ok () := by
  constructor
  · rw [(assertApprox2d_iff _ _ ⟨0, 0, fun _ _ => (.fin 0, .fin 0)⟩ ⟨0, 0, fun _ _ => (.fin 0, .fin 0)⟩).1]
    intro i hi j hj
    have hi : i < 1 := hi
    have hj : j < 2 := hj
    exact ⟨show i < 2 by omega, show j < 3 by omega, (assertApprox_sound _ _).2 _ _ rfl rfl (by norm_num [abs_le])⟩
  · rw [ne_eq, (assertApprox2d_iff _ _ ⟨0, 0, fun _ _ => (.fin 0, .fin 0)⟩ ⟨0, 0, fun _ _ => (.fin 0, .fin 0)⟩).1]
    intro h
    have := (h 1 (by show 1 < 2; norm_num) 0 (by show 0 < 3; norm_num)).1
    exact absurd (show 1 < 1 from this) (by norm_num)

example : assertApprox (.fin 1) (.fin (100005 / 100000)) = .ok () :=
  (assertApprox_sound _ _).2 _ _ rfl rfl (by norm_num [abs_le])

end Sia
