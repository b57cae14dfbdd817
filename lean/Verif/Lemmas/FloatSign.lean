import Verif.Model.Steganography
import Verif.Lemmas.FloatInstances

/-! Sign symmetry and NaN propagation of the `f64` operations. -/
namespace Sia
open FloatOps

theorem rneInt_neg (x : ℚ) : rneInt (-x) = -rneInt x := by
  unfold rneInt
  dsimp only
  by_cases hz : (⌊x⌋ : ℚ) = x
  · have e : ⌊-x⌋ = -⌊x⌋ := by rw [← hz, Int.floor_intCast, ← Int.cast_neg, Int.floor_intCast]
    rw [e]
    push_cast
    rw [hz]
    norm_num
  · have h1 := Int.floor_le x
    have h2 := Int.lt_floor_add_one x
    have h1' : (⌊x⌋ : ℚ) < x := lt_of_le_of_ne h1 hz
    have e : ⌊-x⌋ = -⌊x⌋ - 1 := by
      rw [Int.floor_eq_iff]; push_cast; constructor <;> linarith
    rw [e]
    push_cast
    generalize ⌊x⌋ = f at *
    split_ifs <;> first | omega | (exfalso; linarith)

theorem ulpExp_neg (x : ℚ) : ulpExp (-x) = ulpExp x := by unfold ulpExp; rw [abs_neg]

theorem rne64_neg (x : ℚ) : rne64 (-x) = -rne64 x := by
  unfold rne64
  by_cases h : x = 0
  · simp [h]
  · rw [if_neg h, if_neg (by simpa using h), ulpExp_neg, neg_div, rneInt_neg]
    push_cast; ring

theorem rneInt_zero : rneInt 0 = 0 := by simpa using rneInt_int 0

theorem rne64_zero : rne64 0 = 0 := by unfold rne64; simp

/-- `ofRat` is odd. -/
theorem F64.ofRat_neg (x : ℚ) : F64.ofRat (-x) = (F64.ofRat x).neg := by
  unfold F64.ofRat
  dsimp only
  rw [rne64_neg, abs_neg]
  split_ifs with h
  · have hx : x ≠ 0 := by
      rintro rfl
      rw [rne64_zero, abs_zero] at h
      have : (0 : ℚ) < 2 ^ (1024 : ℕ) := by positivity
      exact absurd h (not_le.2 this)
    unfold F64.neg
    dsimp only
    congr 1
    rcases lt_or_gt_of_ne hx with h' | h'
    · simp [h', h'.le, not_lt.2 h'.le]
    · simp [h', h'.le, not_lt.2 h'.le]
  · rfl

theorem roundAway_neg (x : ℚ) : roundAway (-x) = -roundAway x := by
  unfold roundAway
  rcases lt_trichotomy x 0 with h | h | h
  · rw [if_pos (by linarith), if_neg (by linarith), show -x + 1 / 2 = -(x - 1 / 2) by ring, Int.floor_neg]
  · subst h; norm_num
  · rw [if_neg (by linarith), if_pos h.le, show -x - 1 / 2 = -(x + 1 / 2) by ring, Int.ceil_neg]

namespace F64

theorem neg_neg (a : F64) : a.neg.neg = a := by
  cases a <;> simp [neg]

theorem round_neg (a : F64) : round a.neg = (round a).neg := by
  cases a <;> simp [neg, round, roundAway_neg]

/-- Dividing by the opposite of a non-zero number gives the opposite quotient. -/
theorem div_neg (a b : F64) (hb : b ≠ fin 0) : div a b.neg = (div a b).neg := by
  cases a with
  | nan => cases b <;> rfl
  | inf s =>
    cases b with
    | nan => rfl
    | inf t => rfl
    | fin y =>
      have hy : y ≠ 0 := by rintro rfl; exact hb rfl
      simp only [neg, div]
      congr 1
      rcases lt_or_gt_of_ne hy with h | h
      · simp [h, not_lt.2 h.le]
      · simp [h, not_lt.2 h.le]
  | fin x =>
    cases b with
    | nan => rfl
    | inf t => simp [neg, div]
    | fin y =>
      have hy : y ≠ 0 := by rintro rfl; exact hb rfl
      simp only [neg, div]
      rw [if_neg hy, if_neg (by simpa using hy)]
      have : x / -y = -(x / y) := by field_simp
      rw [this, ofRat_neg]
      rfl

/-- The product of two opposites. -/
theorem mul_neg_neg (a b : F64) : mul a.neg b.neg = mul a b := by
  have hs : ∀ y : ℚ, y ≠ 0 → decide (-y < 0) = !decide (y < 0) := by
    intro y hy
    rcases lt_or_gt_of_ne hy with h | h
    · simp [h, h.le]
    · simp [h, h.le]
  cases a with
  | nan => cases b <;> rfl
  | inf s =>
    cases b with
    | nan => rfl
    | inf t => simp [neg, mul]
    | fin y =>
      by_cases hy : y = 0
      · simp [neg, mul, hy]
      · simp only [neg, mul]
        rw [if_neg hy, if_neg (by simpa using hy), hs y hy]
        simp
  | fin x =>
    cases b with
    | nan => rfl
    | inf t =>
      by_cases hx : x = 0
      · simp [neg, mul, hx]
      · simp only [neg, mul]
        rw [if_neg hx, if_neg (by simpa using hx), hs x hx]
        simp
    | fin y => simp [neg, mul]

/-- The sum of two opposites. -/
theorem add_neg_neg (a b : F64) : add a.neg b.neg = (add a b).neg := by
  cases a <;> cases b <;> simp only [neg, add]
  · split_ifs <;> simp_all
  · rename_i x y
    have := ofRat_neg (x + y)
    rw [neg_add] at this
    exact this

end F64

/-- A zero or undefined depth. -/
def BadDepth (d : F64) : Prop := d = .nan ∨ d = .fin 0

/-- Whatever is multiplied by a zero depth after division by it is undefined. -/
theorem quotient_bad (d c : F64) (hd : BadDepth d) : ∀ x : F64, (∃ q, x = F64.add (F64.round (F64.div c d)) (.fin q)) ∨ x = F64.round (F64.div c d) →
    F64.mul d x = .nan := by
  rintro x hx
  rcases hd with rfl | rfl
  · cases x <;> rfl
  · cases c with
    | nan => rcases hx with ⟨q, rfl⟩ | rfl <;> rfl
    | inf s => rcases hx with ⟨q, rfl⟩ | rfl <;> simp [F64.div, F64.round, F64.add, F64.mul]
    | fin y =>
      by_cases hy : y = 0
      · rcases hx with ⟨q, rfl⟩ | rfl <;> simp [F64.div, F64.round, F64.add, F64.mul, hy]
      · rcases hx with ⟨q, rfl⟩ | rfl <;> simp [F64.div, F64.round, F64.add, F64.mul, hy]

theorem f64_quarter (b : Bool) : (if b then lit (1 / 4) else lit (-1 / 4) : F64) = .fin (if b then 1 / 4 else -1 / 4) := by
  have h := fun m hm => rne64_dyadic m 2 hm (by norm_num)
  have e1 : F64.ofRat (1 / 4) = .fin (1 / 4) := by
    have h1 := h 1 (by norm_num)
    norm_num at h1
    unfold F64.ofRat
    dsimp only
    rw [h1, if_neg]
    rw [abs_of_pos (by norm_num)]
    have : (1 : ℚ) ≤ 2 ^ (1024 : ℕ) := one_le_pow₀ (by norm_num)
    generalize (2 : ℚ) ^ (1024 : ℕ) = B at *
    intro hB
    linarith
  have e2 : F64.ofRat (-1 / 4) = .fin (-1 / 4) := by
    rw [show (-1 / 4 : ℚ) = -(1 / 4) by norm_num, F64.ofRat_neg, e1]
    rfl
  cases b
  · exact e2
  · exact e1

theorem writeCell_f64 (d c : F64) (b : Bool) : writeCell d b c =
    F64.mul d (F64.add (F64.round (F64.div c d)) (.fin (if b then 1 / 4 else -1 / 4))) := by
  unfold writeCell
  dsimp only
  rw [f64_quarter]
  rfl

theorem readCell_f64 (d c : F64) : readCell d c =
    F64.ge (F64.sub c (F64.mul d (F64.round (F64.div c d)))) (ofInt 0) := by
  unfold readCell
  generalize (ofInt 0 : F64) = z
  rfl

/-- With a zero or undefined depth every written coefficient is NaN. -/
theorem writeCell_bad (d c : F64) (b : Bool) (hd : BadDepth d) : writeCell d b c = .nan := by
  rw [writeCell_f64]
  exact quotient_bad d c hd _ (Or.inl ⟨_, rfl⟩)

/-- With a zero or undefined depth every cell reads as 0. -/
theorem readCell_bad (d c : F64) (hd : BadDepth d) : readCell d c = false := by
  rw [readCell_f64, quotient_bad d c hd _ (Or.inr rfl)]
  generalize (ofInt 0 : F64) = z
  cases c <;> cases z <;> rfl

/-- The reader does not see the sign of the depth. -/
theorem readCell_neg (d c : F64) : readCell d.neg c = readCell d c := by
  by_cases hd : d = .fin 0
  · subst hd; simp [F64.neg]
  · rw [readCell_f64, readCell_f64, F64.div_neg c d hd, F64.round_neg, F64.mul_neg_neg]

/-- Writing with the opposite depth writes the opposite bit. -/
theorem writeCell_neg (d c : F64) (b : Bool) : writeCell d.neg b c = writeCell d (!b) c := by
  by_cases hd : d = .fin 0
  · rw [writeCell_bad _ _ _ (Or.inr hd), writeCell_bad _ _ _ (Or.inr (by rw [hd]; simp [F64.neg]))]
  · rw [writeCell_f64, writeCell_f64, F64.div_neg c d hd, F64.round_neg]
    have e : (F64.fin (if b then 1 / 4 else -1 / 4)) = (F64.fin (if (!b) then 1 / 4 else -1 / 4)).neg := by
      cases b <;> simp [F64.neg] <;> norm_num
    rw [e, F64.add_neg_neg, F64.mul_neg_neg]

end Sia
