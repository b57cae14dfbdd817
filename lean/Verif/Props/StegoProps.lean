import Verif.Spec.MatSpec
import Verif.Lemmas.StegoLemmas
import Verif.Lemmas.CellLemmas

/-! C15–C18: the steganographic writer and reader. -/
namespace Sia
open FloatOps LawfulFloat

/-! ### C15, C17: reading what was written, with noise, in exact arithmetic -/

/-- C17: on a square domain, after writing in exact arithmetic, any change of every coefficient by less than a quarter
of the depth leaves the written bytes readable. -/
theorem read_write_noise (n : Nat) (m noisy : Mat ℝ) (bytes : List UInt8) (depth : ℝ) (hd : 0 < depth)
    (hm : m.IsSquare n) (hb : 8 * bytes.length ≤ n * n) :
    ∃ m', write m bytes depth = .ok m' ∧
      (noisy.IsSquare n → (∀ i < n, ∀ j < n, |noisy.get i j - m'.get i j| < depth / 4) →
        ∃ rest, read noisy depth = .ok (bytes ++ rest)) := by
  obtain ⟨m', e, _, _, hg⟩ := write_square m bytes depth n hm.1 hm.2 hb
  refine ⟨m', e, fun hn hnoise => ?_⟩
  obtain ⟨rest, hrest, _⟩ := read_prefix noisy depth n hn.1 hn.2 bytes hb (by
    intro o ho
    obtain ⟨h1, h2⟩ := addr_lt n o (by omega)
    have hno := hnoise _ h1 _ h2
    rw [hg, if_pos ⟨h1, h2, by rw [mul_comm, Nat.div_add_mod]; exact ho⟩] at hno
    rw [show o / n * n + o % n = o by rw [mul_comm, Nat.div_add_mod]] at hno
    set b := (bytesBits bytes).getD o false
    rw [writeCell_real] at hno
    set k := roundAway (m.get (o / n) (o % n) / depth)
    set c := noisy.get (o / n) (o % n)
    have hq : |quarter b| ≤ 1 / 4 := by unfold quarter; split_ifs <;> norm_num [abs_le]
    have hr : roundAway (c / depth) = k := by
      apply roundAway_eq
      have h3 : |c / depth - (k + quarter b)| < 1 / 4 := by
        have : c / depth - (k + quarter b) = (c - depth * (k + quarter b)) / depth := by field_simp
        rw [this, abs_div, abs_of_pos hd, div_lt_iff₀ hd]; linarith
      calc |c / depth - k| = |(c / depth - (k + quarter b)) + quarter b| := by ring_nf
        _ ≤ _ := abs_add_le _ _
        _ < _ := by linarith
    rw [readCell_real, hr]
    obtain ⟨a1, a2⟩ := abs_lt.mp hno
    cases hbv : b with
    | true =>
      rw [hbv] at a1 a2
      simp only [quarter, if_true] at a1 a2
      rw [decide_eq_true_iff]; linarith
    | false =>
      rw [hbv] at a1 a2
      simp only [quarter, Bool.false_eq_true, if_false] at a1 a2
      rw [decide_eq_false_iff_not]; linarith)
  exact ⟨rest, hrest⟩

/-- C15: reading after writing returns a byte string that starts with the written bytes (exact arithmetic, any
coefficients). -/
theorem read_write_exact (n : Nat) (m : Mat ℝ) (bytes : List UInt8) (depth : ℝ) (hd : 0 < depth)
    (hm : m.IsSquare n) (hb : 8 * bytes.length ≤ n * n) :
    ∃ m', write m bytes depth = .ok m' ∧ ∃ rest, read m' depth = .ok (bytes ++ rest) := by
  obtain ⟨m', e, h1, h2, _⟩ := write_square m bytes depth n hm.1 hm.2 hb
  obtain ⟨m2, e2, h⟩ := read_write_noise n m m' bytes depth hd hm hb
  rw [e] at e2
  cases e2
  exact ⟨m', e, h ⟨h1, h2⟩ (by intro i _ j _; simp; linarith)⟩

/-- C17: the margin is exact: for every domain, every non-empty byte string and every bound above a quarter depth there
is a change of a single coefficient within that bound that destroys the first written bit. -/
theorem noise_margin_tight (n : Nat) (m : Mat ℝ) (bytes : List UInt8) (depth ε : ℝ) (hd : 0 < depth) (hε : 0 < ε)
    (hm : m.IsSquare n) (hb : 8 * bytes.length ≤ n * n) (hne : bytes ≠ []) :
    ∃ m', write m bytes depth = .ok m' ∧ ∃ noisy : Mat ℝ, noisy.IsSquare n ∧
      (∀ i < n, ∀ j < n, |noisy.get i j - m'.get i j| ≤ (1 / 4 + ε) * depth) ∧
      ∀ out, read noisy depth = .ok out → ¬ bytes <+: out := by
  obtain ⟨m', e, hr', hc', hg⟩ := write_square m bytes depth n hm.1 hm.2 hb
  have hlen : 0 < bytes.length := List.length_pos_iff.mpr hne
  have hnn : 0 < n * n := by omega
  have hn : 0 < n := by rcases Nat.eq_zero_or_pos n with rfl | h; · simp at hnn
                        · exact h
  set t := min ε (1 / 4) with ht
  have ht0 : 0 < t := lt_min hε (by norm_num)
  have ht1 : t ≤ 1 / 4 := min_le_right _ _
  have htε : t ≤ ε := min_le_left _ _
  set b := (bytesBits bytes).getD 0 false with hbdef
  set k := roundAway (m.get 0 0 / depth) with hk
  have hcell : m'.get 0 0 = depth * (k + quarter b) := by
    rw [hg, if_pos ⟨hn, hn, by simp; omega⟩, writeCell_real]; simp [hbdef, hk]
  set δ := (if b then (1 / 4 + t) else -(1 / 4 + t)) * depth with hδ
  have hδabs : |δ| = (1 / 4 + t) * depth := by
    rw [hδ, abs_mul, abs_of_pos hd]
    congr 1
    cases b
    · rw [if_neg (by simp), abs_neg, abs_of_pos (by linarith)]
    · rw [if_pos rfl, abs_of_pos (by linarith)]
  refine ⟨m', e, m'.set 0 0 (m'.get 0 0 + δ), ⟨hr', hc'⟩, ?_, ?_⟩
  · intro i _ j _
    show |(if i = 0 ∧ j = 0 then m'.get 0 0 + δ else m'.get i j) - m'.get i j| ≤ _
    split_ifs with h
    · obtain ⟨rfl, rfl⟩ := h
      rw [add_sub_cancel_left, hδabs]
      exact mul_le_mul_of_nonneg_right (by linarith) hd.le
    · rw [sub_self, abs_zero]
      have : 0 < (1 / 4 + ε) * depth := by positivity
      exact this.le
  · intro out hout hpre
    obtain ⟨out', hout', hl, hbits⟩ := read_square (m'.set 0 0 (m'.get 0 0 + δ)) depth n hr' hc'
    rw [hout] at hout'
    cases hout'
    obtain ⟨rest, rfl⟩ := hpre
    have hb0 := hbits 0 (by simp; omega)
    rw [bytesBits_append, List.getElem?_append_left (by simp; omega)] at hb0
    have hb1 : (bytesBits bytes)[0]? = some b := by
      rw [hbdef, List.getD_eq_getElem?_getD]
      have : 0 < (bytesBits bytes).length := by simp; omega
      rw [List.getElem?_eq_getElem this]; rfl
    rw [hb1] at hb0
    have hget : (m'.set 0 0 (m'.get 0 0 + δ)).get (0 / n) (0 % n) = m'.get 0 0 + δ := by
      simp [Mat.set]
    rw [hget, readCell_real, hcell] at hb0
    have hb0' := Option.some.inj hb0
    cases hbv : b with
    | true =>
      rw [hbv] at hb0' hδ
      simp only [quarter, if_true] at hb0' hδ
      have hr : roundAway ((depth * ((k : ℝ) + 1 / 4) + δ) / depth) = k + 1 := by
        apply roundAway_eq
        rw [hδ]
        have : (depth * ((k : ℝ) + 1 / 4) + (1 / 4 + t) * depth) / depth - ((k + 1 : ℤ) : ℝ) = t - 1 / 2 := by
          push_cast; field_simp; ring
        rw [this, abs_lt]; constructor <;> linarith
      rw [hr] at hb0'
      have := of_decide_eq_true hb0'.symm
      push_cast at this
      rw [hδ] at this
      nlinarith
    | false =>
      rw [hbv] at hb0' hδ
      simp only [quarter, Bool.false_eq_true, if_false] at hb0' hδ
      have hr : roundAway ((depth * ((k : ℝ) + -1 / 4) + δ) / depth) = k - 1 := by
        apply roundAway_eq
        rw [hδ]
        have : (depth * ((k : ℝ) + -1 / 4) + -(1 / 4 + t) * depth) / depth - ((k - 1 : ℤ) : ℝ) = 1 / 2 - t := by
          push_cast; field_simp; ring
        rw [this, abs_lt]; constructor <;> linarith
      rw [hr] at hb0'
      have := of_decide_eq_false hb0'.symm
      apply this
      push_cast
      rw [hδ]
      nlinarith

/-! ### C15, C17 in any lawful arithmetic, in particular IEEE binary64 -/

/-- C15/C17 in lawful floating-point arithmetic: coefficients of at most `2^40` depths, noise below a quarter depth minus
a rounding slack of at most `2^-10` depths. -/
theorem read_write_noise_float {F : Type} [FloatOps F] [LawfulFloat F] (n : Nat) (m noisy : Mat F)
    (bytes : List UInt8) (depth : F) (hd : GoodDepth depth) (hm : m.IsSquare n) (hb : 8 * bytes.length ≤ n * n)
    (hc : ∀ i < n, ∀ j < n, fin (m.get i j) ∧ |val (m.get i j)| ≤ 2 ^ 40 * val depth) :
    ∃ m', write m bytes depth = .ok m' ∧
      (noisy.IsSquare n →
        (∀ i < n, ∀ j < n, fin (noisy.get i j) ∧ |val (noisy.get i j) - val (m'.get i j)| < (1 / 4 - 1 / 2 ^ 10) * val depth) →
        ∃ rest, read noisy depth = .ok (bytes ++ rest)) := by
  obtain ⟨m', e, _, _, hg⟩ := write_square m bytes depth n hm.1 hm.2 hb
  refine ⟨m', e, fun hn hnoise => ?_⟩
  obtain ⟨rest, hrest, _⟩ := read_prefix noisy depth n hn.1 hn.2 bytes hb (by
    intro o ho
    obtain ⟨h1, h2⟩ := addr_lt n o (by omega)
    obtain ⟨hf, hno⟩ := hnoise _ h1 _ h2
    obtain ⟨hcf, hcb⟩ := hc _ h1 _ h2
    rw [hg, if_pos ⟨h1, h2, by rw [mul_comm, Nat.div_add_mod]; exact ho⟩] at hno
    rw [show o / n * n + o % n = o by rw [mul_comm, Nat.div_add_mod]] at hno
    refine readCell_writeCell depth _ _ hd _ hcf hf (2 ^ 40) (by positivity) (by norm_num) hcb (lt_of_lt_of_le hno ?_)
    apply mul_le_mul_of_nonneg_right _ hd.pos.le
    have h3 : u F * (5 * 2 ^ 40 + 20) ≤ 1 / 2 ^ 53 * (5 * 2 ^ 40 + 20) :=
      mul_le_mul_of_nonneg_right (u_le (F := F)) (by positivity)
    have h4 : (1 : ℝ) / 2 ^ 53 * (5 * 2 ^ 40 + 20) ≤ 1 / 2 ^ 10 := by norm_num
    linarith)
  exact ⟨rest, hrest⟩

/-- C15 in lawful floating-point arithmetic. -/
theorem read_write_float {F : Type} [FloatOps F] [LawfulFloat F] (n : Nat) (m : Mat F) (bytes : List UInt8) (depth : F)
    (hd : GoodDepth depth) (hm : m.IsSquare n) (hb : 8 * bytes.length ≤ n * n)
    (hc : ∀ i < n, ∀ j < n, fin (m.get i j) ∧ |val (m.get i j)| ≤ 2 ^ 40 * val depth) :
    ∃ m', write m bytes depth = .ok m' ∧ ∃ rest, read m' depth = .ok (bytes ++ rest) := by
  obtain ⟨m', e, h1, h2, hg⟩ := write_square m bytes depth n hm.1 hm.2 hb
  obtain ⟨m2, e2, h⟩ := read_write_noise_float n m m' bytes depth hd hm hb hc
  rw [e] at e2
  cases e2
  refine ⟨m', e, h ⟨h1, h2⟩ ?_⟩
  intro i hi j hj
  constructor
  · rw [hg]
    split_ifs
    · obtain ⟨_, _, _, hf, _⟩ := writeCell_spec depth (m.get i j) hd ((bytesBits bytes).getD (i * n + j) false)
        (hc i hi j hj).1 (2 ^ 40) (by positivity) (by norm_num) (hc i hi j hj).2
      exact hf
    · exact (hc i hi j hj).1
  · simp only [sub_self, abs_zero]
    exact mul_pos (by norm_num) hd.pos

/-- C15: writing leaves the rest of the domain alone: if a square domain reads as `old` before and as `out` after writing,
then `out` has the full length and ends as `old` does. For every arithmetic and every depth. -/
theorem read_write_rest {F : Type} [FloatOps F] (n : Nat) (m m' : Mat F) (bytes old out : List UInt8) (depth : F)
    (hm : m.IsSquare n) (hw : write m bytes depth = .ok m') (ho : read m depth = .ok old) (hr : read m' depth = .ok out) :
    out.length = n * n / 8 ∧ old.length = n * n / 8 ∧ out.drop bytes.length = old.drop bytes.length := by
  have hb : 8 * bytes.length ≤ n * n := by
    by_contra h
    rw [write_too_long m bytes depth (by unfold getCapacity; rw [hm.1, hm.2]; omega)] at hw
    simp at hw
  obtain ⟨m2, e, h1, h2, hg⟩ := write_square m bytes depth n hm.1 hm.2 hb
  obtain rfl : m2 = m' := by rw [e] at hw; exact Except.ok.inj hw
  obtain ⟨o1, e1, l1, b1⟩ := read_square m depth n hm.1 hm.2
  obtain ⟨o2, e2, l2, b2⟩ := read_square m2 depth n h1 h2
  rw [ho] at e1; cases e1
  rw [hr] at e2; cases e2
  refine ⟨l2, l1, ?_⟩
  apply bytesBits_injective
  have hdrop : ∀ l : List UInt8, bytes.length ≤ l.length → ∀ o, (bytesBits (l.drop bytes.length))[o]? =
      (bytesBits l)[8 * bytes.length + o]? := by
    intro l hl o
    conv_rhs => rw [← List.take_append_drop bytes.length l, bytesBits_append]
    have hlen : (bytesBits (l.take bytes.length)).length = 8 * bytes.length := by
      rw [bytesBits_length, List.length_take, Nat.min_eq_left hl]
    rw [List.getElem?_append_right (by omega), hlen, Nat.add_sub_cancel_left]
  apply List.ext_getElem?
  intro o
  rw [hdrop out (by omega), hdrop old (by omega)]
  by_cases hlt : 8 * bytes.length + o < 8 * old.length
  · rw [b1 _ hlt, b2 _ (by omega)]
    have ha : (8 * bytes.length + o) / n * n + (8 * bytes.length + o) % n = 8 * bytes.length + o := by
      rw [mul_comm, Nat.div_add_mod]
    rw [hg, if_neg]
    rintro ⟨_, _, h3⟩
    rw [ha] at h3
    omega
  · rw [List.getElem?_eq_none (by simp; omega), List.getElem?_eq_none (by simp; omega)]

/-- C15, complete: in exact arithmetic the domain reads, after writing, as the written bytes followed by what it read before
from that position on. -/
theorem read_after_write_exact (n : Nat) (m : Mat ℝ) (bytes : List UInt8) (depth : ℝ) (hd : 0 < depth)
    (hm : m.IsSquare n) (hb : 8 * bytes.length ≤ n * n) :
    ∃ m' old, write m bytes depth = .ok m' ∧ m'.IsSquare n ∧ read m depth = .ok old ∧ old.length = n * n / 8 ∧
      read m' depth = .ok (bytes ++ old.drop bytes.length) := by
  obtain ⟨m', e, rest, hr⟩ := read_write_exact n m bytes depth hd hm hb
  obtain ⟨old, ho, hl, _⟩ := read_square m depth n hm.1 hm.2
  obtain ⟨m2, e2, s1, s2, _⟩ := write_square m bytes depth n hm.1 hm.2 hb
  rw [e] at e2; cases e2
  obtain ⟨_, _, h3⟩ := read_write_rest n m m' bytes old _ depth hm e ho hr
  rw [List.drop_left] at h3
  exact ⟨m', old, e, ⟨s1, s2⟩, ho, hl, by rw [hr, h3]⟩

/-- C15, complete, in lawful floating-point arithmetic. -/
theorem read_after_write_float {F : Type} [FloatOps F] [LawfulFloat F] (n : Nat) (m : Mat F) (bytes : List UInt8) (depth : F)
    (hd : GoodDepth depth) (hm : m.IsSquare n) (hb : 8 * bytes.length ≤ n * n)
    (hc : ∀ i < n, ∀ j < n, fin (m.get i j) ∧ |val (m.get i j)| ≤ 2 ^ 40 * val depth) :
    ∃ m' old, write m bytes depth = .ok m' ∧ m'.IsSquare n ∧ read m depth = .ok old ∧ old.length = n * n / 8 ∧
      read m' depth = .ok (bytes ++ old.drop bytes.length) := by
  obtain ⟨m', e, rest, hr⟩ := read_write_float n m bytes depth hd hm hb hc
  obtain ⟨old, ho, hl, _⟩ := read_square m depth n hm.1 hm.2
  obtain ⟨m2, e2, s1, s2, _⟩ := write_square m bytes depth n hm.1 hm.2 hb
  rw [e] at e2; cases e2
  obtain ⟨_, _, h3⟩ := read_write_rest n m m' bytes old _ depth hm e ho hr
  rw [List.drop_left] at h3
  exact ⟨m', old, e, ⟨s1, s2⟩, ho, hl, by rw [hr, h3]⟩

/-- C15 for IEEE binary64: depth 10, a 16 × 16 domain of coefficients up to 2^40, any 32 bytes. -/
example (m : Mat F64) (bytes : List UInt8) (hlen : bytes.length = 32) (hm : m.IsSquare 16)
    (hc : ∀ i < 16, ∀ j < 16, ∃ x : ℚ, m.get i j = F64.fin x ∧ |(x : ℝ)| ≤ 2 ^ 40) :
    ∃ m', write m bytes (F64.fin 10) = .ok m' ∧ ∃ rest, read m' (F64.fin 10) = .ok (bytes ++ rest) := by
  have hv : val (F64.fin 10) = 10 := by show ((10 : ℚ) : ℝ) = 10; norm_num
  refine read_write_float 16 m bytes (F64.fin 10) ⟨trivial, by rw [hv]; norm_num, by rw [hv]; norm_num⟩ hm (by omega) ?_
  intro i hi j hj
  obtain ⟨x, hx, hb⟩ := hc i hi j hj
  rw [hx, hv]
  exact ⟨trivial, by show |(x : ℝ)| ≤ _; linarith⟩

/-! ### C18 -/

/-- C18: writing changes each of the first `8 * len` coefficients (row-major) by at most three quarters of the depth and
no other coefficient at all. -/
theorem write_changes_exact (n : Nat) (m m' : Mat ℝ) (bytes : List UInt8) (depth : ℝ) (hd : 0 < depth)
    (hm : m.IsSquare n) (hw : write m bytes depth = .ok m') :
    m'.IsSquare n ∧ 8 * bytes.length ≤ n * n ∧
    (∀ i < n, ∀ j < n, i * n + j < 8 * bytes.length → |m'.get i j - m.get i j| ≤ 3 / 4 * depth) ∧
    ∀ i j, ¬ (i < n ∧ j < n ∧ i * n + j < 8 * bytes.length) → m'.get i j = m.get i j := by
  have hb : 8 * bytes.length ≤ n * n := by
    by_contra h
    rw [write_too_long m bytes depth (by unfold getCapacity; rw [hm.1, hm.2]; omega)] at hw
    simp at hw
  obtain ⟨m2, e, h1, h2, hg⟩ := write_square m bytes depth n hm.1 hm.2 hb
  rw [e] at hw
  cases hw
  refine ⟨⟨h1, h2⟩, hb, ?_, ?_⟩
  · intro i hi j hj hij
    rw [hg, if_pos ⟨hi, hj, hij⟩, writeCell_real]
    set b := (bytesBits bytes).getD (i * n + j) false
    have hq : |quarter b| ≤ 1 / 4 := by unfold quarter; split_ifs <;> norm_num [abs_le]
    have hr := roundAway_err (m.get i j / depth)
    have : depth * ((roundAway (m.get i j / depth) : ℝ) + quarter b) - m.get i j =
        depth * (((roundAway (m.get i j / depth) : ℝ) - m.get i j / depth) + quarter b) := by
      field_simp; ring
    rw [this, abs_mul, abs_of_pos hd, mul_comm]
    apply mul_le_mul_of_nonneg_right _ hd.le
    exact le_trans (abs_add_le _ _) (by linarith)
  · intro i j h
    rw [hg, if_neg h]

/-- C18: the written value lies exactly a quarter depth above or below a multiple of the depth. -/
theorem write_values_exact (n : Nat) (m m' : Mat ℝ) (bytes : List UInt8) (depth : ℝ)
    (hm : m.IsSquare n) (hw : write m bytes depth = .ok m') (o : Nat) (ho : o < 8 * bytes.length) :
    ∃ k : ℤ, m'.get (o / n) (o % n) =
      depth * k + (if (bytes.getD (o / 8) 0).toNat.testBit (o % 8) then depth / 4 else -(depth / 4)) := by
  have hb := bytesBits_at bytes o ho
  generalize (bytes.getD (o / 8) 0).toNat.testBit (o % 8) = b at hb ⊢
  have hbl : 8 * bytes.length ≤ n * n := by
    by_contra h
    rw [write_too_long m bytes depth (by unfold getCapacity; rw [hm.1, hm.2]; omega)] at hw
    simp at hw
  obtain ⟨m2, e, h1, h2, hg⟩ := write_square m bytes depth n hm.1 hm.2 hbl
  rw [e] at hw
  cases hw
  obtain ⟨a1, a2⟩ := addr_lt n o (by omega)
  have hbd : (bytesBits bytes).getD o false = b := by rw [List.getD_eq_getElem?_getD, hb]; rfl
  have ha : o / n * n + o % n = o := by rw [mul_comm, Nat.div_add_mod]
  rw [hg, if_pos ⟨a1, a2, by omega⟩, ha, hbd, writeCell_real]
  refine ⟨roundAway (m.get (o / n) (o % n) / depth), ?_⟩
  cases b <;> simp [quarter] <;> ring

/-- C18 in lawful floating-point arithmetic. -/
theorem write_changes_float {F : Type} [FloatOps F] [LawfulFloat F] (n : Nat) (m m' : Mat F) (bytes : List UInt8)
    (depth : F) (hd : GoodDepth depth) (hm : m.IsSquare n) (hw : write m bytes depth = .ok m')
    (hc : ∀ i < n, ∀ j < n, fin (m.get i j) ∧ |val (m.get i j)| ≤ 2 ^ 40 * val depth) :
    (∀ i < n, ∀ j < n, i * n + j < 8 * bytes.length →
      fin (m'.get i j) ∧ |val (m'.get i j) - val (m.get i j)| ≤ (3 / 4 + 1 / 2 ^ 11) * val depth) ∧
    ∀ i j, ¬ (i < n ∧ j < n ∧ i * n + j < 8 * bytes.length) → m'.get i j = m.get i j := by
  have hb : 8 * bytes.length ≤ n * n := by
    by_contra h
    rw [write_too_long m bytes depth (by unfold getCapacity; rw [hm.1, hm.2]; omega)] at hw
    simp at hw
  obtain ⟨m2, e, h1, h2, hg⟩ := write_square m bytes depth n hm.1 hm.2 hb
  rw [e] at hw
  cases hw
  refine ⟨?_, fun i j h => by rw [hg, if_neg h]⟩
  intro i hi j hj hij
  rw [hg, if_pos ⟨hi, hj, hij⟩]
  obtain ⟨hcf, hcb⟩ := hc i hi j hj
  obtain ⟨_, _, _, hf, _⟩ := writeCell_spec depth (m.get i j) hd ((bytesBits bytes).getD (i * n + j) false)
    hcf (2 ^ 40) (by positivity) (by norm_num) hcb
  refine ⟨hf, le_trans (writeCell_dist depth _ hd _ hcf (2 ^ 40) (by positivity) (by norm_num) hcb) ?_⟩
  apply mul_le_mul_of_nonneg_right _ hd.pos.le
  have h3 : u F * (3 * 2 ^ 40 + 7) ≤ 1 / 2 ^ 53 * (3 * 2 ^ 40 + 7) :=
    mul_le_mul_of_nonneg_right (u_le (F := F)) (by positivity)
  have h4 : (1 : ℝ) / 2 ^ 53 * (3 * 2 ^ 40 + 7) ≤ 1 / 2 ^ 11 := by norm_num
  linarith

/-- C18: data that exceeds the capacity is refused, for every arithmetic and every shape. -/
theorem write_refuses_excess {F : Type} [FloatOps F] (m : Mat F) (bytes : List UInt8) (depth : F)
    (h : m.rows * m.cols < 8 * bytes.length) : write m bytes depth = .error .dataExceedsCapacity :=
  write_too_long m bytes depth (by unfold getCapacity; omega)

example : (⟨4, 4, fun i j => (i * 7 + j : ℝ)⟩ : Mat ℝ).IsSquare 4 ∧ 8 * ([1, 255] : List UInt8).length ≤ 4 * 4 := by
  refine ⟨⟨rfl, rfl⟩, by decide⟩

/-! ### C16: non-square domains -/

theorem foldlM_error_of_step {F : Type} [FloatOps F] (depth : F) : ∀ (bs : List Bool) (o : Nat) (m : Mat F),
    o ≤ m.cols → m.cols < o + bs.length → m.cols < m.rows →
    ∃ e, bs.foldlM (writeBit depth) (o, m) = .error e := by
  intro bs
  induction bs with
  | nil => intro o m h1 h2; simp at h2; omega
  | cons b bs ih =>
    intro o m h1 h2 h3
    rw [List.foldlM_cons]
    by_cases heq : o = m.cols
    · refine ⟨.unwrapNone, ?_⟩
      have : writeBit depth (o, m) b = .error .unwrapNone := by
        unfold writeBit getColumnAndRow
        dsimp only
        rw [if_neg]
        rintro ⟨_, hc⟩
        rw [heq, Nat.mod_eq_of_lt h3] at hc
        omega
      rw [this]; rfl
    · cases hw : writeBit depth (o, m) b with
      | error e => exact ⟨e, rfl⟩
      | ok st =>
        unfold writeBit getColumnAndRow at hw
        dsimp only at hw
        split_ifs at hw
        cases hw
        exact ih (o + 1) _ (by simp [Mat.set]; omega) (by simp [Mat.set]; simp at h2; omega) (by simpa [Mat.set] using h3)

/-- C16: with more rows than columns, writing more bits than there are columns aborts. -/
theorem write_tall_aborts {F : Type} [FloatOps F] (m : Mat F) (bytes : List UInt8) (depth : F) (h : m.cols < m.rows)
    (hb : m.cols < 8 * bytes.length) : ∃ e, write m bytes depth = .error e := by
  unfold write
  dsimp only
  split_ifs with hcap
  · exact ⟨_, rfl⟩
  · obtain ⟨e, he⟩ := foldlM_error_of_step depth (bytesBits bytes) 0 m (by omega) (by simpa using hb) h
    exact ⟨e, by simp only [bind, Except.bind, pure, Except.pure]; rw [he]⟩

/-- C16: with more rows than columns, reading a domain of at least one byte aborts. -/
theorem read_tall_aborts {F : Type} [FloatOps F] (m : Mat F) (depth : F) (h : m.cols < m.rows)
    (hcap : 8 ≤ m.rows * m.cols) : ∃ e, read m depth = .error e := by
  cases hr : read m depth with
  | error e => exact ⟨e, rfl⟩
  | ok out =>
    exfalso
    have hbits : m.cols < 8 * (m.rows * m.cols / 8) := by
      have h1 : m.cols ≤ 2 ∨ 3 ≤ m.cols := by omega
      rcases h1 with h1 | h1
      · omega
      · have : (m.cols + 1) * m.cols ≤ m.rows * m.cols := Nat.mul_le_mul_right _ h
        have h2 : 3 * m.cols ≤ m.cols * m.cols := Nat.mul_le_mul_right _ h1
        rw [Nat.add_mul] at this
        omega
    unfold read at hr
    have hb := (mapM_except_isOk _).mp ⟨out, hr⟩ (m.cols / 8) (by simp [getCapacity]; omega)
    obtain ⟨byte, hb⟩ := hb
    unfold readByte at hb
    cases hbm : (List.range 8).mapM fun i => readBit m depth (8 * (m.cols / 8) + i) with
    | error e => rw [hbm] at hb; simp [bind, Except.bind] at hb
    | ok bits =>
      obtain ⟨b, hbit⟩ := (mapM_except_isOk _).mp ⟨bits, hbm⟩ (m.cols % 8) (by simp; omega)
      rw [Nat.div_add_mod] at hbit
      unfold readBit getColumnAndRow at hbit
      dsimp only at hbit
      rw [if_neg] at hbit
      · simp at hbit
      · rintro ⟨_, hc⟩
        rw [Nat.mod_eq_of_lt h] at hc
        omega

/-- C16: with fewer rows than columns, bit positions `0` and `rows` are stored in the same cell, so no byte string whose
bits `0` and `rows` differ is read back, whatever is read. -/
theorem read_wide_collides {F : Type} [FloatOps F] (m : Mat F) (depth : F) (h : m.rows < m.cols) (h0 : 0 < m.rows)
    (bytes out : List UInt8) (hr : read m depth = .ok out) (hlen : m.rows < 8 * bytes.length)
    (hdiff : (bytes.getD 0 0).toNat.testBit 0 ≠ (bytes.getD (m.rows / 8) 0).toNat.testBit (m.rows % 8)) : ¬ bytes <+: out := by
  replace hdiff : (bytesBits bytes)[0]? ≠ (bytesBits bytes)[m.rows]? := by
    rw [bytesBits_at bytes 0 (by omega), bytesBits_at bytes m.rows hlen]
    simpa using hdiff
  rintro ⟨rest, rfl⟩
  have hbit : ∀ o < 8 * (bytes ++ rest).length, ∃ b, (bytesBits (bytes ++ rest))[o]? = some b ∧ readBit m depth o = .ok b := by
    intro o ho
    have hl := mapM_except_length _ _ hr
    have hk : o / 8 < (List.range (getCapacity m.rows m.cols)).length := by rw [← hl]; omega
    have hg := mapM_except_get _ _ hr (o / 8) hk (by omega)
    simp only [List.getElem_range] at hg
    unfold readByte at hg
    cases hbm : (List.range 8).mapM fun i => readBit m depth (8 * (o / 8) + i) with
    | error e => rw [hbm] at hg; simp [bind, Except.bind] at hg
    | ok bits =>
      rw [hbm] at hg
      simp only [bind, Except.bind, pure, Except.pure, Except.ok.injEq] at hg
      have hbl := mapM_except_length _ _ hbm
      simp only [List.length_range] at hbl
      have hb := mapM_except_get _ _ hbm (o % 8) (by simp; omega) (by omega)
      simp only [List.getElem_range, Nat.div_add_mod] at hb
      refine ⟨bits[o % 8]'(by omega), ?_, hb⟩
      have h1 := bytesBits_getElem? (bytes ++ rest) (o / 8) (o % 8) (by omega)
      rw [Nat.div_add_mod] at h1
      have h2 : o / 8 < (bytes ++ rest).length := by omega
      rw [h1, List.getElem?_eq_getElem h2, ← hg]
      simp only [Option.map_some, Option.some.injEq]
      have h3 := byteBits_bitsByte bits (by omega)
      rw [hbl] at h3
      simp only [Nat.sub_self, List.replicate_zero, List.append_nil] at h3
      have h4 : (byteBits (bitsByte bits))[o % 8]? = bits[o % 8]? := by rw [h3]
      simp only [byteBits, List.getElem?_map, List.getElem?_range (show o % 8 < 8 by omega), Option.map_some] at h4
      rw [List.getElem?_eq_getElem (by omega)] at h4
      simpa using h4
  obtain ⟨b0, e0, r0⟩ := hbit 0 (by simp; omega)
  obtain ⟨b1, e1, r1⟩ := hbit m.rows (by simp; omega)
  have hsame : readBit m depth m.rows = readBit m depth 0 := by
    unfold readBit getColumnAndRow
    simp [Nat.div_eq_of_lt h]
  rw [hsame, r0] at r1
  have hb01 : b0 = b1 := Except.ok.inj r1
  apply hdiff
  rw [bytesBits_append, List.getElem?_append_left (by simp; omega)] at e0 e1
  rw [e0, e1, hb01]

/-- C16: with fewer rows than columns, every capacity of at least one byte admits byte strings that are written without
complaint and cannot be read back. -/
theorem write_wide_loses {F : Type} [FloatOps F] (m : Mat F) (depth : F) (h : m.rows < m.cols)
    (hcap : 8 ≤ m.rows * m.cols) :
    ∃ bytes m', bytes.length ≤ m.rows * m.cols / 8 ∧ write m bytes depth = .ok m' ∧
      ∀ out, read m' depth = .ok out → ¬ bytes <+: out := by
  have h0 : 0 < m.rows := by
    rcases Nat.eq_zero_or_pos m.rows with h0 | h0
    · rw [h0] at hcap; simp at hcap
    · exact h0
  have hbits : m.rows < 8 * (m.rows * m.cols / 8) := by
    have h1 : m.rows ≤ 2 ∨ 3 ≤ m.rows := by omega
    rcases h1 with h1 | h1
    · omega
    · have h3 : m.rows * (m.rows + 1) ≤ m.rows * m.cols := Nat.mul_le_mul_left _ h
      have h2 : m.rows * 3 ≤ m.rows * m.rows := Nat.mul_le_mul_left _ h1
      rw [Nat.mul_add] at h3
      omega
  -- the first byte 1, all others 0
  set c := m.rows * m.cols / 8 with hc
  have hc1 : 0 < c := by omega
  refine ⟨1 :: List.replicate (c - 1) 0, ?_⟩
  have hfold : ∀ (bs : List Bool) (o : Nat) (m1 : Mat F), m1.rows = m.rows → m1.cols = m.cols →
      o + bs.length ≤ m.rows * m.cols → ∃ m', bs.foldlM (writeBit depth) (o, m1) = .ok (o + bs.length, m') ∧
        m'.rows = m.rows ∧ m'.cols = m.cols := by
    intro bs
    induction bs with
    | nil => intro o m1 hr hcl _; exact ⟨m1, rfl, hr, hcl⟩
    | cons b bs ih =>
      intro o m1 hr hcl ho
      simp only [List.length_cons] at ho
      rw [List.foldlM_cons]
      have hw : ∃ v, writeBit depth (o, m1) b = .ok (o + 1, m1.set (o / m.cols) (o % m.rows) v) := by
        refine ⟨writeCell depth b (m1.get (o / m.cols) (o % m.rows)), ?_⟩
        unfold writeBit getColumnAndRow
        simp only [hr, hcl]
        rw [if_pos]
        constructor
        · apply Nat.div_lt_of_lt_mul; rw [mul_comm]; omega
        · exact lt_trans (Nat.mod_lt _ h0) h
      obtain ⟨v, hw⟩ := hw
      obtain ⟨m', e, e1, e2⟩ := ih (o + 1) (m1.set (o / m.cols) (o % m.rows) v) hr hcl (by omega)
      refine ⟨m', ?_, e1, e2⟩
      rw [hw]
      show List.foldlM (writeBit depth) _ bs = _
      rw [e]; simp; omega
  have hlen : (1 :: List.replicate (c - 1) (0 : UInt8)).length = c := by simp; omega
  obtain ⟨m', e, e1, e2⟩ := hfold (bytesBits (1 :: List.replicate (c - 1) 0)) 0 m rfl rfl (by
    rw [bytesBits_length, hlen]; omega)
  refine ⟨m', by rw [hlen], ?_, ?_⟩
  · unfold write
    have : ¬ getCapacity m.rows m.cols < (1 :: List.replicate (c - 1) (0 : UInt8)).length := by
      rw [hlen]; unfold getCapacity; omega
    simp only [if_neg this, bind, Except.bind, pure, Except.pure]
    rw [e]
  · intro out hout
    apply read_wide_collides m' depth (by omega) (by omega) _ _ hout (by rw [hlen]; omega)
    rw [e1]
    have h00 : ((1 :: List.replicate (c - 1) (0 : UInt8)).getD 0 0).toNat.testBit 0 = true := by simp
    rw [h00]
    by_cases h8 : m.rows / 8 = 0
    · rw [h8, List.getD_cons_zero]
      have : ∀ r < 8, 0 < r → (1 : UInt8).toNat.testBit r = false := by decide
      have hm8 : m.rows % 8 = m.rows := by omega
      rw [hm8, this m.rows (by omega) h0]; simp
    · obtain ⟨q, hq⟩ : ∃ q, m.rows / 8 = q + 1 := ⟨m.rows / 8 - 1, by omega⟩
      rw [hq, List.getD_cons_succ, List.getD_eq_getElem?_getD, List.getElem?_replicate]
      split_ifs <;> simp

example : (⟨8, 2, fun _ _ => (0 : ℝ)⟩ : Mat ℝ).cols < 8 ∧ 8 ≤ 8 * 2 := by decide

end Sia
