import Verif.Model.Steganography
import Verif.Lemmas.Lists

/-! Cell addressing of the reader and writer on square domains. -/
namespace Sia
open FloatOps

section
variable {F : Type} [FloatOps F]

theorem addr_lt (n o : Nat) (h : o < n * n) : o / n < n ∧ o % n < n := by
  have hn : 0 < n := by rcases Nat.eq_zero_or_pos n with rfl | h'; · simp at h
                        · exact h'
  exact ⟨Nat.div_lt_of_lt_mul h, Nat.mod_lt _ hn⟩

theorem addr_eq (n o i j : Nat) (hj : j < n) : (i = o / n ∧ j = o % n) ↔ i * n + j = o := by
  constructor
  · rintro ⟨rfl, rfl⟩; rw [mul_comm]; exact Nat.div_add_mod o n
  · rintro rfl
    have hn : 0 < n := by omega
    constructor
    · rw [mul_comm, Nat.mul_add_div hn, Nat.div_eq_of_lt hj]; omega
    · rw [mul_comm, Nat.mul_add_mod, Nat.mod_eq_of_lt hj]

theorem writeBit_square (depth : F) (n o : Nat) (m : Mat F) (hr : m.rows = n) (hc : m.cols = n) (ho : o < n * n)
    (b : Bool) : writeBit depth (o, m) b =
      .ok (o + 1, m.set (o / n) (o % n) (writeCell depth b (m.get (o / n) (o % n)))) := by
  obtain ⟨h1, h2⟩ := addr_lt n o ho
  unfold writeBit getColumnAndRow
  simp only [hr, hc]
  rw [if_pos ⟨h1, h2⟩]

/-- The effect of writing a bit string from offset `o` on. -/
theorem writeBits_square (depth : F) (n : Nat) : ∀ (bs : List Bool) (o : Nat) (m : Mat F), m.rows = n → m.cols = n →
    o + bs.length ≤ n * n → ∃ m', bs.foldlM (writeBit depth) (o, m) = .ok (o + bs.length, m') ∧
      m'.rows = n ∧ m'.cols = n ∧
      ∀ i j, m'.get i j = if _h : i < n ∧ j < n ∧ o ≤ i * n + j ∧ i * n + j < o + bs.length
        then writeCell depth (bs.getD (i * n + j - o) false) (m.get i j) else m.get i j := by
  intro bs
  induction bs with
  | nil =>
    intro o m hr hc _
    refine ⟨m, rfl, hr, hc, fun i j => ?_⟩
    rw [dif_neg]; simp
  | cons b bs ih =>
    intro o m hr hc ho
    have ho' : o < n * n := by simp at ho; omega
    obtain ⟨h1, h2⟩ := addr_lt n o ho'
    rw [List.foldlM_cons, writeBit_square depth n o m hr hc ho' b]
    obtain ⟨m', e, hr', hc', hg⟩ := ih (o + 1) (m.set (o / n) (o % n) (writeCell depth b (m.get (o / n) (o % n))))
      hr hc (by simp at ho; omega)
    refine ⟨m', ?_, hr', hc', fun i j => ?_⟩
    · show List.foldlM (writeBit depth) _ bs = _
      rw [e]; simp; omega
    · rw [hg i j]
      have hset : (m.set (o / n) (o % n) (writeCell depth b (m.get (o / n) (o % n)))).get i j =
          if i = o / n ∧ j = o % n then writeCell depth b (m.get (o / n) (o % n)) else m.get i j := rfl
      rw [hset]
      by_cases hij : i < n ∧ j < n
      · by_cases heq : i * n + j = o
        · have := (addr_eq n o i j hij.2).mpr heq
          rw [dif_neg (by omega), if_pos this, dif_pos (by refine ⟨hij.1, hij.2, by omega, by simp; omega⟩)]
          obtain ⟨e1, e2⟩ := this
          subst e1 e2
          rw [heq]; simp
        · have hne : ¬ (i = o / n ∧ j = o % n) := fun h => heq ((addr_eq n o i j hij.2).mp h)
          rw [if_neg hne]
          by_cases hin : o + 1 ≤ i * n + j ∧ i * n + j < o + 1 + bs.length
          · rw [dif_pos ⟨hij.1, hij.2, hin.1, hin.2⟩, dif_pos ⟨hij.1, hij.2, by omega, by simp; omega⟩]
            congr 1
            rw [show i * n + j - o = (i * n + j - (o + 1)) + 1 by omega, List.getD_cons_succ]
          · rw [dif_neg (by tauto), dif_neg]
            simp; omega
      · have hne : ¬ (i = o / n ∧ j = o % n) := by
          rintro ⟨rfl, rfl⟩; exact hij ⟨h1, h2⟩
        rw [if_neg hne, dif_neg (by tauto), dif_neg (by tauto)]

/-- The effect of `write` on a square domain. -/
theorem write_square (m : Mat F) (bytes : List UInt8) (depth : F) (n : Nat) (hr : m.rows = n) (hc : m.cols = n)
    (hb : 8 * bytes.length ≤ n * n) :
    ∃ m', write m bytes depth = .ok m' ∧ m'.rows = n ∧ m'.cols = n ∧
      ∀ i j, m'.get i j = if i < n ∧ j < n ∧ i * n + j < 8 * bytes.length
        then writeCell depth ((bytesBits bytes).getD (i * n + j) false) (m.get i j) else m.get i j := by
  obtain ⟨m', e, h1, h2, hg⟩ := writeBits_square depth n (bytesBits bytes) 0 m hr hc (by simp; exact hb)
  refine ⟨m', ?_, h1, h2, fun i j => ?_⟩
  · unfold write
    have : ¬ getCapacity m.rows m.cols < bytes.length := by unfold getCapacity; rw [hr, hc]; omega
    simp only [if_neg this]
    simp only [bind, Except.bind, pure, Except.pure]
    rw [e]
  · rw [hg i j]
    by_cases h : i < n ∧ j < n ∧ i * n + j < 8 * bytes.length
    · rw [if_pos h, dif_pos ⟨h.1, h.2.1, by omega, by simp; omega⟩]; simp
    · rw [if_neg h, dif_neg]; simp; intro a b; by_contra hh; exact h ⟨a, b, by omega⟩

theorem write_too_long (m : Mat F) (bytes : List UInt8) (depth : F) (h : getCapacity m.rows m.cols < bytes.length) :
    write m bytes depth = .error .dataExceedsCapacity := by
  unfold write
  simp only [if_pos h]
  rfl

theorem readBit_square (m : Mat F) (depth : F) (n o : Nat) (hr : m.rows = n) (hc : m.cols = n) (ho : o < n * n) :
    readBit m depth o = .ok (readCell depth (m.get (o / n) (o % n))) := by
  obtain ⟨h1, h2⟩ := addr_lt n o ho
  unfold readBit getColumnAndRow
  simp only [hr, hc]
  rw [if_pos ⟨h1, h2⟩]

/-- Reading a square domain never aborts; bit `o` of the result is the bit of cell `(o / n, o % n)`. -/
theorem read_square (m : Mat F) (depth : F) (n : Nat) (hr : m.rows = n) (hc : m.cols = n) :
    ∃ out, read m depth = .ok out ∧ out.length = n * n / 8 ∧
      ∀ o < 8 * out.length, (bytesBits out)[o]? = some (readCell depth (m.get (o / n) (o % n))) := by
  have hbyte : ∀ k ∈ List.range (getCapacity m.rows m.cols), readByte m depth k =
      .ok (bitsByte ((List.range 8).map fun i => readCell depth (m.get ((8 * k + i) / n) ((8 * k + i) % n)))) := by
    intro k hk
    have hk' : k < n * n / 8 := by simpa [getCapacity, hr, hc] using hk
    unfold readByte
    rw [mapM_except_ok (g := fun i => readCell depth (m.get ((8 * k + i) / n) ((8 * k + i) % n)))]
    · rfl
    · intro i hi
      have hi' : i < 8 := by simpa using hi
      exact readBit_square m depth n _ hr hc (by omega)
  refine ⟨_, mapM_except_ok _ hbyte, by simp [getCapacity, hr, hc], ?_⟩
  intro o ho
  have ho' : o / 8 < n * n / 8 := by simp [getCapacity, hr, hc] at ho; omega
  have := bytesBits_getElem? ((List.range (getCapacity m.rows m.cols)).map fun k =>
    bitsByte ((List.range 8).map fun i => readCell depth (m.get ((8 * k + i) / n) ((8 * k + i) % n)))) (o / 8) (o % 8)
    (by omega)
  rw [show 8 * (o / 8) + o % 8 = o by omega] at this
  rw [this, List.getElem?_map, List.getElem?_range (by simpa [getCapacity, hr, hc] using ho')]
  simp only [Option.map_some]
  have hbits : ∀ (l : List Bool), l.length = 8 → ∀ i (hi : i < 8) (hl : i < l.length),
      (bitsByte l).toNat.testBit i = l[i] := by
    intro l hl i hi hl'
    have := byteBits_bitsByte l (by omega)
    rw [hl] at this
    simp only [Nat.sub_self, List.replicate_zero, List.append_nil] at this
    have h2 : (byteBits (bitsByte l))[i]? = l[i]? := by rw [this]
    simp only [byteBits, List.getElem?_map, List.getElem?_range hi, Option.map_some] at h2
    rw [List.getElem?_eq_getElem hl'] at h2
    simpa using h2
  rw [hbits _ (by simp) (o % 8) (by omega) (by simp; omega)]
  simp only [List.getElem_map, List.getElem_range]
  rw [show 8 * (o / 8) + o % 8 = o by omega]

/-- If all bits of the first cells are as in `bytes`, the read byte string starts with `bytes`. -/
theorem read_prefix (m : Mat F) (depth : F) (n : Nat) (hr : m.rows = n) (hc : m.cols = n) (bytes : List UInt8)
    (hb : 8 * bytes.length ≤ n * n)
    (hcells : ∀ o < 8 * bytes.length, readCell depth (m.get (o / n) (o % n)) = (bytesBits bytes).getD o false) :
    ∃ rest, read m depth = .ok (bytes ++ rest) ∧ (bytes ++ rest).length = n * n / 8 := by
  obtain ⟨out, e, hl, hbits⟩ := read_square m depth n hr hc
  have hpre : out.take bytes.length = bytes := by
    apply bytesBits_injective
    apply List.ext_getElem?
    intro o
    by_cases ho : o < 8 * bytes.length
    · have h1 : (bytesBits (out.take bytes.length))[o]? = (bytesBits out)[o]? := by
        conv_rhs => rw [← List.take_append_drop bytes.length out, bytesBits_append]
        rw [List.getElem?_append_left (by simp; omega)]
      rw [h1, hbits o (by omega), hcells o ho, List.getD_eq_getElem?_getD]
      have : o < (bytesBits bytes).length := by simpa using ho
      rw [List.getElem?_eq_getElem this]; rfl
    · rw [List.getElem?_eq_none (by simp; omega), List.getElem?_eq_none (by simp; omega)]
  refine ⟨out.drop bytes.length, ?_, ?_⟩
  · rw [e]; conv_lhs => rw [← List.take_append_drop bytes.length out, hpre]
  · rw [← hl]; conv_rhs => rw [← List.take_append_drop bytes.length out, hpre]

end
end Sia
