import Verif.Lemmas.LdpcPairs
import Verif.Spec.EncodingSpec
import Verif.Lemmas.Lists
import Mathlib.Data.Finset.Card

/-! Bytes and bits of the words of the LDPC codes. -/
namespace Sia

theorem packed_byte : ∀ b0 b1 b2 b3 b4 b5 b6 b7 : Bool, ∀ j < 8,
    (UInt8.ofNat ((if b0 then 128 else 0) + ((if b1 then 64 else 0) + ((if b2 then 32 else 0) + ((if b3 then 16 else 0) +
      ((if b4 then 8 else 0) + ((if b5 then 4 else 0) + ((if b6 then 2 else 0) + ((if b7 then 1 else 0) + 0))))))))).toNat.testBit (7 - j) =
      [b0, b1, b2, b3, b4, b5, b6, b7].getD j false := by
  decide +kernel

theorem packWord_length (n : Nat) (w : Nat → Bool) : (packWord n w).length = n := by simp [packWord]

theorem bitAt_packWord (n : Nat) (w : Nat → Bool) (i : Nat) (hi : i < 8 * n) : bitAt (packWord n w) i = w i := by
  have hb : i / 8 < n := by omega
  have hj : i % 8 < 8 := Nat.mod_lt _ (by decide)
  have e : (packWord n w).getD (i / 8) 0 =
      UInt8.ofNat (((List.range 8).map fun j => if w (8 * (i / 8) + j) then 2 ^ (7 - j) else 0).sum) := by
    rw [List.getD_eq_getElem _ _ (by rw [packWord_length]; exact hb)]
    simp [packWord]
  have h := packed_byte (w (8 * (i / 8) + 0)) (w (8 * (i / 8) + 1)) (w (8 * (i / 8) + 2)) (w (8 * (i / 8) + 3)) (w (8 * (i / 8) + 4))
    (w (8 * (i / 8) + 5)) (w (8 * (i / 8) + 6)) (w (8 * (i / 8) + 7)) (i % 8) hj
  unfold bitAt
  rw [e]
  refine Eq.trans h ?_
  have hi' : i = 8 * (i / 8) + i % 8 := by omega
  generalize i / 8 = b at *
  generalize i % 8 = j at *
  subst hi'
  match j, hj with
  | 0, _ => rfl
  | 1, _ => rfl
  | 2, _ => rfl
  | 3, _ => rfl
  | 4, _ => rfl
  | 5, _ => rfl
  | 6, _ => rfl
  | 7, _ => rfl

/-- Byte strings are determined by their bits. -/
theorem bitAt_ext {a b : List UInt8} (hl : a.length = b.length) (h : ∀ i < 8 * a.length, bitAt a i = bitAt b i) : a = b := by
  refine List.ext_getElem hl fun k h1 h2 => ?_
  refine UInt8.toNat_inj.1 (Nat.eq_of_testBit_eq fun i => ?_)
  rcases lt_or_ge i 8 with hi | hi
  · have := h (8 * k + (7 - i)) (by omega)
    unfold bitAt at this
    rw [show (8 * k + (7 - i)) / 8 = k by omega, show 7 - (8 * k + (7 - i)) % 8 = i by omega, List.getD_eq_getElem _ _ h1,
      List.getD_eq_getElem _ _ h2] at this
    exact this
  · have e : ∀ x : UInt8, x.toNat.testBit i = false := fun x =>
      Nat.testBit_lt_two_pow (lt_of_lt_of_le x.toNat_lt (Nat.pow_le_pow_right (by decide) hi))
    rw [e, e]

theorem packWord_bitAt (bs : List UInt8) : packWord bs.length (bitAt bs) = bs :=
  bitAt_ext (packWord_length _ _) fun i hi => bitAt_packWord _ _ _ (by rwa [packWord_length] at hi)

theorem packWord_take (n m : Nat) (w : Nat → Bool) (h : n ≤ m) : (packWord m w).take n = packWord n w := by
  unfold packWord
  rw [← List.map_take, List.take_range, Nat.min_eq_left h]

theorem packWord_congr (n : Nat) {w w' : Nat → Bool} (h : ∀ i < 8 * n, w i = w' i) : packWord n w = packWord n w' :=
  bitAt_ext (by rw [packWord_length, packWord_length]) fun i hi => by
    rw [packWord_length] at hi
    rw [bitAt_packWord _ _ _ hi, bitAt_packWord _ _ _ hi, h i hi]

/-- The number of differing bits, counted in the order of the codes. -/
theorem bitDistance_bitAt (a b : List UInt8) (h : a.length = b.length) :
    bitDistance a b = ((Finset.range (8 * a.length)).filter fun i => bitAt a i ≠ bitAt b i).card := by
  have e1 : bitDistance a b = ((Finset.range (8 * a.length)).filter fun i =>
      (bytesBits a).getD i false ≠ (bytesBits b).getD i false).card := by
    have hz : (bytesBits a).zip (bytesBits b) = (List.range (8 * a.length)).map fun i =>
        ((bytesBits a).getD i false, (bytesBits b).getD i false) := by
      refine List.ext_getElem (by simp [h]) fun i h1 h2 => ?_
      have h3 : i < 8 * a.length := by simpa using h2
      rw [List.getElem_zip, List.getElem_map, List.getElem_range, List.getD_eq_getElem _ _ (by simpa using h3),
        List.getD_eq_getElem _ _ (by simpa [h] using h3)]
    unfold bitDistance
    rw [hz, List.countP_map, List.countP_eq_length_filter, ← List.toFinset_card_of_nodup (List.nodup_range.filter _)]
    congr 1
    ext i
    simp
  rw [e1]
  have key : ∀ (l : List UInt8) (i : Nat), i < 8 * l.length → (bytesBits l).getD i false = bitAt l (8 * (i / 8) + (7 - i % 8)) := by
    intro l i hi
    rw [List.getD_eq_getElem?_getD, bytesBits_at l i hi, Option.getD_some]
    unfold bitAt
    rw [show (8 * (i / 8) + (7 - i % 8)) / 8 = i / 8 by omega, show 7 - (8 * (i / 8) + (7 - i % 8)) % 8 = i % 8 by omega]
  refine Finset.card_bij (fun i _ => 8 * (i / 8) + (7 - i % 8)) ?_ ?_ ?_
  · intro i hi
    rw [Finset.mem_filter, Finset.mem_range] at hi ⊢
    rw [key a i hi.1, key b i (h ▸ hi.1)] at hi
    exact ⟨by omega, hi.2⟩
  · intro i _ j _ hij
    omega
  · intro i hi
    rw [Finset.mem_filter, Finset.mem_range] at hi
    refine ⟨8 * (i / 8) + (7 - i % 8), ?_, by omega⟩
    have e2 : 8 * ((8 * (i / 8) + (7 - i % 8)) / 8) + (7 - (8 * (i / 8) + (7 - i % 8)) % 8) = i := by omega
    rw [Finset.mem_filter, Finset.mem_range, key a _ (by omega), key b _ (by omega), e2]
    exact ⟨by omega, hi.2⟩

namespace LdpcCode

theorem bytes_n (c : LdpcCode) : 8 * (c.n / 8) = c.n := by cases c <;> rfl
theorem bytes_k (c : LdpcCode) : 8 * (c.k / 8) = c.k := by cases c <;> rfl
theorem k_le_output (c : LdpcCode) : c.k / 8 ≤ c.outputLen := by cases c <;> decide

theorem pairs_all (c : LdpcCode) : ∀ b' < c.n / c.circulant, ∀ b ≤ b', c.pairTest b b' = true := by
  cases c
  · exact pairs_TC128
  · exact pairs_TC256
  · exact pairs_TC512
  · exact pairs_TM2048
  · exact pairs_TM8192

/-- Every error word with at most two wrong bits is cleared. -/
theorem clears_two (c : LdpcCode) (e : Nat → Bool) (h : ((Finset.range c.n).filter fun i => e i = true).card ≤ 2) : c.Clears e := by
  have hc : ∀ e', (∀ v < c.n, e v = e' v) → c.Clears e' → c.Clears e := by
    intro e' he hcl v hv
    rw [c.fill_congr he]
    exact hcl v hv
  generalize hs : (Finset.range c.n).filter (fun i => e i = true) = s at h
  have hmem : ∀ v < c.n, e v = decide (v ∈ s) := by
    intro v hv
    rw [← hs, Bool.eq_iff_iff, decide_eq_true_eq, Finset.mem_filter, Finset.mem_range]
    simp [hv]
  have hlt : ∀ v ∈ s, v < c.n := by
    intro v hv
    rw [← hs, Finset.mem_filter, Finset.mem_range] at hv
    exact hv.1
  interval_cases hcard : s.card
  · rw [Finset.card_eq_zero] at hcard
    subst hcard
    exact hc _ (fun v hv => by rw [hmem v hv]; simp) c.clears_zero
  · obtain ⟨u, rfl⟩ := Finset.card_eq_one.1 hcard
    refine hc (unit u) (fun v hv => ?_) (c.clears_unit u (hlt u (by simp)))
    rw [hmem v hv, Bool.eq_iff_iff]
    simp [unit]
  · obtain ⟨u, v, hne, rfl⟩ := Finset.card_eq_two.1 hcard
    refine hc (xorWord (unit u) (unit v)) (fun x hx => ?_) (c.clears_pair c.pairs_all u v (hlt u (by simp)) (hlt v (by simp)))
    rw [hmem x hx]
    unfold xorWord unit
    by_cases h1 : x = u
    · subst h1
      simp [hne]
    · by_cases h2 : x = v
      · subst h2
        simp [h1]
      · simp [h1, h2]

end LdpcCode
end Sia
