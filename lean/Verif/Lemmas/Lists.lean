import Verif.Model.Basic
import Mathlib.Data.List.Basic
import Mathlib.Tactic.Ring

/-! Lemmas about chunks, bits and bytes. -/
namespace Sia

section Chunks
variable {α β : Type}

@[simp] theorem chunks_nil (n : Nat) : chunks n ([] : List α) = [] := by
  rw [chunks]; simp

theorem chunks_of_ne_nil {n : Nat} (hn : 0 < n) {l : List α} (hl : l ≠ []) :
    chunks n l = l.take n :: chunks n (l.drop n) := by
  rw [chunks]; simp [hl, Nat.pos_iff_ne_zero.mp hn]

theorem chunks_append {n : Nat} (hn : 0 < n) (a l : List α) (ha : a.length = n) :
    chunks n (a ++ l) = a :: chunks n l := by
  have : a ++ l ≠ [] := by
    intro h; have := congrArg List.length h; rw [List.length_append] at this; simp only [List.length_nil] at this; omega
  rw [chunks_of_ne_nil hn this, ← ha]; simp

theorem chunks_short {n : Nat} (l : List α) (h0 : l ≠ []) (h : l.length ≤ n) : chunks n l = [l] := by
  have hn : 0 < n := lt_of_lt_of_le (List.length_pos_iff.mpr h0) h
  rw [chunks_of_ne_nil hn h0, List.take_of_length_le h, List.drop_eq_nil_of_le h]; simp

theorem chunks_flatten {n : Nat} (hn : 0 < n) : ∀ l : List α, (chunks n l).flatten = l := by
  intro l
  induction h : l.length using Nat.strong_induction_on generalizing l with
  | _ k ih =>
    by_cases hl : l = []
    · simp [hl]
    · rw [chunks_of_ne_nil hn hl]
      have hp := List.length_pos_iff.mpr hl
      simp only [List.flatten_cons]
      rw [ih (l.drop n).length (by simp; omega) _ rfl, List.take_append_drop]

theorem chunks_length {n : Nat} (hn : 0 < n) : ∀ l : List α, (chunks n l).length = (l.length + n - 1) / n := by
  intro l
  induction h : l.length using Nat.strong_induction_on generalizing l with
  | _ k ih =>
    by_cases hl : l = []
    · subst hl; subst h; simp [Nat.div_eq_of_lt (by omega : n - 1 < n)]
    · rw [chunks_of_ne_nil hn hl]
      have hp := List.length_pos_iff.mpr hl
      simp only [List.length_cons]
      rw [ih (l.drop n).length (by simp; omega) _ rfl]
      simp only [List.length_drop]
      by_cases hk : n ≤ l.length
      · have : k + n - 1 = (l.length - n + n - 1) + n := by omega
        rw [this, Nat.add_div_right _ hn]
      · have h1 : l.length - n + n - 1 = n - 1 := by omega
        rw [h1, Nat.div_eq_of_lt (by omega)]
        have : k + n - 1 = (k - 1) + n := by omega
        rw [this, Nat.add_div_right _ hn, Nat.div_eq_of_lt (by omega)]

/-- All chunks have length at most `n` and are non-empty. -/
theorem chunks_mem_length {n : Nat} : ∀ (l : List α), ∀ c ∈ chunks n l, 0 < c.length ∧ c.length ≤ n := by
  intro l
  induction h : l.length using Nat.strong_induction_on generalizing l with
  | _ k ih =>
    intro c hc
    rw [chunks] at hc
    split at hc
    · simp at hc
    · rename_i hh
      push Not at hh
      have hp := List.length_pos_iff.mpr hh.2
      rcases List.mem_cons.mp hc with rfl | hc
      · simp; omega
      · exact ih (l.drop n).length (by simp; omega) _ rfl c hc

/-- If `n` divides the length, every chunk is full. -/
theorem chunks_full {n : Nat} (hn : 0 < n) : ∀ (l : List α), n ∣ l.length → ∀ c ∈ chunks n l, c.length = n := by
  intro l
  induction h : l.length using Nat.strong_induction_on generalizing l with
  | _ k ih =>
    intro hd c hc
    by_cases hl : l = []
    · simp [hl] at hc
    · rw [chunks_of_ne_nil hn hl] at hc
      have hp := List.length_pos_iff.mpr hl
      have hle : n ≤ l.length := by rw [h]; exact Nat.le_of_dvd (by omega) hd
      rcases List.mem_cons.mp hc with rfl | hc
      · simp; omega
      · exact ih (l.drop n).length (by simp; omega) _ rfl (by rw [List.length_drop, h]; exact Nat.dvd_sub hd (dvd_refl n)) c hc

/-- If `n` does not divide the length, some chunk (the last one) is not full. -/
theorem chunks_not_full {n : Nat} (hn : 0 < n) : ∀ (l : List α), ¬ n ∣ l.length →
    ∃ cs c, chunks n l = cs ++ [c] ∧ c.length = l.length % n ∧ c.length < n ∧ ∀ d ∈ cs, d.length = n := by
  intro l
  induction h : l.length using Nat.strong_induction_on generalizing l with
  | _ k ih =>
    intro hd
    have hl : l ≠ [] := by rintro rfl; simp at h; subst h; simp at hd
    have hp := List.length_pos_iff.mpr hl
    by_cases hle : l.length < n
    · refine ⟨[], l, ?_, ?_, by omega, by simp⟩
      · simpa using chunks_short l hl hle.le
      · rw [Nat.mod_eq_of_lt (by omega), h]
    · push Not at hle
      obtain ⟨cs, c, h1, h2, h3, h4⟩ := ih (l.drop n).length (by simp; omega) _ rfl (by
        simp only [List.length_drop]
        intro hh; apply hd
        have : k = (l.length - n) + n := by omega
        rw [this]; exact (Nat.dvd_add_right hh).mpr (dvd_refl n))
      refine ⟨l.take n :: cs, c, ?_, ?_, h3, ?_⟩
      · rw [chunks_of_ne_nil hn hl, h1]; rfl
      · rw [h2]; simp only [List.length_drop]; rw [← h]; exact (Nat.mod_eq_sub_mod hle).symm
      · intro d hd'
        rcases List.mem_cons.mp hd' with rfl | hd'
        · simp; omega
        · exact h4 d hd'

/-- Chunking a concatenation of full pieces gives the pieces back. -/
theorem chunks_flatten_of_full {n : Nat} (hn : 0 < n) : ∀ (ls : List (List α)) (rest : List α),
    (∀ l ∈ ls, l.length = n) → chunks n (ls.flatten ++ rest) = ls ++ chunks n rest := by
  intro ls rest h
  induction ls with
  | nil => simp
  | cons a ls ih =>
    simp only [List.flatten_cons, List.append_assoc, List.cons_append]
    rw [chunks_append hn a _ (h a (by simp)), ih (fun l hl => h l (by simp [hl]))]

end Chunks

section MapM
variable {α β : Type}

theorem mapM_except_ok {f : α → Res β} {g : α → β} : ∀ (l : List α), (∀ a ∈ l, f a = .ok (g a)) →
    l.mapM f = .ok (l.map g) := by
  intro l h
  induction l with
  | nil => rfl
  | cons a l ih =>
    rw [List.mapM_cons, h a (by simp), ih (fun a ha => h a (by simp [ha]))]; rfl

/-- `mapM` succeeds exactly if every element does. -/
theorem mapM_except_isOk {f : α → Res β} : ∀ (l : List α),
    (∃ r, l.mapM f = .ok r) ↔ ∀ a ∈ l, ∃ b, f a = .ok b := by
  intro l
  induction l with
  | nil => simp [pure, Except.pure]
  | cons a l ih =>
    rw [List.mapM_cons]
    constructor
    · rintro ⟨r, hr⟩
      cases ha : f a with
      | error e => rw [ha] at hr; simp [bind, Except.bind] at hr
      | ok b =>
        rw [ha] at hr
        cases hl : l.mapM f with
        | error e => rw [hl] at hr; simp [bind, Except.bind] at hr
        | ok bs =>
          intro x hx
          rcases List.mem_cons.mp hx with rfl | hx
          · exact ⟨b, ha⟩
          · exact (ih.mp ⟨bs, hl⟩) x hx
    · intro h
      obtain ⟨b, hb⟩ := h a (by simp)
      obtain ⟨bs, hbs⟩ := ih.mpr (fun x hx => h x (by simp [hx]))
      exact ⟨b :: bs, by rw [hb, hbs]; rfl⟩

theorem mapM_except_length {f : α → Res β} : ∀ (l : List α) (r : List β), l.mapM f = .ok r → r.length = l.length := by
  intro l
  induction l with
  | nil => intro r h; simp [pure, Except.pure] at h; subst h; rfl
  | cons a l ih =>
    intro r h
    rw [List.mapM_cons] at h
    cases ha : f a with
    | error e => rw [ha] at h; simp [bind, Except.bind] at h
    | ok b =>
      cases hl : l.mapM f with
      | error e => rw [ha, hl] at h; simp [bind, Except.bind] at h
      | ok bs =>
        rw [ha, hl] at h
        simp [bind, Except.bind, pure, Except.pure] at h
        subst h; simp [ih bs hl]

theorem mapM_except_get {f : α → Res β} : ∀ (l : List α) (r : List β), l.mapM f = .ok r →
    ∀ i (hi : i < l.length) (hr : i < r.length), f l[i] = .ok r[i] := by
  intro l
  induction l with
  | nil => intro r h i hi; simp at hi
  | cons a l ih =>
    intro r h i hi hr
    rw [List.mapM_cons] at h
    cases ha : f a with
    | error e => rw [ha] at h; simp [bind, Except.bind] at h
    | ok b =>
      cases hl : l.mapM f with
      | error e => rw [ha, hl] at h; simp [bind, Except.bind] at h
      | ok bs =>
        rw [ha, hl] at h
        simp [bind, Except.bind, pure, Except.pure] at h
        subst h
        cases i with
        | zero => simpa using ha
        | succ i => simpa using ih bs hl i (by simpa using hi) (by simpa using hr)

theorem mapM_except_append_ok {f : α → Res β} (l1 l2 : List α) {r1 r2 : List β} (h1 : l1.mapM f = .ok r1)
    (h2 : l2.mapM f = .ok r2) : (l1 ++ l2).mapM f = .ok (r1 ++ r2) := by
  rw [List.mapM_append, h1, h2]; rfl

end MapM

section Bits

@[simp] theorem byteBits_length (b : UInt8) : (byteBits b).length = 8 := by simp [byteBits]

@[simp] theorem bytesBits_nil : bytesBits [] = [] := rfl
theorem bytesBits_cons (b : UInt8) (bs : List UInt8) : bytesBits (b :: bs) = byteBits b ++ bytesBits bs := rfl
theorem bytesBits_append (a b : List UInt8) : bytesBits (a ++ b) = bytesBits a ++ bytesBits b := by
  simp [bytesBits]
@[simp] theorem bytesBits_length (bs : List UInt8) : (bytesBits bs).length = 8 * bs.length := by
  induction bs with
  | nil => rfl
  | cons b bs ih => rw [bytesBits_cons]; simp [ih]; ring

theorem uint8_forall {p : UInt8 → Prop} (h : ∀ n : Fin 256, p (UInt8.ofNat n)) (b : UInt8) : p b := by
  have := h ⟨b.toNat, b.toNat_lt⟩
  simpa using this

theorem bitsByte_byteBits (b : UInt8) : bitsByte (byteBits b) = b := by
  revert b; apply uint8_forall; decide +kernel

theorem bitsNat_lt : ∀ l : List Bool, bitsNat l < 2 ^ l.length
  | [] => by simp [bitsNat]
  | b :: bs => by
    have := bitsNat_lt bs
    have hb : b.toNat ≤ 1 := by cases b <;> simp
    simp only [bitsNat, List.length_cons, pow_succ]; omega

theorem bitsNat_testBit : ∀ (l : List Bool) (i : Nat), (bitsNat l).testBit i = l.getD i false
  | [], i => by simp [bitsNat]
  | b :: bs, 0 => by
    simp only [bitsNat, List.getD_cons_zero, Nat.testBit_zero]
    cases b <;> simp [Nat.add_mod]
  | b :: bs, i + 1 => by
    rw [Nat.testBit_succ]
    have : (bitsNat (b :: bs)) / 2 = bitsNat bs := by
      have hb : b.toNat ≤ 1 := by cases b <;> simp
      simp only [bitsNat]; omega
    rw [this, bitsNat_testBit bs i]; simp

theorem byteBits_bitsByte (l : List Bool) (h : l.length ≤ 8) :
    byteBits (bitsByte l) = l ++ List.replicate (8 - l.length) false := by
  have hlt : bitsNat l < 256 := lt_of_lt_of_le (bitsNat_lt l) (by
    calc 2 ^ l.length ≤ 2 ^ 8 := Nat.pow_le_pow_right (by omega) h
      _ = 256 := rfl)
  apply List.ext_getElem
  · simp; omega
  · intro i h1 h2
    have hi : i < 8 := by simpa using h1
    simp only [byteBits, List.getElem_map, List.getElem_range, bitsByte, UInt8.toNat_ofNat']
    rw [Nat.mod_eq_of_lt (by simpa using hlt), bitsNat_testBit, List.getD_eq_getElem?_getD]
    by_cases hl : i < l.length
    · simp [hl]
    · rw [List.getElem_append_right (by omega)]; simp [hl]

@[simp] theorem packBits_nil : packBits [] = [] := by simp [packBits]

theorem packBits_append_byte (a l : List Bool) (ha : a.length = 8) :
    packBits (a ++ l) = bitsByte a :: packBits l := by
  simp [packBits, chunks_append (by omega : 0 < 8) a l ha]

theorem packBits_bytesBits_append (bs : List UInt8) (l : List Bool) :
    packBits (bytesBits bs ++ l) = bs ++ packBits l := by
  induction bs with
  | nil => simp
  | cons b bs ih =>
    rw [bytesBits_cons, List.append_assoc, packBits_append_byte _ _ (by simp), ih, bitsByte_byteBits]; rfl

theorem packBits_bytesBits (bs : List UInt8) : packBits (bytesBits bs) = bs := by
  simpa using packBits_bytesBits_append bs []

theorem packBits_length (l : List Bool) : (packBits l).length = (l.length + 7) / 8 := by
  simp [packBits, chunks_length (by omega : 0 < 8)]

/-- Unpacking packed bits: the bits, followed by zeros up to a full byte. -/
theorem bytesBits_packBits : ∀ l : List Bool,
    bytesBits (packBits l) = l ++ List.replicate (8 * ((l.length + 7) / 8) - l.length) false := by
  intro l
  induction h : l.length using Nat.strong_induction_on generalizing l with
  | _ k ih =>
    by_cases hl : l = []
    · subst hl; subst h; simp
    · have hp := List.length_pos_iff.mpr hl
      by_cases h8 : l.length ≤ 8
      · have : packBits l = [bitsByte l] := by simp [packBits, chunks_short l hl h8]
        rw [this, bytesBits_cons, byteBits_bitsByte l h8]
        have : 8 * ((k + 7) / 8) - k = 8 - l.length := by omega
        simp [this]
      · push Not at h8
        have ht : (l.take 8).length = 8 := by simp; omega
        conv_lhs => rw [← List.take_append_drop 8 l]
        rw [packBits_append_byte _ _ ht, bytesBits_cons, byteBits_bitsByte _ (by omega),
          ih (l.drop 8).length (by simp; omega) _ rfl]
        simp only [ht, Nat.sub_self, List.replicate_zero, List.append_nil, List.length_drop]
        rw [← List.append_assoc, List.take_append_drop]
        congr 2; omega

theorem bytesBits_packBits_take (l : List Bool) (tail : List UInt8) :
    (bytesBits (packBits l ++ tail)).take l.length = l := by
  rw [bytesBits_append, bytesBits_packBits, List.append_assoc, List.take_append_of_le_length (le_refl _)]; simp

theorem bytesBits_injective : Function.Injective bytesBits := by
  intro a b h
  rw [← packBits_bytesBits a, h, packBits_bytesBits]

/-- Bit `8*k + i` of a byte string is bit `i` of byte `k`. -/
theorem bytesBits_getElem? (bs : List UInt8) (k i : Nat) (hi : i < 8) :
    (bytesBits bs)[8 * k + i]? = (bs[k]?).map fun b => b.toNat.testBit i := by
  induction bs generalizing k with
  | nil => simp
  | cons b bs ih =>
    rw [bytesBits_cons]
    cases k with
    | zero => simp [List.getElem?_append, hi, byteBits]
    | succ k =>
      have : 8 * (k + 1) + i = (byteBits b).length + (8 * k + i) := by simp; ring
      rw [this, List.getElem?_append_right (by omega), Nat.add_sub_cancel_left, ih]; simp

theorem bytesBits_at (bs : List UInt8) (o : Nat) (h : o < 8 * bs.length) :
    (bytesBits bs)[o]? = some ((bs.getD (o / 8) 0).toNat.testBit (o % 8)) := by
  have e := bytesBits_getElem? bs (o / 8) (o % 8) (by omega)
  have hk : o / 8 < bs.length := by omega
  rw [Nat.div_add_mod] at e
  rw [e, List.getD_eq_getElem?_getD, List.getElem?_eq_getElem hk]
  rfl

end Bits

section Slice
variable {α : Type}

theorem slice_ok_iff (l : List α) (a b : Nat) (r : List α) :
    slice l a b = .ok r ↔ a ≤ b ∧ b ≤ l.length ∧ r = (l.drop a).take (b - a) := by
  unfold slice; split
  · rename_i h; simp [h.1, h.2]; exact eq_comm
  · rename_i h; simp; intro h1 h2; exact absurd ⟨h1, h2⟩ h

theorem slice_append (pre mid post : List α) (a b : Nat) (ha : a = pre.length) (hb : b = pre.length + mid.length) :
    slice (pre ++ mid ++ post) a b = .ok mid := by
  rw [slice_ok_iff]
  subst ha hb
  refine ⟨by omega, by simp, ?_⟩
  simp [List.append_assoc]

end Slice

end Sia
