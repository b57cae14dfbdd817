import Verif.Lemmas.LdpcBytes
import Verif.Lemmas.LdpcUnique
import Verif.Spec.LdpcSpec
import Verif.Props.EncodingProps

/-! C82: the codes of `labrador_ldpc`, the error correction the program runs with. -/
namespace Sia
namespace LdpcCode

theorem checkHolds_iff (w : Nat → Bool) (check : List Nat) : CheckHolds w check ↔ violated w check = false := by
  unfold CheckHolds violated
  rw [← List.countP_eq_length_filter, Nat.even_iff]
  rcases Nat.mod_two_eq_zero_or_one (check.countP w) with h | h <;> simp [h]

/-- Each bit that is not transmitted is the only such bit of exactly one parity check. -/
theorem punctured_determined (c : LdpcCode) (v : Nat) (h1 : c.n ≤ v) (h2 : v < c.blocks * c.circulant) :
    (c.checks.filter fun check => check.contains v && check.countP (fun u => decide (c.n ≤ u)) == 1).length = 1 := by
  rcases c.place v with h | ⟨htm, a, ha, j, hj, rfl⟩ | h
  · omega
  · have := c.determining_tm htm a j ha hj
    unfold determining at this
    rw [this]
    rfl
  · omega

end LdpcCode

namespace Ldpc
open LdpcCode

theorem ccsds_encode (c : LdpcCode) (d : List UInt8) : ccsds.encode c d = packWord (c.n / 8) (c.codeWord (bitAt d)) := rfl

theorem ccsds_decode (c : LdpcCode) (r : List UInt8) : ccsds.decode c r = packWord c.outputLen (c.bitFlip 20 (c.fill (bitAt r))) := rfl

/-- C82: the encoder is systematic: a code word begins with the data. -/
theorem ccsds_systematic (c : LdpcCode) (d : List UInt8) (hd : d.length = c.k / 8) : (ccsds.encode c d).take (c.k / 8) = d := by
  have hkn : c.k / 8 ≤ c.n / 8 := by cases c <;> decide
  rw [ccsds_encode, packWord_take _ _ _ hkn, ← hd]
  refine Eq.trans (packWord_congr _ fun i hi => ?_) (packWord_bitAt d)
  unfold codeWord
  rw [if_pos (by rw [hd, c.bytes_k] at hi; exact hi)]

/-- C82: what the encoder returns is a code word: all parity checks of the standard hold for it. -/
theorem codewords_satisfy_checks (c : LdpcCode) (d : List UInt8) : IsCodeWord c (ccsds.encode c d) := by
  refine ⟨ccsds.encode_length c d, c.fill (c.codeWord (bitAt d)), ?_, ?_⟩
  · intro i hi
    rw [ccsds.encode_length, c.bytes_n] at hi
    rw [ccsds_encode, bitAt_packWord _ _ _ (by rw [c.bytes_n]; exact hi), fill_lt c _ _ hi]
  · intro check hc
    rw [checkHolds_iff]
    exact c.good_codeWord (bitAt d) check hc

/-- C82: and the only one that begins with the data: the parity checks alone determine what the encoder returns. -/
theorem codeword_unique (c : LdpcCode) (bytes : List UInt8) (h : IsCodeWord c bytes) :
    ccsds.encode c (bytes.take (c.k / 8)) = bytes := by
  obtain ⟨hl, w, hb, hw⟩ := h
  set d := bytes.take (c.k / 8) with hd
  have hkn : c.k ≤ c.n := by cases c <;> decide
  have hnb : c.n ≤ c.blocks * c.circulant := by cases c <;> decide
  have hz := c.zero_of_satisfies (xorWord w (c.fill (c.codeWord (bitAt d)))) (fun l hl' => by
    rw [violated_xor, (checkHolds_iff w l).1 (hw l hl'), c.good_codeWord (bitAt d) l hl']
    rfl) (fun v hv => by
    have h1 : w v = bitAt bytes v := hb v (by rw [hl, c.bytes_n]; omega)
    have h2 : bitAt d v = bitAt bytes v := by
      have hk := c.bytes_k
      rw [hd]
      unfold bitAt
      rw [List.getD_eq_getElem?_getD, List.getD_eq_getElem?_getD, List.getElem?_take_of_lt (by omega)]
    unfold xorWord
    rw [fill_lt c _ _ (by omega), h1]
    unfold codeWord
    rw [if_pos hv, h2, Bool.xor_self])
  rw [ccsds_encode]
  refine Eq.trans (packWord_congr (w' := bitAt bytes) _ fun i hi => ?_) (by rw [← hl]; exact packWord_bitAt bytes)
  rw [c.bytes_n] at hi
  have h3 := hz i (by omega)
  unfold xorWord at h3
  rw [fill_lt c _ _ hi, hb i (by rw [hl, c.bytes_n]; exact hi)] at h3
  revert h3
  cases bitAt bytes i <;> cases c.codeWord (bitAt d) i <;> simp

/-- C82: the words the encoder returns are exactly the words that satisfy all parity checks. -/
theorem codeword_iff (c : LdpcCode) (bytes : List UInt8) :
    IsCodeWord c bytes ↔ ∃ data : List UInt8, data.length = c.k / 8 ∧ ccsds.encode c data = bytes := by
  constructor
  · intro h
    refine ⟨bytes.take (c.k / 8), ?_, codeword_unique c bytes h⟩
    have hkn : c.k / 8 ≤ c.n / 8 := by cases c <;> decide
    rw [List.length_take, h.1]
    omega
  · rintro ⟨d, _, rfl⟩
    exact codewords_satisfy_checks c d

/-- The places where a received word differs from the code word. -/
theorem error_card (c : LdpcCode) (d r : List UInt8) (hr : r.length = c.n / 8) :
    bitDistance (ccsds.encode c d) r =
      ((Finset.range c.n).filter fun i => (c.codeWord (bitAt d) i ^^ bitAt r i) = true).card := by
  rw [bitDistance_bitAt _ _ (by rw [ccsds.encode_length, hr]), ccsds.encode_length, c.bytes_n]
  congr 1
  refine Finset.filter_congr fun i hi => ?_
  rw [ccsds_encode, bitAt_packWord _ _ _ (by rw [c.bytes_n]; exact Finset.mem_range.1 hi)]
  simp

/-- C82: the decoder returns the data from every word that differs from the code word in at most two bits, whatever the data and wherever
the bits. -/
theorem ccsds_corrects_two (c : LdpcCode) : ccsds.CorrectsBits c 2 := by
  intro d r hd hr h
  rw [error_card c d r hr] at h
  have hcl := c.clears_two _ h
  rw [ccsds_decode, packWord_take _ _ _ c.k_le_output, ← hd]
  refine Eq.trans (packWord_congr _ fun i hi => ?_) (packWord_bitAt d)
  rw [hd, c.bytes_k] at hi
  refine c.decoded (bitAt d) (bitAt r) (fun i => c.codeWord (bitAt d) i ^^ bitAt r i) (fun v _ => ?_) hcl i hi
  cases c.codeWord (bitAt d) v <;> simp

/-- C82: the decoder inverts the encoder. -/
theorem ccsds_decodesClean : ccsds.DecodesClean := by
  intro c d hd
  refine ccsds_corrects_two c d _ hd (ccsds.encode_length c d) ?_
  rw [bitDistance_bitAt _ _ rfl]
  simp

/-- C82: the code words of different data differ in at least five bits. -/
theorem codewords_far (c : LdpcCode) (d d' : List UInt8) (hd : d.length = c.k / 8) (hd' : d'.length = c.k / 8) (hne : d ≠ d') :
    5 ≤ bitDistance (ccsds.encode c d) (ccsds.encode c d') := by
  by_contra hlt
  set a := ccsds.encode c d with ha
  set b := ccsds.encode c d' with hb
  have hal : a.length = c.n / 8 := ccsds.encode_length c d
  have hbl : b.length = c.n / 8 := ccsds.encode_length c d'
  rw [bitDistance_bitAt a b (by rw [hal, hbl])] at hlt
  set D := (Finset.range (8 * a.length)).filter fun i => bitAt a i ≠ bitAt b i with hD
  obtain ⟨S, hS, hSc⟩ : ∃ S ⊆ D, S.card = min 2 D.card := Finset.exists_subset_card_eq (Nat.min_le_right _ _)
  set r := packWord (c.n / 8) (fun i => bitAt a i ^^ decide (i ∈ S)) with hr
  have hrl : r.length = c.n / 8 := packWord_length _ _
  have hbit : ∀ i < 8 * (c.n / 8), bitAt r i = (bitAt a i ^^ decide (i ∈ S)) := fun i hi => bitAt_packWord _ _ _ hi
  have h1 : bitDistance a r ≤ 2 := by
    rw [bitDistance_bitAt a r (by rw [hal, hrl])]
    refine le_trans (Finset.card_le_card (t := S) fun i hi => ?_) (by omega)
    rw [Finset.mem_filter, Finset.mem_range, hal] at hi
    rw [hbit i hi.1] at hi
    by_contra hx
    simp [hx] at hi
  have h2 : bitDistance b r ≤ 2 := by
    rw [bitDistance_bitAt b r (by rw [hbl, hrl])]
    have hc := Finset.card_sdiff_add_card_eq_card hS
    refine le_trans (Finset.card_le_card (t := D \ S) fun i hi => ?_) (by omega)
    rw [Finset.mem_filter, Finset.mem_range, hbl] at hi
    rw [hbit i hi.1] at hi
    rw [Finset.mem_sdiff, hD, Finset.mem_filter, Finset.mem_range, hal]
    by_cases hx : i ∈ S
    · have := hS hx
      rw [hD, Finset.mem_filter] at this
      exfalso
      have h3 := hi.2
      rw [decide_eq_true hx, Bool.xor_true] at h3
      have h4 := this.2
      revert h3 h4
      cases bitAt a i <;> cases bitAt b i <;> simp
    · refine ⟨⟨hi.1, ?_⟩, hx⟩
      have h3 := hi.2
      rw [decide_eq_false hx, Bool.xor_false] at h3
      exact fun h => h3 h.symm
  have e1 := ccsds_corrects_two c d r hd hrl h1
  have e2 := ccsds_corrects_two c d' r hd' hrl h2
  exact hne (e1.symm.trans e2)

end Ldpc

/-! ### Three wrong bits -/

namespace LdpcCode

/-- The word with the given bits. -/
def unitSum (l : List Nat) (v : Nat) : Bool := l.foldr (fun u acc => unit u v ^^ acc) false

theorem unitSum_mem (l : List Nat) (h : l.Nodup) (v : Nat) : unitSum l v = decide (v ∈ l) := by
  induction l with
  | nil => rfl
  | cons u l ih =>
    have hu := (List.nodup_cons.1 h).1
    have e : unitSum (u :: l) v = (unit u v ^^ unitSum l v) := rfl
    rw [e, ih (List.nodup_cons.1 h).2]
    unfold unit
    by_cases h1 : v = u
    · subst h1
      simp [hu]
    · rw [beq_eq_false_iff_ne.2 h1, Bool.false_xor]
      simp [h1]

variable (c : LdpcCode)

/-- The numbers of this word. -/
def sumLanes (l : List Nat) : List Nat :=
  (List.range (c.n / c.circulant)).map fun b =>
    l.foldr (fun u acc => (if b = u / c.circulant then 2 ^ (c.circulant - 1 - u % c.circulant) else 0) ^^^ acc) 0

theorem sumLanes_agree (l : List Nat) : c.AgreeLanes (c.n / c.circulant) 1 (fun _ => unitSum l) (c.sumLanes l) := by
  intro p hp b hb j hj
  have hp0 : p = 0 := by omega
  subst hp0
  have e1 : (c.sumLanes l).getD b 0 =
      l.foldr (fun u acc => (if b = u / c.circulant then 2 ^ (c.circulant - 1 - u % c.circulant) else 0) ^^^ acc) 0 := by
    unfold sumLanes
    rw [List.getD_eq_getElem _ _ (by simpa using hb), List.getElem_map, List.getElem_range]
  rw [e1, Nat.mul_zero, Nat.zero_add]
  beta_reduce
  unfold unitSum
  induction l with
  | nil => simp
  | cons u l ih =>
    have hu := Nat.mod_lt u c.circulant_pos
    rw [List.foldr_cons, List.foldr_cons, Nat.testBit_xor, ← ih (by
      unfold sumLanes
      rw [List.getD_eq_getElem _ _ (by simpa using hb), List.getElem_map, List.getElem_range])]
    congr 1
    conv_lhs => rw [c.split_index u]
    rw [c.unit_index _ _ _ _ hu hj]
    by_cases h : b = u / c.circulant
    · rw [if_pos h, decide_eq_true h, Bool.true_and, Nat.testBit_two_pow, Bool.eq_iff_iff, beq_iff_eq, decide_eq_true_eq]
      omega
    · rw [if_neg h, decide_eq_false h, Bool.false_and, Nat.zero_testBit]

/-- Data bit `v` is wrong after the decoder has run on this word. -/
noncomputable def wrongTest (l : List Nat) (v : Nat) : Bool :=
  forceF (maskOf c.circulant 1) fun mask =>
  forceListF (c.sumLanes l) fun W =>
  forceListF (fillLanes c.circulant mask c.rowTable W) fun W =>
  ((runF c.circulant c.lg mask c.rowTable c.columnTable 20 W).getD (v / c.circulant) 0).testBit (c.circulant - 1 - v % c.circulant)

theorem wrong_of_test (l : List Nat) (v : Nat) (hv : v < c.k) (h : c.wrongTest l v = true) :
    c.bitFlip 20 (c.fill (unitSum l)) v = true := by
  unfold wrongTest at h
  rw [forceF_eq, forceListF_eq, forceListF_eq, runF_eq, ← rowTable_eq, ← columnTable_eq] at h
  obtain ⟨h1, h2⟩ := fillLanes_agree (maskOf_spec c.circulant 1) (c.sumLanes_agree l) (by simp [sumLanes])
  have h3 := runLanes_agree (maskOf_spec c.circulant 1) c.lg c.two_pow_lg 20 h1 h2
  have hb : v / c.circulant < c.blocks := by
    have h4 : c.k ≤ c.blocks * c.circulant := by cases c <;> decide
    refine Nat.div_lt_of_lt_mul ?_
    rw [Nat.mul_comm]
    omega
  have h5 := h3 0 (by decide) _ hb _ (Nat.mod_lt v c.circulant_pos)
  beta_reduce at h5
  rw [← c.split_index v, Nat.mul_zero, Nat.zero_add, h] at h5
  exact h5

/-- Three bits the decoder does not correct, and a data bit that is wrong in the end. -/
def threeBits : LdpcCode → List Nat × Nat
  | .TC128 => ([0, 71, 89], 0) | .TC256 => ([131, 162, 247], 40) | .TC512 => ([52, 340, 352], 52)
  | .TM2048 => ([0, 256, 376], 0) | .TM8192 => ([0, 1273, 4608], 0)

theorem threeBits_wrong (c : LdpcCode) : c.wrongTest c.threeBits.1 c.threeBits.2 = true := by cases c <;> decide +kernel

end LdpcCode

namespace Ldpc
open LdpcCode

/-- A received word as the code word with an error word added. -/
theorem flipped_word (c : LdpcCode) (d r : List UInt8) (places : List Nat) (hnd : places.Nodup)
    (h : Flipped (ccsds.encode c d) r places) : ∀ v < c.n, bitAt r v = (c.codeWord (bitAt d) v ^^ unitSum places v) := by
  intro v hv
  obtain ⟨_, hf⟩ := h
  rw [ccsds.encode_length, c.bytes_n] at hf
  have := hf v hv
  rw [ccsds_encode, bitAt_packWord _ _ _ (by rw [c.bytes_n]; exact hv)] at this
  rw [unitSum_mem _ hnd]
  by_cases hm : v ∈ places
  · rw [decide_eq_true hm, Bool.xor_true]
    have h3 := this.2 hm
    revert h3
    cases bitAt r v <;> cases c.codeWord (bitAt d) v <;> simp
  · rw [decide_eq_false hm, Bool.xor_false]
    by_contra h3
    exact hm (this.1 h3)

/-- A pattern of errors the decoder removes from one code word it removes from all of them. -/
theorem ccsds_corrects_pattern (c : LdpcCode) (d r : List UInt8) (places : List Nat) (hnd : places.Nodup) (hd : d.length = c.k / 8)
    (h : Flipped (ccsds.encode c d) r places) (ht : c.clearsTest 1 (c.sumLanes places) = true) :
    (ccsds.decode c r).take (c.k / 8) = d := by
  have hcl := c.clears_of_test (c.sumLanes_agree places) (by simp [sumLanes]) ht 0 (by decide)
  rw [ccsds_decode, packWord_take _ _ _ c.k_le_output, ← hd]
  refine Eq.trans (packWord_congr _ fun i hi => ?_) (packWord_bitAt d)
  rw [hd, c.bytes_k] at hi
  exact c.decoded (bitAt d) (bitAt r) _ (flipped_word c d r places hnd h) hcl i hi

/-- C82: two is the most that is guaranteed: for each code there are three places such that, whatever the data, the code word with the bits
at these places flipped is decoded to other data. -/
theorem ccsds_three_errors (c : LdpcCode) : ∃ places : List Nat, places.length = 3 ∧ places.Nodup ∧ (∀ i ∈ places, i < c.n) ∧
    ∀ d r : List UInt8, d.length = c.k / 8 → Flipped (ccsds.encode c d) r places → (ccsds.decode c r).take (c.k / 8) ≠ d := by
  have hnd : c.threeBits.1.Nodup := by cases c <;> decide
  refine ⟨c.threeBits.1, by cases c <;> rfl, hnd, by cases c <;> decide, ?_⟩
  intro d r hd ⟨hr, hf⟩ hx
  have hv : c.threeBits.2 < c.k := by cases c <;> decide
  have hkn : c.k ≤ c.n := by cases c <;> decide
  have hw := c.wrong_of_test _ _ hv c.threeBits_wrong
  have h1 : bitAt ((ccsds.decode c r).take (c.k / 8)) c.threeBits.2 = bitAt d c.threeBits.2 := by rw [hx]
  rw [ccsds_decode, packWord_take _ _ _ c.k_le_output, bitAt_packWord _ _ _ (by rw [c.bytes_k]; exact hv)] at h1
  have e : ∀ v < c.n, bitAt r v = xorWord (c.codeWord (bitAt d)) (unitSum c.threeBits.1) v := flipped_word c d r _ hnd ⟨hr, hf⟩
  rw [c.fill_congr e, fill_xor, bitFlip_add c (c.good_codeWord (bitAt d))] at h1
  unfold xorWord at h1
  rw [hw, Bool.xor_true, fill_lt c _ _ (by omega)] at h1
  unfold codeWord at h1
  rw [if_pos hv] at h1
  exact absurd h1 (by cases bitAt d c.threeBits.2 <;> simp)

/-- C82: so no code corrects all patterns of three wrong bits. -/
theorem ccsds_not_three (c : LdpcCode) : ¬ ccsds.CorrectsBits c 3 := by
  intro h
  obtain ⟨places, h3, hnd, hlt, hw⟩ := ccsds_three_errors c
  set d : List UInt8 := List.replicate (c.k / 8) 0 with hd
  set s := ccsds.encode c d with hs
  have hsl : s.length = c.n / 8 := ccsds.encode_length c d
  set r := packWord (c.n / 8) (fun i => bitAt s i ^^ decide (i ∈ places)) with hr
  have hrl : r.length = c.n / 8 := packWord_length _ _
  have hf : Flipped s r places := by
    refine ⟨by rw [hrl, hsl], fun i hi => ?_⟩
    rw [hsl] at hi
    rw [hr, bitAt_packWord _ _ _ hi]
    by_cases hm : i ∈ places <;> simp [hm]
  refine hw d r (by simp [hd]) hf (h d r (by simp [hd]) hrl ?_)
  rw [bitDistance_bitAt s r (by rw [hsl, hrl])]
  refine le_trans (Finset.card_le_card (t := places.toFinset) fun i hi => ?_) (by rw [List.toFinset_card_of_nodup hnd, h3])
  rw [Finset.mem_filter, Finset.mem_range] at hi
  rw [List.mem_toFinset]
  exact (hf.2 i hi.1).1 fun h => hi.2 h.symm

end Ldpc

/-! ### The channel coder with these codes -/

/-- C82, C11: the decoder of the program inverts its encoder, nothing assumed about the library: for every supported capacity, every input
of at most 65535 bytes, and any full-size blocks after it. -/
theorem decode_encode_ccsds (input tail : List UInt8) (cap : Nat) (h : SupportedCapacity cap) (hsize : input.length ≤ 65535)
    (htail : blockBytes cap ∣ tail.length) : decode .ccsds (encode .ccsds input cap ++ tail) cap = .ok input :=
  decode_encode .ccsds Ldpc.ccsds_decodesClean input tail cap h hsize htail

/-- C82, C12: two flipped bits in every block that carries data, and anything in the blocks after it, are corrected. -/
theorem decode_corrects_two_bits (input received : List UInt8) (cap : Nat) (h : SupportedCapacity cap) (hsize : input.length ≤ 65535)
    (hd : blockBytes cap ∣ received.length) (hlen : (encode .ccsds input cap).length ≤ received.length)
    (hbits : ∀ i < blockCount cap input,
      bitDistance (receivedBlock cap (encode .ccsds input cap) i) (receivedBlock cap received i) ≤ 2) :
    decode .ccsds received cap = .ok input :=
  decode_corrects_bits .ccsds input received cap 2 h (Ldpc.ccsds_corrects_two _) hsize hd hlen hbits

end Sia
