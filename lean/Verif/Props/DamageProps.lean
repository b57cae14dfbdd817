import Verif.Props.EmbedProps

/-! C47: extraction survives arbitrary damage of a few cells per code block. -/
namespace Sia
open FloatOps LawfulFloat

theorem zip_countP {α β : Type} (p : α × β → Bool) (da : α) (db : β) : ∀ (a : List α) (b : List β), a.length = b.length →
    (a.zip b).countP p = ((Finset.range a.length).filter fun j => p (a.getD j da, b.getD j db) = true).card := by
  intro a
  induction a with
  | nil => intro b _; simp
  | cons x a ih =>
    intro b hb
    cases b with
    | nil => simp at hb
    | cons y b =>
      have hb' : a.length = b.length := by simpa using hb
      rw [List.zip_cons_cons, List.countP_cons, ih b hb', List.length_cons, Finset.card_filter, Finset.card_filter,
        Finset.sum_range_succ']
      simp only [List.getD_cons_succ, List.getD_cons_zero]

theorem bitDistance_eq (a b : List UInt8) (h : a.length = b.length) :
    bitDistance a b = ((Finset.range (8 * a.length)).filter fun j =>
      (bytesBits a).getD j false ≠ (bytesBits b).getD j false).card := by
  unfold bitDistance
  rw [zip_countP _ false false _ _ (by simp [h]), bytesBits_length]
  simp

theorem receivedBlock_bit (cap : Nat) (r : List UInt8) (i j : Nat) (hj : j < 8 * blockBytes cap) :
    (bytesBits (receivedBlock cap r i)).getD j false = (bytesBits r).getD (i * (8 * blockBytes cap) + j) false := by
  unfold receivedBlock
  obtain ⟨k, l, hl, rfl⟩ : ∃ k l, l < 8 ∧ j = 8 * k + l := ⟨j / 8, j % 8, by omega, by omega⟩
  have e : i * (8 * blockBytes cap) + (8 * k + l) = 8 * (i * blockBytes cap + k) + l := by ring
  rw [e, List.getD_eq_getElem?_getD, List.getD_eq_getElem?_getD, bytesBits_getElem? _ _ _ hl, bytesBits_getElem? _ _ _ hl,
    List.getElem?_take, if_pos (by omega), List.getElem?_drop]

section
variable {F : Type} [FloatOps F] [LawfulFloat F]

/-- C47: if the LDPC library corrects `b` flipped bits per block, the payload is extracted exactly from every image in which,
for each code block that carries data, at most `b` of the block's cells have pixels changed by more than `t` (those pixels may
be changed arbitrarily, and so may all pixels outside the data-carrying blocks). -/
theorem extract_corrects_damage (L : Ldpc) (n levels : Nat) (image : Mat UInt8) (payload : List UInt8)
    (depth : F) (t : ℝ) (b : Nat) (hL : L.CorrectsBits (codeAt (domainBytes n levels)) b)
    (hg : EmbedGeometry n levels image) (hs : SignalOK n levels image depth t)
    (hsup : SupportedCapacity (domainBytes n levels)) (hal : blockBytes (domainBytes n levels) ∣ domainBytes n levels)
    (hp1 : 1 ≤ payload.length) (hp2 : payload.length ≤ 65533) (hfit : payload.length + 4 ≤ domainBytes n levels / 2) :
    ∃ out, embed L image payload depth levels = .ok out ∧ out.IsSquare n ∧
      ∀ noisy : Mat UInt8, noisy.IsSquare n →
        (∀ i, i * dataBytes (domainBytes n levels) < payload.length + 4 → ∀ damaged : Finset Nat,
          (∀ k ∈ damaged, k < 8 * blockBytes (domainBytes n levels) ∧
            CellDamaged n levels t out noisy (i * (8 * blockBytes (domainBytes n levels)) + k)) → damaged.card ≤ b) →
        extract L noisy depth levels = .ok payload := by
  obtain ⟨record, hrec, hread⟩ := data_roundtrip payload hp1 (by omega)
  have hel := encode_record_length L payload record hrec (domainBytes n levels)
  have hfl := encodedLength_fits _ _ hsup hal hfit
  rw [← hel] at hfl
  have hfit' : 8 * (encode L record (domainBytes n levels)).length ≤ (n / 2 ^ levels) * (n / 2 ^ levels) := by
    unfold domainBytes at hfl ⊢; omega
  have he := embed_ok (F := F) L image payload depth levels n hg.square hg.levels_pos hg.levels_le hg.divisible record hrec
    hg.capacity hfit'
  have hrl : record.length = payload.length + 2 := by
    rw [(data_serialize_spec payload).1 (by omega)] at hrec
    cases hrec
    simp
  refine ⟨_, he, ⟨rfl, rfl⟩, fun noisy hsq hdam => ?_⟩
  obtain ⟨received, hr1, hr2, hr3⟩ := read_square (⟨n / 2 ^ levels, n / 2 ^ levels, coeffs n levels noisy⟩ : Mat F) depth
    (n / 2 ^ levels) rfl rfl
  have hcl : received.length = domainBytes n levels := hr2
  have hbb : 0 < blockBytes (domainBytes n levels) := by
    have := (codeAt_sizes (domainBytes n levels)).2.2.2; unfold blockBytes; omega
  have hdb : 0 < dataBytes (domainBytes n levels) := by
    have := (codeAt_sizes (domainBytes n levels)).2.2.2; omega
  have hdec : decode L received (domainBytes n levels) = .ok record := by
    apply decode_corrects_bits L record received _ b hsup hL (by omega) (by rw [hcl]; exact hal) (by rw [hcl]; exact hfl)
    intro i hi
    have hblk : i * dataBytes (domainBytes n levels) < payload.length + 4 := by
      unfold blockCount at hi
      have h3 := Nat.div_mul_le_self (record.length + 2 + dataBytes (domainBytes n levels) - 1) (dataBytes (domainBytes n levels))
      have h4 : (i + 1) * dataBytes (domainBytes n levels) ≤
          (record.length + 2 + dataBytes (domainBytes n levels) - 1) / dataBytes (domainBytes n levels) * dataBytes (domainBytes n levels) :=
        Nat.mul_le_mul_right _ hi
      rw [Nat.succ_mul] at h4
      omega
    have hle : (i + 1) * blockBytes (domainBytes n levels) ≤ (encode L record (domainBytes n levels)).length := by
      rw [encode_length L record _ hsup]; exact Nat.mul_le_mul_right _ hi
    have hle' : i * blockBytes (domainBytes n levels) + blockBytes (domainBytes n levels) ≤
      (encode L record (domainBytes n levels)).length := by rw [← Nat.succ_mul]; exact hle
    have l1 : (receivedBlock (domainBytes n levels) (encode L record (domainBytes n levels)) i).length =
        blockBytes (domainBytes n levels) := by
      unfold receivedBlock; rw [List.length_take, List.length_drop]; omega
    have l2 : (receivedBlock (domainBytes n levels) received i).length = blockBytes (domainBytes n levels) := by
      unfold receivedBlock; rw [List.length_take, List.length_drop]; omega
    rw [bitDistance_eq _ _ (by rw [l1, l2]), l1]
    apply hdam i hblk
    intro k hk
    simp only [Finset.mem_filter, Finset.mem_range] at hk
    obtain ⟨hk1, hk2⟩ := hk
    refine ⟨hk1, ?_⟩
    by_contra hnd
    apply hk2
    rw [receivedBlock_bit _ _ _ _ hk1, receivedBlock_bit _ _ _ _ hk1]
    set o := i * (8 * blockBytes (domainBytes n levels)) + k with ho
    have ho1 : o < 8 * (encode L record (domainBytes n levels)).length := by
      have : i * (8 * blockBytes (domainBytes n levels)) = 8 * (i * blockBytes (domainBytes n levels)) := by ring
      omega
    have hcell := marked_cell n levels image noisy depth t hg hs (bytesBits (encode L record (domainBytes n levels))) o
      (by simpa using ho1) (by simpa using hfit') (by
        intro i' hi' j' hj' e1 e2
        by_contra hc
        exact hnd ⟨i', hi', j', hj', e1, e2, not_le.mp hc⟩)
    have hr4 := hr3 o (by rw [hcl]; omega)
    rw [List.getD_eq_getElem?_getD (l := bytesBits received), hr4, Option.getD_some]
    exact hcell.symm
  rw [extract_forward L noisy depth levels n hsq hg.levels_pos hg.levels_le hg.divisible, hr1, getDomainCapacity_eq]
  have hc : 9 ≤ n / 2 ^ levels * (n / 2 ^ levels) / 8 := hg.capacity
  simp only [bind, Except.bind]
  rw [if_pos hc]
  have hdec' : decode L received (n / 2 ^ levels * (n / 2 ^ levels) / 8) = .ok record := hdec
  dsimp only
  rw [hdec']
  simpa using hread []

end

/-! ### A library that corrects one flipped bit per block (the contract is satisfiable) -/

/-- Systematic code: parity byte `i` is the xor of data bytes `i` and `i+1` (cyclically). -/
def xorParity (K i : Nat) (d : List UInt8) : UInt8 :=
  if i < K then d.getD i 0 else d.getD (i - K) 0 ^^^ d.getD ((i - K + 1) % K) 0

open Classical in
/-- Nearest-codeword decoding of that code. -/
noncomputable def Ldpc.nearest : Ldpc where
  encode c w := (List.range (c.n / 8)).map fun i => xorParity (c.k / 8) i w
  decode c r :=
    if h : ∃ d : List UInt8, d.length = c.k / 8 ∧
        bitDistance ((List.range (c.n / 8)).map fun i => xorParity (c.k / 8) i d) r ≤ 1
    then (h.choose ++ List.replicate (c.outputLen - c.k / 8) 0) else List.replicate c.outputLen 0
  encode_length := by intro c w; simp
  decode_length := by
    intro c w
    split_ifs with h
    · rw [List.length_append, h.choose_spec.1, List.length_replicate]
      cases c <;> rfl
    · simp

/-- Two byte strings that differ in two positions have bit distance at least two. -/
theorem two_le_bitDistance (a b : List UInt8) (h : a.length = b.length) (i j : Nat) (hi : i < a.length) (hj : j < a.length)
    (hij : i ≠ j) (hdi : a.getD i 0 ≠ b.getD i 0) (hdj : a.getD j 0 ≠ b.getD j 0) : 2 ≤ bitDistance a b := by
  have key : ∀ k < a.length, a.getD k 0 ≠ b.getD k 0 → ∃ l < 8,
      (bytesBits a).getD (8 * k + l) false ≠ (bytesBits b).getD (8 * k + l) false := by
    intro k hk hne
    by_contra hc
    push Not at hc
    apply hne
    apply UInt8.toNat_inj.mp
    apply Nat.eq_of_testBit_eq
    intro l
    rw [List.getD_eq_getElem?_getD, List.getD_eq_getElem?_getD, List.getElem?_eq_getElem hk,
      List.getElem?_eq_getElem (h ▸ hk), Option.getD_some, Option.getD_some]
    by_cases hl : l < 8
    · have := hc l hl
      rw [List.getD_eq_getElem?_getD, List.getD_eq_getElem?_getD, bytesBits_getElem? _ _ _ hl, bytesBits_getElem? _ _ _ hl,
        List.getElem?_eq_getElem hk, List.getElem?_eq_getElem (h ▸ hk)] at this
      simpa using this
    · have h256 : (2 : Nat) ^ 8 ≤ 2 ^ l := Nat.pow_le_pow_right (by omega) (by omega)
      have b1 := (a[k]).toNat_lt
      have b2 := (b[k]'(h ▸ hk)).toNat_lt
      rw [Nat.testBit_lt_two_pow (by omega), Nat.testBit_lt_two_pow (by omega)]
  obtain ⟨l1, hl1, d1⟩ := key i hi hdi
  obtain ⟨l2, hl2, d2⟩ := key j hj hdj
  rw [bitDistance_eq a b h]
  have hne : 8 * i + l1 ≠ 8 * j + l2 := by omega
  calc 2 = ({8 * i + l1, 8 * j + l2} : Finset Nat).card := (Finset.card_pair hne).symm
    _ ≤ _ := by
      apply Finset.card_le_card
      intro x hx
      simp only [Finset.mem_insert, Finset.mem_singleton] at hx
      simp only [Finset.mem_filter, Finset.mem_range]
      rcases hx with rfl | rfl
      · exact ⟨by omega, d1⟩
      · exact ⟨by omega, d2⟩

/-- Codewords of different data differ in at least three bytes. -/
theorem xorParity_distance (K : Nat) (hK : 3 ≤ K) (d e : List UInt8) (hd : d.length = K) (he : e.length = K) (hne : d ≠ e) :
    ∃ a b c, a < 2 * K ∧ b < 2 * K ∧ c < 2 * K ∧ a ≠ b ∧ a ≠ c ∧ b ≠ c ∧ xorParity K a d ≠ xorParity K a e ∧
      xorParity K b d ≠ xorParity K b e ∧ xorParity K c d ≠ xorParity K c e := by
  have hdata : ∀ i < K, (xorParity K i d ≠ xorParity K i e ↔ d.getD i 0 ≠ e.getD i 0) := by
    intro i hi; unfold xorParity; rw [if_pos hi, if_pos hi]
  have hpar : ∀ i < K, d.getD i 0 ≠ e.getD i 0 → d.getD ((i + 1) % K) 0 = e.getD ((i + 1) % K) 0 →
      xorParity K (K + i) d ≠ xorParity K (K + i) e := by
    intro i hi h1 h2 h3
    unfold xorParity at h3
    rw [if_neg (by omega), if_neg (by omega), Nat.add_sub_cancel_left, h2] at h3
    exact h1 (by have := congrArg (· ^^^ e.getD ((i + 1) % K) 0) h3; simpa [UInt8.xor_assoc] using this)
  have hpar' : ∀ i < K, d.getD i 0 = e.getD i 0 → d.getD ((i + 1) % K) 0 ≠ e.getD ((i + 1) % K) 0 →
      xorParity K (K + i) d ≠ xorParity K (K + i) e := by
    intro i hi h1 h2 h3
    unfold xorParity at h3
    rw [if_neg (by omega), if_neg (by omega), Nat.add_sub_cancel_left, h1] at h3
    exact h2 (by have := congrArg (e.getD i 0 ^^^ ·) h3; simpa [← UInt8.xor_assoc] using this)
  -- a differing data byte
  obtain ⟨i, hi, hdi⟩ : ∃ i < K, d.getD i 0 ≠ e.getD i 0 := by
    by_contra hc
    push Not at hc
    apply hne
    apply List.ext_getElem (by omega)
    intro k h1 h2
    have := hc k (by omega)
    rwa [List.getD_eq_getElem?_getD, List.getD_eq_getElem?_getD, List.getElem?_eq_getElem h1, List.getElem?_eq_getElem h2] at this
  by_cases h1 : d.getD ((i + 1) % K) 0 = e.getD ((i + 1) % K) 0
  · -- the successor agrees: parity i differs; look at the predecessor
    have p1 := hpar i hi hdi h1
    obtain ⟨j, hj, hji⟩ : ∃ j < K, (j + 1) % K = i := by
      rcases Nat.eq_zero_or_pos i with h0 | h0
      · exact ⟨K - 1, by omega, by rw [Nat.sub_add_cancel (by omega), Nat.mod_self]; omega⟩
      · exact ⟨i - 1, by omega, by rw [Nat.sub_add_cancel h0, Nat.mod_eq_of_lt hi]⟩
    have hjne : j ≠ i := by
      rintro rfl
      rcases Nat.lt_or_ge (j + 1) K with h | h
      · rw [Nat.mod_eq_of_lt h] at hji; omega
      · have : j + 1 = K := by omega
        rw [this, Nat.mod_self] at hji; omega
    by_cases h2 : d.getD j 0 = e.getD j 0
    · exact ⟨i, K + i, K + j, by omega, by omega, by omega, by omega, by omega, by omega, (hdata i hi).mpr hdi, p1,
        hpar' j hj h2 (by rw [hji]; exact hdi)⟩
    · exact ⟨i, j, K + i, by omega, by omega, by omega, by omega, by omega, by omega, (hdata i hi).mpr hdi,
        (hdata j hj).mpr h2, p1⟩
  · -- the successor differs too; look at the one after it
    have hs : (i + 1) % K < K := Nat.mod_lt _ (by omega)
    have hsne : (i + 1) % K ≠ i := by
      rcases Nat.lt_or_ge (i + 1) K with h | h
      · rw [Nat.mod_eq_of_lt h]; omega
      · have : i + 1 = K := by omega
        rw [this, Nat.mod_self]; omega
    have hs2 : ((i + 1) % K + 1) % K < K := Nat.mod_lt _ (by omega)
    by_cases h2 : d.getD (((i + 1) % K + 1) % K) 0 = e.getD (((i + 1) % K + 1) % K) 0
    · exact ⟨i, (i + 1) % K, K + (i + 1) % K, by omega, by omega, by omega, by omega, by omega, by omega,
        (hdata i hi).mpr hdi, (hdata _ hs).mpr h1, hpar _ hs h1 h2⟩
    · have hne2 : ((i + 1) % K + 1) % K ≠ (i + 1) % K := by
        generalize (i + 1) % K = s at *
        rcases Nat.lt_or_ge (s + 1) K with h | h
        · rw [Nat.mod_eq_of_lt h]; omega
        · have : s + 1 = K := by omega
          rw [this, Nat.mod_self]; omega
      have hne3 : ((i + 1) % K + 1) % K ≠ i := by
        rcases Nat.lt_or_ge (i + 1) K with h | h
        · rw [Nat.mod_eq_of_lt h]
          rcases Nat.lt_or_ge (i + 1 + 1) K with h' | h'
          · rw [Nat.mod_eq_of_lt h']; omega
          · have : i + 1 + 1 = K := by omega
            rw [this, Nat.mod_self]; omega
        · have : i + 1 = K := by omega
          rw [this, Nat.mod_self, Nat.mod_eq_of_lt (by omega)]; omega
      exact ⟨i, (i + 1) % K, ((i + 1) % K + 1) % K, by omega, by omega, by omega, by omega, by omega, by omega,
        (hdata i hi).mpr hdi, (hdata _ hs).mpr h1, (hdata _ hs2).mpr h2⟩

theorem Ldpc.nearest_corrects (c : LdpcCode) : Ldpc.nearest.CorrectsBits c 1 := by
  intro d r hd hr hdist
  have hn : c.n / 8 = 2 * (c.k / 8) := by cases c <;> rfl
  have hk : 3 ≤ c.k / 8 := by cases c <;> decide
  have hex : ∃ d : List UInt8, d.length = c.k / 8 ∧
      bitDistance ((List.range (c.n / 8)).map fun i => xorParity (c.k / 8) i d) r ≤ 1 := ⟨d, hd, hdist⟩
  have hdec : Ldpc.nearest.decode c r = hex.choose ++ List.replicate (c.outputLen - c.k / 8) 0 := by
    unfold Ldpc.nearest
    exact dif_pos hex
  rw [hdec, List.take_append_of_le_length (by rw [hex.choose_spec.1]), List.take_of_length_le (by rw [hex.choose_spec.1])]
  obtain ⟨hl, hdist'⟩ := hex.choose_spec
  generalize hex.choose = e at hl hdist' ⊢
  by_contra hne
  obtain ⟨x, y, z, hx, hy, hz, hxy, hxz, hyz, dx, dy, dz⟩ := xorParity_distance (c.k / 8) hk d e hd hl (Ne.symm hne)
  have hget : ∀ (w : List UInt8) (i : Nat), i < 2 * (c.k / 8) →
      ((List.range (c.n / 8)).map fun i => xorParity (c.k / 8) i w).getD i 0 = xorParity (c.k / 8) i w := by
    intro w i hi
    rw [List.getD_eq_getElem?_getD, List.getElem?_eq_getElem (by simp; omega)]
    simp
  have two : ∀ (w : List UInt8), bitDistance ((List.range (c.n / 8)).map fun i => xorParity (c.k / 8) i w) r ≤ 1 →
      ∀ i j, i < 2 * (c.k / 8) → j < 2 * (c.k / 8) → i ≠ j → xorParity (c.k / 8) i w ≠ r.getD i 0 →
        xorParity (c.k / 8) j w = r.getD j 0 := by
    intro w hw i j hi hj hij h1
    by_contra h2
    have := two_le_bitDistance ((List.range (c.n / 8)).map fun i => xorParity (c.k / 8) i w) r (by rw [hr]; simp) i j (by simp; omega) (by simp; omega) hij
      (by rw [hget w i hi]; exact h1) (by rw [hget w j hj]; exact h2)
    omega
  replace hdist : bitDistance ((List.range (c.n / 8)).map fun i => xorParity (c.k / 8) i d) r ≤ 1 := hdist
  -- each of the three positions differs from r in one of the two codewords; two of them in the same one
  by_cases ax : xorParity (c.k / 8) x d = r.getD x 0
  · have ex : xorParity (c.k / 8) x e ≠ r.getD x 0 := fun h => dx (ax.trans h.symm)
    have ey := two e hdist' x y hx hy hxy ex
    have ez := two e hdist' x z hx hz hxz ex
    have ay : xorParity (c.k / 8) y d ≠ r.getD y 0 := fun h => dy (h.trans ey.symm)
    exact dz ((two d hdist y z hy hz hyz ay).trans ez.symm)
  · have ay := two d hdist x y hx hy hxy ax
    have az := two d hdist x z hx hz hxz ax
    have ey : xorParity (c.k / 8) y e ≠ r.getD y 0 := fun h => dy (ay.trans h.symm)
    exact dz (az.trans (two e hdist' y z hy hz hyz ey).symm)

/-- The contract for error correction implies the one for clean codewords. -/
theorem correctsBits_clean (L : Ldpc) (b : Nat) (h : ∀ c, L.CorrectsBits c b) : L.DecodesClean := by
  intro c d hd
  refine h c d _ hd (L.encode_length c d) ?_
  rw [bitDistance_eq _ _ rfl]
  simp

/-- A concrete case: 512 x 512, three levels, depth 60, and one whole 8 x 8 block painted over arbitrarily. -/
example : ∃ out, embed Ldpc.nearest (⟨512, 512, fun i j => UInt8.ofNat (100 + (i * j) % 32)⟩ : Mat UInt8)
    (List.replicate 100 7) (F64.fin 60) 3 = .ok out ∧
      ∀ noisy : Mat UInt8, noisy.IsSquare 512 → (∀ i < 512, ∀ j < 512, ¬ (i / 8 = 0 ∧ j / 8 = 5) → noisy.get i j = out.get i j) →
        extract Ldpc.nearest noisy (F64.fin 60) 3 = .ok (List.replicate 100 7) := by
  have hs : SignalOK 512 3 (⟨512, 512, fun i j => UInt8.ofNat (100 + (i * j) % 32)⟩ : Mat UInt8) (F64.fin 60) 1 := by
    have h0 := signalOK_double 512 3 le_rfl (⟨512, 512, fun i j => UInt8.ofNat (100 + (i * j) % 32)⟩ : Mat UInt8) 60 1
      (by norm_num) (by norm_num)
    apply h0
    intro i _ j _
    have h1 : (UInt8.ofNat (100 + (i * j) % 32)).toNat = 100 + (i * j) % 32 := by
      rw [UInt8.toNat_ofNat']; omega
    dsimp only
    rw [h1]
    have h2 : (100 : ℝ) ≤ ((100 + (i * j) % 32 : ℕ) : ℝ) := by exact_mod_cast (by omega : 100 ≤ 100 + (i * j) % 32)
    have h3 : ((100 + (i * j) % 32 : ℕ) : ℝ) ≤ 131 := by exact_mod_cast (by omega : 100 + (i * j) % 32 ≤ 131)
    push_cast
    push_cast at h2 h3
    constructor <;> norm_num <;> linarith
  obtain ⟨out, h1, _, h3⟩ := extract_corrects_damage Ldpc.nearest 512 3 _ (List.replicate 100 7) (F64.fin 60) 1 1
    (Ldpc.nearest_corrects _) ⟨⟨rfl, rfl⟩, by decide, by decide, by decide, by decide⟩ hs (by decide) (by decide) (by simp) (by simp)
    (by simp [domainBytes])
  refine ⟨out, h1, fun noisy hsq hsame => h3 noisy hsq fun i _ damaged hdam => ?_⟩
  apply Finset.card_le_one.mpr
  have key : ∀ k ∈ damaged, i * (8 * blockBytes (domainBytes 512 3)) + k = 5 := by
    intro k hk
    obtain ⟨hk1, i', hi', j', hj', e1, e2, e3⟩ := hdam k hk
    by_contra hne
    have hcase : ¬ (i' / 8 = 0 ∧ j' / 8 = 5) := by
      rintro ⟨c1, c2⟩
      norm_num at e1 e2
      omega
    rw [hsame i' hi' j' hj' hcase] at e3
    norm_num at e3
  intro a ha b hb
  have := key a ha
  have := key b hb
  omega

end Sia
