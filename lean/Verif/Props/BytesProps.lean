import Verif.Model.Hex
import Verif.Lemmas.BytesLemmas

/-! C28, C29: integer/byte conversions and hex. -/
namespace Sia

/-! ### C28 -/

/-- C28: a `u16` vector is recovered from its bytes. -/
theorem u16_bytes_roundtrip (xs : List UInt16) : vecU16FromBytes (vecU16ToBytes xs) = .ok xs := by
  unfold vecU16FromBytes vecU16ToBytes
  rw [chunks_flatMap (by omega) _ (fun a => by simp)]
  rw [mapM_except_ok (g := fun c => UInt16.ofNat (leNat c))]
  · congr 1
    rw [List.map_map]
    conv_rhs => rw [← List.map_id xs]
    apply List.map_congr_left
    intro x _
    simp only [Function.comp, id]
    rw [leNat_leBytes 2 _ (by simpa using x.toNat_lt)]; simp
  · intro c hc
    simp only [List.mem_map] at hc
    obtain ⟨x, _, rfl⟩ := hc
    simp

/-- C28: two bytes per `u16`, least significant first. -/
theorem u16_bytes_format (xs : List UInt16) :
    (vecU16ToBytes xs).length = 2 * xs.length ∧
    vecU16ToBytes xs = xs.flatMap fun x => [UInt8.ofNat (x.toNat % 256), UInt8.ofNat (x.toNat / 256)] := by
  constructor
  · simp [vecU16ToBytes, List.length_flatMap]; ring
  · unfold vecU16ToBytes
    congr 1; funext x
    have hx := x.toNat_lt
    simp only [leBytes]
    rw [show x.toNat / 256 % 256 = x.toNat / 256 by omega]

/-- C28: parsing `u16`s aborts exactly on odd lengths; on success it is inverted by the writer. -/
theorem u16_bytes_parse (bs : List UInt8) :
    ((∃ xs, vecU16FromBytes bs = .ok xs) ↔ 2 ∣ bs.length) ∧
    ∀ xs, vecU16FromBytes bs = .ok xs → vecU16ToBytes xs = bs := by
  have hfull : 2 ∣ bs.length → vecU16FromBytes bs = .ok ((chunks 2 bs).map fun c => UInt16.ofNat (leNat c)) := by
    intro h
    unfold vecU16FromBytes
    apply mapM_except_ok
    intro c hc
    simp [chunks_full (by omega) bs h c hc]
  have hiff : (∃ xs, vecU16FromBytes bs = .ok xs) ↔ 2 ∣ bs.length := by
    constructor
    · intro h
      by_contra hd
      obtain ⟨cs, c, h1, _, h3, _⟩ := chunks_not_full (by omega) bs hd
      unfold vecU16FromBytes at h
      rw [mapM_except_isOk] at h
      obtain ⟨b, hb⟩ := h c (by rw [h1]; simp)
      simp [show c.length ≠ 2 by omega] at hb
    · intro h; exact ⟨_, hfull h⟩
  refine ⟨hiff, fun xs h => ?_⟩
  have hd := hiff.mp ⟨xs, h⟩
  rw [hfull hd] at h
  cases h
  unfold vecU16ToBytes
  rw [List.flatMap_map]
  conv_rhs => rw [← chunks_flatten (by omega : 0 < 2) bs, ← List.flatMap_id]
  rw [List.flatMap_def, List.flatMap_def]
  congr 1
  apply List.map_congr_left
  intro c hc
  have hl := chunks_full (by omega) bs hd c hc
  have hlt := leNat_lt c
  rw [hl] at hlt
  have : (UInt16.ofNat (leNat c)).toNat = leNat c := by
    simp; omega
  rw [this]
  have := leBytes_leNat c
  rw [hl] at this
  exact this

/-- C28: different `u16` vectors have different bytes. -/
theorem u16_bytes_injective : Function.Injective vecU16ToBytes := by
  intro a b h
  have := u16_bytes_roundtrip a
  rw [h, u16_bytes_roundtrip] at this
  exact (Except.ok.inj this).symm

/-- C28: an `i64` vector is recovered from its bytes. -/
theorem i64_bytes_roundtrip (xs : List Int) (h : ∀ x ∈ xs, -2 ^ 63 ≤ x ∧ x < 2 ^ 63) :
    vecI64FromBytes (vecI64ToBytes xs) = .ok xs := by
  unfold vecI64FromBytes vecI64ToBytes
  rw [chunks_flatMap (by omega) _ (fun a => by simp)]
  rw [mapM_except_ok (g := fun c => i64OfPattern (leNat c))]
  · congr 1
    rw [List.map_map]
    conv_rhs => rw [← List.map_id xs]
    apply List.map_congr_left
    intro x hx
    simp only [Function.comp, id]
    rw [leNat_leBytes 8 _ (lt_of_lt_of_le (i64Pattern_lt x) (by norm_num))]
    exact i64OfPattern_pattern x (h x hx).1 (h x hx).2
  · intro c hc
    simp only [List.mem_map] at hc
    obtain ⟨x, _, rfl⟩ := hc
    simp

/-- C28: eight bytes per `i64`. -/
theorem i64_bytes_length (xs : List Int) : (vecI64ToBytes xs).length = 8 * xs.length := by
  simp [vecI64ToBytes, List.length_flatMap]; ring

/-- C28: byte `8*k+i` is byte `i` (least significant first) of the two's complement of the `k`-th integer. -/
theorem i64_bytes_format (xs : List Int) (k i : Nat) (hk : k < xs.length) (hi : i < 8) :
    (vecI64ToBytes xs)[8 * k + i]? = some (UInt8.ofNat ((xs[k] % 2 ^ 64).toNat / 256 ^ i % 256)) := by
  have hb : ∀ (m n i : Nat), i < m → (leBytes m n)[i]? = some (UInt8.ofNat (n / 256 ^ i % 256)) := by
    intro m
    induction m with
    | zero => intro n i h; omega
    | succ m ih =>
      intro n i h
      cases i with
      | zero => simp [leBytes]
      | succ i =>
        simp only [leBytes, List.getElem?_cons_succ]
        rw [ih _ _ (by omega), Nat.div_div_eq_div_mul, pow_succ, mul_comm]
  induction xs generalizing k with
  | nil => simp at hk
  | cons x xs ih =>
    simp only [vecI64ToBytes, List.flatMap_cons]
    cases k with
    | zero =>
      rw [List.getElem?_append_left (by simp; omega)]
      simpa [i64Pattern] using hb 8 (i64Pattern x) i hi
    | succ k =>
      rw [List.getElem?_append_right (by simp; omega)]
      have : 8 * (k + 1) + i - (leBytes 8 (i64Pattern x)).length = 8 * k + i := by simp; omega
      rw [this]
      have := ih k (by simpa using hk)
      simpa [vecI64ToBytes] using this

/-- C28: parsing `i64`s aborts exactly on lengths not divisible by 8; on success the result is in range and is
inverted by the writer. -/
theorem i64_bytes_parse (bs : List UInt8) :
    ((∃ xs, vecI64FromBytes bs = .ok xs) ↔ 8 ∣ bs.length) ∧
    ∀ xs, vecI64FromBytes bs = .ok xs → vecI64ToBytes xs = bs ∧ ∀ x ∈ xs, -2 ^ 63 ≤ x ∧ x < 2 ^ 63 := by
  have hfull : 8 ∣ bs.length → vecI64FromBytes bs = .ok ((chunks 8 bs).map fun c => i64OfPattern (leNat c)) := by
    intro h
    unfold vecI64FromBytes
    apply mapM_except_ok
    intro c hc
    simp [chunks_full (by omega) bs h c hc]
  have hiff : (∃ xs, vecI64FromBytes bs = .ok xs) ↔ 8 ∣ bs.length := by
    constructor
    · intro h
      by_contra hd
      obtain ⟨cs, c, h1, _, h3, _⟩ := chunks_not_full (by omega) bs hd
      unfold vecI64FromBytes at h
      rw [mapM_except_isOk] at h
      obtain ⟨b, hb⟩ := h c (by rw [h1]; simp)
      simp [show c.length ≠ 8 by omega] at hb
    · intro h; exact ⟨_, hfull h⟩
  refine ⟨hiff, fun xs h => ?_⟩
  have hd := hiff.mp ⟨xs, h⟩
  have hlt : ∀ c ∈ chunks 8 bs, leNat c < 2 ^ 64 := by
    intro c hc
    have := leNat_lt c
    rw [chunks_full (by omega) bs hd c hc] at this
    exact lt_of_lt_of_le this (by norm_num)
  rw [hfull hd] at h
  cases h
  constructor
  · unfold vecI64ToBytes
    rw [List.flatMap_map]
    conv_rhs => rw [← chunks_flatten (by omega : 0 < 8) bs, ← List.flatMap_id]
    rw [List.flatMap_def, List.flatMap_def]
    congr 1
    apply List.map_congr_left
    intro c hc
    have hl := chunks_full (by omega) bs hd c hc
    rw [i64Pattern_ofPattern _ (hlt c hc)]
    have := leBytes_leNat c
    rw [hl] at this
    exact this
  · intro x hx
    simp only [List.mem_map] at hx
    obtain ⟨c, hc, rfl⟩ := hx
    exact i64OfPattern_range _ (hlt c hc)

/-- C28: different `i64` vectors have different bytes. -/
theorem i64_bytes_injective (a b : List Int) (ha : ∀ x ∈ a, -2 ^ 63 ≤ x ∧ x < 2 ^ 63)
    (hb : ∀ x ∈ b, -2 ^ 63 ≤ x ∧ x < 2 ^ 63) (h : vecI64ToBytes a = vecI64ToBytes b) : a = b := by
  have := i64_bytes_roundtrip a ha
  rw [h, i64_bytes_roundtrip b hb] at this
  exact (Except.ok.inj this).symm

example : ∀ x ∈ ([-1, 5, -2 ^ 63, 2 ^ 63 - 1] : List Int), -2 ^ 63 ≤ x ∧ x < 2 ^ 63 := by decide
example : vecI64FromBytes (vecI64ToBytes [-1, 5, -2 ^ 63, 2 ^ 63 - 1]) = .ok [-1, 5, -2 ^ 63, 2 ^ 63 - 1] :=
  i64_bytes_roundtrip _ (by decide)

/-! ### C29 -/

/-- The lower-case hex digits "0123456789abcdef". -/
def lowerHexDigits : List UInt8 := [48, 49, 50, 51, 52, 53, 54, 55, 56, 57, 97, 98, 99, 100, 101, 102]

/-- The upper-case hex digits "0123456789ABCDEF". -/
def upperHexDigits : List UInt8 := [48, 49, 50, 51, 52, 53, 54, 55, 56, 57, 65, 66, 67, 68, 69, 70]

/-- A hex digit of either case. -/
def IsHexDigit (c : UInt8) : Prop := c ∈ lowerHexDigits ∨ c ∈ upperHexDigits

instance (c : UInt8) : Decidable (IsHexDigit c) := by unfold IsHexDigit; infer_instance

/-- C29: two digits per byte, high nibble first, only lower-case digits. -/
theorem encodeHex_format (bs : List UInt8) :
    (encodeHex bs).length = 2 * bs.length ∧ (∀ c ∈ encodeHex bs, c ∈ lowerHexDigits) ∧
    ∀ k b, bs[k]? = some b → (encodeHex bs)[2 * k]? = lowerHexDigits[b.toNat / 16]? ∧
      (encodeHex bs)[2 * k + 1]? = lowerHexDigits[b.toNat % 16]? := by
  have hc : ∀ b : UInt8, hexChar (b.toNat / 16) ∈ lowerHexDigits ∧ hexChar (b.toNat % 16) ∈ lowerHexDigits ∧
      some (hexChar (b.toNat / 16)) = lowerHexDigits[b.toNat / 16]? ∧
      some (hexChar (b.toNat % 16)) = lowerHexDigits[b.toNat % 16]? := by
    apply uint8_forall; decide +kernel
  refine ⟨by simp [encodeHex, List.length_flatMap]; ring, ?_, ?_⟩
  · intro c h
    simp only [encodeHex, List.mem_flatMap] at h
    obtain ⟨b, _, hb⟩ := h
    simp at hb
    rcases hb with rfl | rfl
    · exact (hc b).1
    · exact (hc b).2.1
  · induction bs with
    | nil => intro k b h; simp at h
    | cons a bs ih =>
      intro k b h
      have he : encodeHex (a :: bs) = hexChar (a.toNat / 16) :: hexChar (a.toNat % 16) :: encodeHex bs := rfl
      rw [he]
      cases k with
      | zero =>
        simp at h; subst h
        simpa using (hc a).2.2
      | succ k =>
        have h1 : 2 * (k + 1) = 2 * k + 2 := by ring
        rw [h1]
        simpa using ih k b (by simpa using h)

private theorem decodeHexLoop_shift (a b : UInt8) (s : List UInt8) (ha : a.toNat < 128) (hb : b.toNat < 128)
    (hs : ∀ c ∈ s, c.toNat < 128) (is : List Nat) :
    decodeHexLoop (a :: b :: s) (is.map (· + 2)) = decodeHexLoop s is := by
  have hbd : ∀ (t : List UInt8) (i : Nat), (∀ c ∈ t, c.toNat < 128) → i ≤ t.length → isCharBoundary t i = true := by
    intro t i ht hi
    unfold isCharBoundary
    by_cases h0 : i = t.length
    · simp [h0]
    · have hlt : i < t.length := by omega
      have : t[i].toNat < 128 := ht _ (List.getElem_mem hlt)
      have hbit : ∀ c : UInt8, c.toNat < 128 → (c &&& 0xC0 != 0x80) = true := by
        apply uint8_forall; decide +kernel
      simp [hlt, hbit t[i] this]
  have hs2 : ∀ c ∈ a :: b :: s, c.toNat < 128 := by
    intro c hc
    rcases List.mem_cons.mp hc with rfl | hc
    · exact ha
    rcases List.mem_cons.mp hc with rfl | hc
    · exact hb
    exact hs c hc
  induction is with
  | nil => rfl
  | cons i is ih =>
    simp only [List.map_cons, decodeHexLoop]
    have : strSlice (a :: b :: s) (i + 2) (i + 2 + 2) = strSlice s i (i + 2) := by
      unfold strSlice
      by_cases hi : i + 2 ≤ s.length
      · simp [hi, hbd s i hs (by omega), hbd s (i + 2) hs hi,
          hbd _ (i + 2) hs2 (by simp; omega), hbd _ (i + 2 + 2) hs2 (by simp; omega)]
      · simp [hi]
    rw [this, ih]

private theorem isCharBoundary_ascii (t : List UInt8) (i : Nat) (ht : ∀ c ∈ t, c.toNat < 128) (hi : i ≤ t.length) :
    isCharBoundary t i = true := by
  unfold isCharBoundary
  by_cases h0 : i = t.length
  · simp [h0]
  · have hlt : i < t.length := by omega
    have : t[i].toNat < 128 := ht _ (List.getElem_mem hlt)
    have hbit : ∀ c : UInt8, c.toNat < 128 → (c &&& 0xC0 != 0x80) = true := by
      apply uint8_forall; decide +kernel
    simp [hlt, hbit t[i] this]

/-- On ASCII text `decode_hex` consumes the text pair by pair. -/
theorem decodeHex_cons_cons (a b : UInt8) (s : List UInt8) (ha : a.toNat < 128) (hb : b.toNat < 128)
    (hs : ∀ c ∈ s, c.toNat < 128) :
    decodeHex (a :: b :: s) = match u8FromStrRadix16 [a, b] with
      | none => .ok none
      | some x => match decodeHex s with
        | .error e => .error e
        | .ok none => .ok none
        | .ok (some xs) => .ok (some (x :: xs)) := by
  have hr : (List.range (((a :: b :: s).length + 1) / 2)).map (2 * ·) =
      0 :: ((List.range ((s.length + 1) / 2)).map (2 * ·)).map (· + 2) := by
    have : ((a :: b :: s).length + 1) / 2 = (s.length + 1) / 2 + 1 := by simp; omega
    rw [this, List.range_succ_eq_map]
    simp [Function.comp_def, Nat.mul_add]
  unfold decodeHex
  rw [hr, decodeHexLoop, decodeHexLoop_shift a b s ha hb hs]
  have hs2 : ∀ c ∈ a :: b :: s, c.toNat < 128 := by
    intro c hc
    rcases List.mem_cons.mp hc with rfl | hc
    · exact ha
    rcases List.mem_cons.mp hc with rfl | hc
    · exact hb
    exact hs c hc
  have : strSlice (a :: b :: s) 0 (0 + 2) = .ok [a, b] := by
    unfold strSlice
    simp [isCharBoundary_ascii _ 0 hs2, isCharBoundary_ascii _ 2 hs2]
  rw [this]
  simp only [bind, Except.bind]
  cases u8FromStrRadix16 [a, b] with
  | none => rfl
  | some x =>
    dsimp only
    split <;> simp_all
    split <;> simp_all

/-- C29: `decode_hex` inverts `encode_hex`. -/
theorem decodeHex_encodeHex (bs : List UInt8) : decodeHex (encodeHex bs) = .ok (some bs) := by
  have key : ∀ b : UInt8, u8FromStrRadix16 [hexChar (b.toNat / 16), hexChar (b.toNat % 16)] = some b ∧
      (hexChar (b.toNat / 16)).toNat < 128 ∧ (hexChar (b.toNat % 16)).toNat < 128 := by
    apply uint8_forall; decide +kernel
  have hlow : ∀ c ∈ lowerHexDigits, c.toNat < 128 := by decide
  induction bs with
  | nil => rfl
  | cons b bs ih =>
    have he : encodeHex (b :: bs) = hexChar (b.toNat / 16) :: hexChar (b.toNat % 16) :: encodeHex bs := rfl
    rw [he, decodeHex_cons_cons _ _ _ (key b).2.1 (key b).2.2
      (fun c hc => hlow c ((encodeHex_format bs).2.1 c hc)), (key b).1, ih]

/-- C29: different byte strings have different hex forms. -/
theorem encodeHex_injective : Function.Injective encodeHex := by
  intro a b h
  have := decodeHex_encodeHex a
  rw [h, decodeHex_encodeHex] at this
  simpa using this.symm

/-- The pairs of bytes that `decode_hex` accepts: two hex digits, or `+` and a hex digit. -/
def HexPair (a b : UInt8) : Prop := (IsHexDigit a ∨ a = 43) ∧ IsHexDigit b

/-- Text made of accepted pairs. -/
inductive HexText : List UInt8 → Prop
  | nil : HexText []
  | cons (a b : UInt8) (s : List UInt8) : HexPair a b → HexText s → HexText (a :: b :: s)

private theorem u8FromStrRadix16_some (a b : UInt8) : (∃ x, u8FromStrRadix16 [a, b] = some x) ↔ HexPair a b := by
  have hd : ∀ c : UInt8, (hexDigit? c).isSome = true ↔ IsHexDigit c := by
    apply uint8_forall; decide +kernel
  have h43 : ¬ IsHexDigit 43 := by decide
  have hA := hd a
  have hB := hd b
  unfold u8FromStrRadix16 HexPair
  by_cases ha : a = 43
  · subst ha
    simp only [if_true]
    rw [← hB]
    cases hexDigit? b <;> simp
  · simp only [ha, if_false, or_false]
    rw [← hA, ← hB]
    cases hexDigit? a <;> cases hexDigit? b <;> simp

/-- C29: an even-length ASCII string never aborts, and is accepted exactly if it consists of accepted pairs. -/
theorem decodeHex_even_ascii : ∀ (s : List UInt8), (∀ c ∈ s, c.toNat < 128) → 2 ∣ s.length →
    (∃ r, decodeHex s = .ok r) ∧ ((∃ bs, decodeHex s = .ok (some bs)) ↔ HexText s)
  | [], _, _ => ⟨⟨some [], rfl⟩, ⟨fun _ => .nil, fun _ => ⟨[], rfl⟩⟩⟩
  | [a], _, h => by simp at h
  | a :: b :: s, hs, h => by
    have ha := hs a (by simp)
    have hb := hs b (by simp)
    have hs' : ∀ c ∈ s, c.toNat < 128 := fun c hc => hs c (by simp [hc])
    have h' : 2 ∣ s.length := by simp at h; omega
    obtain ⟨⟨r, hr⟩, hiff⟩ := decodeHex_even_ascii s hs' h'
    rw [decodeHex_cons_cons a b s ha hb hs', hr]
    have hp := u8FromStrRadix16_some a b
    cases hx : u8FromStrRadix16 [a, b] with
    | none =>
      rw [hx] at hp
      refine ⟨⟨none, rfl⟩, ?_⟩
      constructor
      · rintro ⟨bs, h⟩; simp at h
      · intro h; cases h with
        | cons _ _ _ h1 h2 => exact absurd (hp.mpr h1) (by simp)
    | some x =>
      rw [hx] at hp
      have hpair := hp.mp ⟨x, rfl⟩
      rw [hr] at hiff
      cases r with
      | none =>
        refine ⟨⟨none, rfl⟩, ?_⟩
        constructor
        · rintro ⟨bs, h⟩; simp at h
        · intro h; cases h with
          | cons _ _ _ h1 h2 => obtain ⟨bs, h⟩ := hiff.mpr h2; simp at h
      | some bs =>
        refine ⟨⟨some (x :: bs), rfl⟩, ?_⟩
        constructor
        · intro _; exact .cons a b s hpair (hiff.mp ⟨bs, rfl⟩)
        · intro _; exact ⟨_, rfl⟩

/-- C29: an odd-length ASCII string is never accepted: `decode_hex` reports a parse error found in an earlier pair
or aborts. -/
theorem decodeHex_odd_ascii : ∀ (s : List UInt8), (∀ c ∈ s, c.toNat < 128) → ¬ 2 ∣ s.length →
    (∀ bs, decodeHex s ≠ .ok (some bs)) ∧
    ((∃ e, decodeHex s = .error e) ↔ HexText s.dropLast)
  | [], _, h => by simp at h
  | [a], _, _ => by
    have : decodeHex [a] = .error .sliceOutOfRange := by
      simp [decodeHex, decodeHexLoop, strSlice, bind, Except.bind]
    rw [this]
    exact ⟨by simp, ⟨fun _ => .nil, fun _ => ⟨_, rfl⟩⟩⟩
  | a :: b :: s, hs, h => by
    have ha := hs a (by simp)
    have hb := hs b (by simp)
    have hs' : ∀ c ∈ s, c.toNat < 128 := fun c hc => hs c (by simp [hc])
    have h' : ¬ 2 ∣ s.length := by simp at h; omega
    have hne : s ≠ [] := by rintro rfl; simp at h'
    obtain ⟨hno, hiff⟩ := decodeHex_odd_ascii s hs' h'
    rw [decodeHex_cons_cons a b s ha hb hs']
    have hp := u8FromStrRadix16_some a b
    have hdl : (a :: b :: s).dropLast = a :: b :: s.dropLast := by
      cases s with
      | nil => exact absurd rfl hne
      | cons c s => rfl
    rw [hdl]
    cases hx : u8FromStrRadix16 [a, b] with
    | none =>
      rw [hx] at hp
      refine ⟨by simp, ?_⟩
      constructor
      · rintro ⟨e, h⟩; simp at h
      · intro h; cases h with
        | cons _ _ _ h1 h2 => exact absurd (hp.mpr h1) (by simp)
    | some x =>
      rw [hx] at hp
      have hpair := hp.mp ⟨x, rfl⟩
      cases hr : decodeHex s with
      | error e =>
        rw [hr] at hiff
        refine ⟨by simp, ?_⟩
        exact ⟨fun _ => .cons a b _ hpair (hiff.mp ⟨e, rfl⟩), fun _ => ⟨e, rfl⟩⟩
      | ok r =>
        cases r with
        | none =>
          rw [hr] at hiff
          refine ⟨by simp, ?_⟩
          constructor
          · rintro ⟨e, h⟩; simp at h
          · intro h; cases h with
            | cons _ _ _ h1 h2 => obtain ⟨e, h⟩ := hiff.mpr h2; simp at h
        | some bs => exact absurd hr (hno bs)

/-- C29: upper-case digits are accepted with the same meaning, and "+f" decodes to the byte 15. -/
theorem decodeHex_case_and_plus :
    (∀ b : UInt8, ∀ h l, upperHexDigits[b.toNat / 16]? = some h → upperHexDigits[b.toNat % 16]? = some l →
      decodeHex [h, l] = .ok (some [b])) ∧
    decodeHex [43, 102] = .ok (some [15]) := by
  constructor
  · intro b h l h1 h2
    have key : ∀ b : UInt8, ∀ h ∈ upperHexDigits, ∀ l ∈ upperHexDigits,
      upperHexDigits[b.toNat / 16]? = some h → upperHexDigits[b.toNat % 16]? = some l →
      decodeHex [h, l] = .ok (some [b]) := by
      apply uint8_forall
      intro n h hh l hl h1 h2
      have hlow : ∀ c ∈ upperHexDigits, c.toNat < 128 := by decide
      rw [decodeHex_cons_cons h l [] (hlow h hh) (hlow l hl) (by simp)]
      have : ∀ n : Fin 256, ∀ h ∈ upperHexDigits, ∀ l ∈ upperHexDigits,
        upperHexDigits[(UInt8.ofNat n).toNat / 16]? = some h → upperHexDigits[(UInt8.ofNat n).toNat % 16]? = some l →
        u8FromStrRadix16 [h, l] = some (UInt8.ofNat n) := by decide +kernel
      rw [this n h hh l hl h1 h2]
      rfl
    exact key b h (List.mem_of_getElem? h1) l (List.mem_of_getElem? h2) h1 h2
  · rfl

example : (∀ c ∈ ([43, 102, 65, 98] : List UInt8), c.toNat < 128) ∧ HexText [43, 102, 65, 98] := by
  refine ⟨by decide, .cons _ _ _ ?_ (.cons _ _ _ ?_ .nil)⟩ <;> (unfold HexPair; decide)

end Sia
