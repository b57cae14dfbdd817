import Verif.Model.Web
import Verif.Props.DistortionProps

/-! The browser front end: data URLs (C58), what is shown for an image (C59), which image is shown (C60). -/
namespace Sia

/-! ### C58: data URLs -/

theorem b64Char_value (n : Nat) (h : n < 64) : b64Value? (b64Char n) = some n ∧ isSpace (b64Char n) = false ∧
    b64Char n ≠ '=' ∧ b64Char n ≠ ':' ∧ b64Char n ≠ ';' := by
  have key : ∀ n : Fin 64, b64Value? (b64Char n.1) = some n.1 ∧ isSpace (b64Char n.1) = false ∧
      b64Char n.1 ≠ '=' ∧ b64Char n.1 ≠ ':' ∧ b64Char n.1 ≠ ';' := by decide +kernel
  exact key ⟨n, h⟩

/-- The characters before the padding are the alphabet characters of a list of 6-bit values. -/
theorem base64_shape (bytes : List UInt8) : ∃ vs : List Nat, (∀ v ∈ vs, v < 64) ∧ b64Bytes vs = bytes ∧
    ((vs.length % 4 = 0 ∧ base64 bytes = vs.map b64Char) ∨
      (vs.length % 4 = 3 ∧ base64 bytes = vs.map b64Char ++ ['=']) ∨
      (vs.length % 4 = 2 ∧ base64 bytes = vs.map b64Char ++ ['=', '='])) := by
  have lt : ∀ a : UInt8, a.toNat < 256 := fun a => a.toNat_lt
  have ext : ∀ (a : UInt8) (n : Nat), n = a.toNat → UInt8.ofNat n = a := by
    rintro a n rfl
    exact UInt8.ofNat_toNat
  match bytes with
  | [] => exact ⟨[], by simp, rfl, .inl ⟨rfl, rfl⟩⟩
  | [a] =>
    have := lt a
    refine ⟨[a.toNat / 4, a.toNat % 4 * 16], ?_, ?_, .inr (.inr ⟨rfl, rfl⟩)⟩
    · simp only [List.mem_cons, List.not_mem_nil, or_false, forall_eq_or_imp, forall_eq]; omega
    · simp only [b64Bytes, List.cons.injEq, and_true]
      exact ext _ _ (by omega)
  | [a, b] =>
    have := lt a
    have := lt b
    refine ⟨[a.toNat / 4, a.toNat % 4 * 16 + b.toNat / 16, b.toNat % 16 * 4], ?_, ?_, .inr (.inl ⟨rfl, rfl⟩)⟩
    · simp only [List.mem_cons, List.not_mem_nil, or_false, forall_eq_or_imp, forall_eq]; omega
    · simp only [b64Bytes, List.cons.injEq, and_true]
      exact ⟨ext _ _ (by omega), ext _ _ (by omega)⟩
  | a :: b :: c :: rest =>
    have := lt a
    have := lt b
    have := lt c
    obtain ⟨vs, h1, h2, h3⟩ := base64_shape rest
    refine ⟨a.toNat / 4 :: (a.toNat % 4 * 16 + b.toNat / 16) :: (b.toNat % 16 * 4 + c.toNat / 64) :: c.toNat % 64 :: vs, ?_, ?_, ?_⟩
    · simp only [List.mem_cons, forall_eq_or_imp]
      refine ⟨by omega, by omega, by omega, by omega, h1⟩
    · simp only [b64Bytes, List.cons.injEq]
      exact ⟨ext _ _ (by omega), ext _ _ (by omega), ext _ _ (by omega), h2⟩
    · simp only [base64, List.map_cons, List.cons_append, List.length_cons]
      rcases h3 with ⟨e1, e2⟩ | ⟨e1, e2⟩ | ⟨e1, e2⟩
      · exact .inl ⟨by omega, by rw [e2]⟩
      · exact .inr (.inl ⟨by omega, by rw [e2]⟩)
      · exact .inr (.inr ⟨by omega, by rw [e2]⟩)

theorem mapM_values (vs : List Nat) (h : ∀ v ∈ vs, v < 64) : (vs.map b64Char).mapM b64Value? = some vs := by
  induction vs with
  | nil => rfl
  | cons v vs ih =>
    rw [List.map_cons, List.mapM_cons, (b64Char_value v (h v (by simp))).1, ih fun w hw => h w (by simp [hw])]
    rfl

theorem dropPadding_plain (vs : List Nat) (h : ∀ v ∈ vs, v < 64) : dropPadding (vs.map b64Char) = vs.map b64Char := by
  unfold dropPadding
  split_ifs with h4
  · have hno : ∀ c ∈ (vs.map b64Char).reverse, c ≠ '=' := by
      intro c hc
      simp only [List.mem_reverse, List.mem_map] at hc
      obtain ⟨v, hv, rfl⟩ := hc
      exact (b64Char_value v (h v hv)).2.2.1
    split
    · rename_i r e; exact absurd rfl (hno '=' (by rw [e]; simp))
    · rename_i r _ e; exact absurd rfl (hno '=' (by rw [e]; simp))
    · rfl
  · rfl

/-- C58: the browser's decoder undoes the encoding of data URLs, for every content. -/
theorem atob_base64 (bytes : List UInt8) : atob (base64 bytes) = some bytes := by
  obtain ⟨vs, h1, h2, h3⟩ := base64_shape bytes
  have hsp : ∀ c ∈ vs.map b64Char, (!isSpace c) = true := by
    intro c hc
    obtain ⟨v, hv, rfl⟩ := List.mem_map.1 hc
    rw [(b64Char_value v (h1 v hv)).2.1]; rfl
  have hlen : (vs.map b64Char).length = vs.length := List.length_map _
  have hno : ∀ c ∈ (vs.map b64Char).reverse, c ≠ '=' := by
    intro c hc
    simp only [List.mem_reverse, List.mem_map] at hc
    obtain ⟨v, hv, rfl⟩ := hc
    exact (b64Char_value v (h1 v hv)).2.2.1
  have fin : ∀ s, dropPadding (s.filter fun c => !isSpace c) = vs.map b64Char → vs.length % 4 ≠ 1 → atob s = some bytes := by
    intro s e h
    unfold atob
    dsimp only
    rw [e, hlen, if_neg h, mapM_values vs h1, Option.map_some, h2]
  rcases h3 with ⟨e1, e2⟩ | ⟨e1, e2⟩ | ⟨e1, e2⟩
  · refine fin _ ?_ (by omega)
    rw [e2, List.filter_eq_self.2 hsp, dropPadding_plain vs h1]
  · refine fin _ ?_ (by omega)
    rw [e2, List.filter_append, List.filter_eq_self.2 hsp]
    unfold dropPadding
    have : (vs.map b64Char ++ List.filter (fun c => !isSpace c) ['=']) = vs.map b64Char ++ ['='] := rfl
    rw [this, if_pos (by rw [List.length_append, hlen]; simp; omega), List.reverse_append]
    have e3 : (['='] : List Char).reverse = ['='] := rfl
    rw [e3]
    cases hr : (vs.map b64Char).reverse with
    | nil =>
      rw [List.reverse_eq_nil_iff] at hr
      rw [hr] at hlen; simp only [List.length_nil] at hlen; omega
    | cons c r =>
      have hc := hno c (by rw [hr]; simp)
      simp only [List.cons_append, List.nil_append]
      split
      · rename_i r' e; simp only [List.cons.injEq] at e; exact absurd e.2.1 hc
      · rename_i r' _ e; simp only [List.cons.injEq, true_and] at e; rw [← e, ← hr, List.reverse_reverse]
      · rename_i e3 e4; exact absurd rfl (e4 (c :: r))
  · refine fin _ ?_ (by omega)
    rw [e2, List.filter_append, List.filter_eq_self.2 hsp]
    unfold dropPadding
    have : (vs.map b64Char ++ List.filter (fun c => !isSpace c) ['=', '=']) = vs.map b64Char ++ ['=', '='] := rfl
    rw [this, if_pos (by rw [List.length_append, hlen]; simp; omega), List.reverse_append]
    have e3 : (['=', '='] : List Char).reverse = ['=', '='] := rfl
    rw [e3]
    simp only [List.cons_append, List.nil_append, List.reverse_reverse]

theorem dropPadding_mem (s : List Char) (c : Char) (h : c ∈ s) (hc : c ≠ '=') : c ∈ dropPadding s := by
  unfold dropPadding
  split_ifs
  · have h' := List.mem_reverse.2 h
    split
    · rename_i r e
      rw [e] at h'
      simp only [List.mem_cons, hc, false_or] at h'
      exact List.mem_reverse.2 h'
    · rename_i r _ e
      rw [e] at h'
      simp only [List.mem_cons, hc, false_or] at h'
      exact List.mem_reverse.2 h'
    · exact h
  · exact h

theorem mapM_none {α β : Type} (f : α → Option β) (l : List α) (a : α) (h : a ∈ l) (hf : f a = none) : l.mapM f = none := by
  induction l with
  | nil => simp at h
  | cons b l ih =>
    rw [List.mapM_cons]
    rcases List.mem_cons.1 h with rfl | h
    · rw [hf]; rfl
    · rw [ih h]
      cases f b <;> rfl

theorem b64Value_alphabet (c : Char) (v : Nat) (h : b64Value? c = some v) :
    c ∈ "ABCDEFGHIJKLMNOPQRSTUVWXYZabcdefghijklmnopqrstuvwxyz0123456789+/= \t\n\x0c\r".toList := by
  have key : ∀ n : Fin 64,
      b64Char n.1 ∈ "ABCDEFGHIJKLMNOPQRSTUVWXYZabcdefghijklmnopqrstuvwxyz0123456789+/= \t\n\x0c\r".toList := by decide +kernel
  have hc : v < 64 ∧ b64Char v = c := by
    unfold b64Value? at h
    unfold b64Char
    split_ifs at h with h1 h2 h3 h4 h5
    · cases h
      refine ⟨by omega, ?_⟩
      rw [if_pos (by omega), show 65 + (c.toNat - 65) = c.toNat by omega, Char.ofNat_toNat]
    · cases h
      refine ⟨by omega, ?_⟩
      rw [if_neg (by omega), if_pos (by omega), show 71 + (c.toNat - 71) = c.toNat by omega, Char.ofNat_toNat]
    · cases h
      refine ⟨by omega, ?_⟩
      rw [if_neg (by omega), if_neg (by omega), if_pos (by omega), show c.toNat + 4 - 4 = c.toNat by omega, Char.ofNat_toNat]
    · cases h; exact ⟨by omega, by rw [h4]; rfl⟩
    · cases h; exact ⟨by omega, by rw [h5]; rfl⟩
  rw [← hc.2]
  exact key ⟨v, hc.1⟩

/-- C58: the decoder throws on every string that contains a character which is neither in the alphabet, nor white space,
nor `=`. -/
theorem atob_bad (s : List Char) (c : Char) (h : c ∈ s)
    (ha : c ∉ "ABCDEFGHIJKLMNOPQRSTUVWXYZabcdefghijklmnopqrstuvwxyz0123456789+/= \t\n\x0c\r".toList) :
    atob s = none := by
  have hp : c ≠ '=' := by rintro rfl; exact ha (by decide)
  have hs : isSpace c = false := by
    rw [← Bool.not_eq_true]
    intro h
    simp only [isSpace, Bool.or_eq_true, beq_iff_eq] at h
    rcases h with (((rfl | rfl) | rfl) | rfl) | rfl <;> exact ha (by decide)
  have hv : b64Value? c = none := by
    cases e : b64Value? c with
    | none => rfl
    | some v => exact absurd (b64Value_alphabet c v e) ha
  unfold atob
  dsimp only
  split_ifs
  · rfl
  · rw [mapM_none b64Value? _ c (dropPadding_mem _ c (List.mem_filter.2 ⟨h, by rw [hs]; rfl⟩) hp) hv]
    rfl

/-- C58: white space anywhere in the text is ignored, and nothing else is. -/
theorem atob_ignores_space (s : List Char) : atob (s.filter fun c => decide (c ∉ " \t\n\x0c\r".toList)) = atob s := by
  have e : ∀ c : Char, decide (c ∉ " \t\n\x0c\r".toList) = !isSpace c := by
    intro c
    have : " \t\n\x0c\r".toList = [' ', '\t', '\n', '\x0c', '\r'] := by decide
    rw [this]
    unfold isSpace
    by_cases h1 : c = ' ' <;> by_cases h2 : c = '\t' <;> by_cases h3 : c = '\n' <;> by_cases h4 : c = '\x0c' <;>
      by_cases h5 : c = '\r' <;> simp [h1, h2, h3, h4, h5]
  simp only [e]
  unfold atob
  rw [List.filter_filter]
  simp only [Bool.and_self]

/-- A media type whose data URLs the page understands: `image/` and one or more ASCII letters and digits. -/
def PlainImageType (mime : List Char) : Prop :=
  ∃ sub : List Char, sub ≠ [] ∧ (∀ c ∈ sub, c.isAlphanum = true) ∧ mime = ['i', 'm', 'a', 'g', 'e', '/'] ++ sub

/-- The class of the regular expression is that of the ASCII letters and digits. -/
theorem isAlnum_eq (c : Char) : isAlnum c = c.isAlphanum := by
  have e : ∀ a : Char, (c.val ≥ a.val ↔ a.toNat ≤ c.toNat) ∧ (c.val ≤ a.val ↔ c.toNat ≤ a.toNat) := fun a =>
    ⟨UInt32.le_iff_toNat_le, UInt32.le_iff_toNat_le⟩
  rw [Bool.eq_iff_iff]
  simp only [isAlnum, Char.isAlphanum, Char.isAlpha, Char.isUpper, Char.isLower, Char.isDigit, Bool.or_eq_true, Bool.and_eq_true,
    decide_eq_true_eq, (e _).1, (e _).2]
  tauto

theorem removeMime_cases (s : List Char) : removeMime s = s ∨
    ∃ sub, sub ≠ [] ∧ (∀ c ∈ sub, isAlnum c = true) ∧ s = mimeStart ++ sub ++ mimeEnd ++ removeMime s := by
  unfold removeMime
  split_ifs with h1
  · dsimp only
    split_ifs with h2
    · right
      obtain ⟨t, ht⟩ := List.isPrefixOf_iff_prefix.1 h1
      obtain ⟨u, hu⟩ := List.isPrefixOf_iff_prefix.1 h2.2
      refine ⟨_, h2.1, fun c hc => by simpa using List.all_eq_true.1 (List.all_takeWhile) c hc, ?_⟩
      rw [← hu, List.drop_left, List.append_assoc, List.append_assoc, hu, List.takeWhile_append_dropWhile,
        ← ht, List.drop_left]
    · exact .inl rfl
  · exact .inl rfl

theorem removeMime_match (sub t : List Char) (h : sub ≠ []) (ha : ∀ c ∈ sub, isAlnum c = true) :
    removeMime (mimeStart ++ sub ++ mimeEnd ++ t) = t := by
  have h1 : (mimeStart ++ sub ++ mimeEnd ++ t).drop mimeStart.length = sub ++ (mimeEnd ++ t) := by
    rw [List.append_assoc, List.append_assoc, List.drop_left]
  have hstop : isAlnum ';' = false := by decide
  have h2 : (sub ++ (mimeEnd ++ t)).takeWhile isAlnum = sub := by
    rw [List.takeWhile_append_of_pos ha]
    simp [mimeEnd, hstop]
  have h3 : (sub ++ (mimeEnd ++ t)).dropWhile isAlnum = mimeEnd ++ t := by
    rw [List.dropWhile_append_of_pos ha]
    simp [mimeEnd, hstop]
  unfold removeMime
  rw [if_pos (List.isPrefixOf_iff_prefix.2 ⟨_, by rw [List.append_assoc, List.append_assoc]⟩)]
  dsimp only
  rw [h1, h2, h3, if_pos ⟨h, List.isPrefixOf_iff_prefix.2 ⟨_, rfl⟩⟩, List.drop_left]

theorem alnum_ne (c : Char) (h : isAlnum c = true) : c ≠ ';' ∧ c ≠ ',' ∧ c ≠ ':' := by
  refine ⟨?_, ?_, ?_⟩ <;> rintro rfl <;> revert h <;> decide

theorem base64_no_colon (bytes : List UInt8) : ':' ∉ base64 bytes := by
  obtain ⟨vs, h1, -, h3⟩ := base64_shape bytes
  have h : ':' ∉ vs.map b64Char := by
    intro hc
    obtain ⟨v, hv, e⟩ := List.mem_map.1 hc
    exact (b64Char_value v (h1 v hv)).2.2.2.1 e
  rcases h3 with ⟨-, e⟩ | ⟨-, e⟩ | ⟨-, e⟩ <;> rw [e] <;> simp [h]

theorem removeMime_base64 (bytes : List UInt8) : removeMime (base64 bytes) = base64 bytes := by
  rcases removeMime_cases (base64 bytes) with h | ⟨sub, -, -, h⟩
  · exact h
  · exfalso
    refine base64_no_colon bytes ?_
    rw [h]
    simp [mimeStart]

/-- What the regular expression leaves of a data URL: the payload for plain image types; otherwise everything, or a string that
still contains a `;`. -/
theorem removeMime_dataUrl (mime : List Char) (bytes : List UInt8) :
    (PlainImageType mime ∧ removeMime (dataUrl mime bytes) = base64 bytes) ∨
    (¬PlainImageType mime ∧ removeMime (dataUrl mime bytes) = dataUrl mime bytes) ∨
    (¬PlainImageType mime ∧ ',' ∈ mime ∧ ';' ∈ removeMime (dataUrl mime bytes)) := by
  by_cases hp : PlainImageType mime
  · left
    refine ⟨hp, ?_⟩
    obtain ⟨sub, h1, h2, rfl⟩ := hp
    replace h2 : ∀ c ∈ sub, isAlnum c = true := fun c hc => (isAlnum_eq c).trans (h2 c hc)
    have : dataUrl (['i', 'm', 'a', 'g', 'e', '/'] ++ sub) bytes = mimeStart ++ sub ++ mimeEnd ++ base64 bytes := rfl
    rw [this, removeMime_match sub _ h1 h2]
  · right
    rcases removeMime_cases (dataUrl mime bytes) with h | ⟨sub, h1, h2, h⟩
    · exact .inl ⟨hp, h⟩
    · right
      refine ⟨hp, ?_⟩
      generalize removeMime (dataUrl mime bytes) = t at h ⊢
      have e : mime ++ (mimeEnd ++ base64 bytes) = (['i', 'm', 'a', 'g', 'e', '/'] ++ sub) ++ (mimeEnd ++ t) := by
        have h' : ['d', 'a', 't', 'a', ':'] ++ (mime ++ (mimeEnd ++ base64 bytes)) =
            ['d', 'a', 't', 'a', ':'] ++ (['i', 'm', 'a', 'g', 'e', '/'] ++ sub ++ (mimeEnd ++ t)) := by
          have := h
          simp only [dataUrl, mimeStart, List.append_assoc, List.cons_append, List.nil_append] at this ⊢
          exact this
        exact List.append_cancel_left h'
      rcases List.append_eq_append_iff.1 e with ⟨u, e1, e2⟩ | ⟨u, e1, e2⟩
      · -- the type ends inside `image/sub`
        cases u with
        | nil => rw [List.append_nil] at e1; exact absurd ⟨sub, h1, fun c hc => (isAlnum_eq c).symm.trans (h2 c hc), e1.symm⟩ hp
        | cons c u =>
          exfalso
          have hc : c = ';' := by
            simp only [mimeEnd, List.cons_append, List.cons.injEq] at e2
            exact e2.1.symm
          have hm : c ∈ ['i', 'm', 'a', 'g', 'e', '/'] ++ sub := by rw [e1]; simp
          rcases List.mem_append.1 hm with hm | hm
          · rw [hc] at hm; revert hm; decide
          · exact (alnum_ne c (h2 c hm)).1 hc
      · cases u with
        | nil => rw [List.append_nil] at e1; exact absurd ⟨sub, h1, fun c hc => (isAlnum_eq c).symm.trans (h2 c hc), e1⟩ hp
        | cons c u =>
          have e3 : mimeEnd ++ t = (c :: u) ++ (mimeEnd ++ base64 bytes) := e2
          rcases List.append_eq_append_iff.1 e3 with ⟨v, f1, f2⟩ | ⟨v, f1, f2⟩
          · -- the whole of `;base64,` lies inside the type
            refine ⟨?_, ?_⟩
            · rw [e1, f1]; simp [mimeEnd]
            · rw [f2]; simp [mimeEnd]
          · cases v with
            | nil =>
              rw [List.append_nil] at f1
              rw [List.nil_append] at f2
              refine ⟨?_, ?_⟩
              · rw [e1, ← f1]; simp [mimeEnd]
              · rw [← f2]; simp [mimeEnd]
            | cons d v =>
              exfalso
              have hd : d = ';' := by
                simp only [mimeEnd, List.cons_append, List.cons.injEq] at f2
                exact f2.1.symm
              have hm : d ∈ mimeEnd.tail := by rw [f1]; simp
              rw [hd] at hm
              revert hm
              decide

/-- C58: the bytes of a data URL, as the browser makes it from a blob, reach the watermarking library unchanged exactly if the
media type is `image/` followed by letters and digits only; for every other media type the page's decoder throws. -/
theorem dataUrl_decoded (mime : List Char) (bytes out : List UInt8) :
    base64ToUInt8Array (dataUrl mime bytes) = some out ↔ PlainImageType mime ∧ out = bytes := by
  unfold base64ToUInt8Array
  rcases removeMime_dataUrl mime bytes with ⟨h1, h2⟩ | ⟨h1, h2⟩ | ⟨h1, -, h2⟩
  · rw [h2, atob_base64, Option.some_inj]
    exact ⟨fun h => ⟨h1, h.symm⟩, fun h => h.2.symm⟩
  · rw [h2, atob_bad _ ':' (by simp [dataUrl]) (by decide)]
    simp [h1]
  · rw [atob_bad _ ';' h2 (by decide)]
    simp [h1]

/-- C58: the same for chosen files, whose data URL loses its head twice. Media types contain no comma. -/
theorem file_decoded (mime : List Char) (bytes out : List UInt8) (hc : ',' ∉ mime) :
    base64ToUInt8Array (fileToBase64 mime bytes) = some out ↔ PlainImageType mime ∧ out = bytes := by
  unfold fileToBase64
  rcases removeMime_dataUrl mime bytes with ⟨h1, h2⟩ | ⟨h1, h2⟩ | ⟨h1, h2, -⟩
  · rw [h2]
    unfold base64ToUInt8Array
    rw [removeMime_base64, atob_base64, Option.some_inj]
    exact ⟨fun h => ⟨h1, h.symm⟩, fun h => h.2.symm⟩
  · rw [h2]
    exact dataUrl_decoded mime bytes out
  · exact absurd h2 hc

/-- A JPEG file arrives, an SVG or an icon file throws. -/
example : PlainImageType "image/jpeg".toList ∧ ',' ∉ "image/jpeg".toList ∧
    base64ToUInt8Array (fileToBase64 "image/jpeg".toList [255, 216, 255, 224]) = some [255, 216, 255, 224] ∧
    base64ToUInt8Array (fileToBase64 "image/svg+xml".toList [60]) = none ∧
    base64ToUInt8Array (fileToBase64 "image/x-icon".toList [0, 0, 1]) = none ∧
    base64ToUInt8Array (fileToBase64 [] [1]) = none :=
  ⟨⟨['j', 'p', 'e', 'g'], by decide, by decide, by decide⟩, by decide, by decide +kernel, by decide +kernel,
    by decide +kernel, by decide +kernel⟩

/-- RFC 4648 test vectors. -/
example : base64 "foobar".toUTF8.toList = "Zm9vYmFy".toList ∧ base64 "fooba".toUTF8.toList = "Zm9vYmE=".toList ∧
    base64 "foob".toUTF8.toList = "Zm9vYg==".toList ∧ base64 [251, 255, 191] = "+/+/".toList ∧
    atob "Zm 9v\nYg".toList = some "foob".toUTF8.toList ∧ atob "Zm9vY".toList = none := by decide +kernel

end Sia
