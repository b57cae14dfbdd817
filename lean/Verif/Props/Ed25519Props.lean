import Verif.Lemmas.Ed25519Lemmas
import Verif.Spec.SignatureSpec
import Verif.Props.ForgeryProps

/-! C80, C81: the built-in keys belong together; what a signature binds. -/
namespace Sia
open Rfc8032 Edwards

/-! ### Signing and verifying -/

theorem rfc8032_sign : Ed25519.rfc8032.sign = Rfc8032.sign := rfl
theorem rfc8032_verify : Ed25519.rfc8032.verify = Rfc8032.verify := rfl
theorem rfc8032_keypairOk (k : List UInt8) :
    Ed25519.rfc8032.keypairOk k = (decide (k.length = 64) && (decodePoint (k.drop 32)).isSome) := rfl
theorem rfc8032_publicOk (k : List UInt8) :
    Ed25519.rfc8032.publicOk k = (decide (k.length = 32) && (decodePoint k).isSome) := rfl
theorem rfc8032_signatureOk (s : List UInt8) :
    Ed25519.rfc8032.signatureOk s = (decide (s.length = 64) && s.getD 63 0 &&& 224 == 0) := rfl

theorem leNat_sign_tail (n : Nat) : leNat (leBytes 32 (n % order)) = n % order := by
  refine leNat_leBytes _ _ ((Nat.mod_lt _ order_pos).trans ?_)
  rw [order_eq]; norm_num

/-- The last byte of a number below the order of the base point is small. -/
theorem leBytes_last (n : Nat) (h : n < 2 ^ 253) : (leBytes 32 n).getD 31 0 &&& 224 = 0 := by
  have hdiv : ∀ (k m : Nat), (leBytes (k + 1) m).getD k 0 = UInt8.ofNat (m / 256 ^ k % 256) := by
    intro k
    induction k with
    | zero => intro m; simp [leBytes]
    | succ k ih =>
      intro m
      rw [leBytes, List.getD_cons_succ, ih, Nat.div_div_eq_div_mul, pow_succ, mul_comm 256]
  rw [hdiv 31 n]
  have hlt : n / 256 ^ 31 < 32 := by
    rw [Nat.div_lt_iff_lt_mul (by norm_num)]
    exact h.trans_le (by norm_num)
  generalize n / 256 ^ 31 = v at hlt
  interval_cases v <;> decide

theorem sign_eq (secret message : List UInt8) (hs : secret.length = 32) :
    ∃ r, Ed25519.rfc8032.sign (secret ++ publicOf secret) message =
      encodePoint (r • B).coords ++ leBytes 32 ((r + hashScalar (encodePoint (r • B).coords ++ publicOf secret ++ message) * scalar secret) %
        order) := by
  refine ⟨hashScalar ((Sha512.hash secret).drop 32 ++ message), ?_⟩
  rw [rfc8032_sign]
  unfold Rfc8032.sign
  dsimp only
  rw [← hs, List.take_left, List.drop_left, hs, ← B_coords, mul_coords]

theorem take_signature (R : List UInt8) (n : Nat) (h : R.length = 32) : (R ++ leBytes 32 n).take 32 = R := by
  rw [← h, List.take_left]

theorem drop_signature (R : List UInt8) (n : Nat) (h : R.length = 32) : (R ++ leBytes 32 n).drop 32 = leBytes 32 n := by
  conv_lhs => rw [← h, List.drop_left]
  rw [h]

/-- C80: every 32-byte secret and the public key derived from it form a key pair: both parse, what is signed parses as a signature
and verifies. -/
theorem keyPair_of_secret (secret : List UInt8) (hs : secret.length = 32) :
    Ed25519.rfc8032.KeyPair secret (publicOf secret) where
  keypair := by
    rw [rfc8032_keypairOk, List.length_append, publicOf_length, hs]
    have hd : (secret ++ publicOf secret).drop 32 = publicOf secret := by rw [← hs, List.drop_left]
    rw [hd, decode_publicOf, Option.isSome_some]
    rfl
  public_ok := by
    rw [rfc8032_publicOk, publicOf_length, decode_publicOf, Option.isSome_some]
    rfl
  parses m := by
    obtain ⟨r, h⟩ := sign_eq secret m hs
    rw [h]
    generalize hashScalar _ = k
    rw [rfc8032_signatureOk, List.length_append, encodePoint_length, leBytes_length, List.getD_eq_getElem?_getD,
      List.getElem?_append_right (by rw [encodePoint_length]; norm_num), ← List.getD_eq_getElem?_getD, encodePoint_length, leBytes_last]
    · rfl
    · refine (Nat.mod_lt _ order_pos).trans ?_
      rw [order_eq]; norm_num
  verifies m := by
    obtain ⟨r, h⟩ := sign_eq secret m hs
    rw [h]
    rw [rfc8032_verify, verify_iff]
    refine ⟨scalar secret • B, decode_publicOf secret, ?_, ?_⟩
    · rw [drop_signature _ _ (encodePoint_length _), leNat_sign_tail]
      exact Nat.mod_lt _ order_pos
    · rw [drop_signature _ _ (encodePoint_length _), take_signature _ _ (encodePoint_length _), leNat_sign_tail, mod_order_smul, add_nsmul,
        mul_comm, mul_nsmul, add_sub_cancel_right]

/-- Encoding a computed multiple of the base point. -/
theorem encode_mul_base (n x y : Nat) (hn : n < 2 ^ 256) (hx : x < 2 ^ 255 - 19) (hy : y < 2 ^ 255 - 19)
    (h1 : (pmul 256 n baseNat).1 % (2 ^ 255 - 19) = x * (pmul 256 n baseNat).2.2 % (2 ^ 255 - 19))
    (h2 : (pmul 256 n baseNat).2.1 % (2 ^ 255 - 19) = y * (pmul 256 n baseNat).2.2 % (2 ^ 255 - 19)) :
    encodePoint (mul n base) = leBytes 32 (y + 2 ^ 255 * (x % 2)) := by
  obtain ⟨e1, e2⟩ := smul_base_coords n x y hn h1 h2
  rw [← B_coords, mul_coords]
  unfold encodePoint Pt.coords
  dsimp only
  rw [e1, e2, ZMod.val_natCast_of_lt (by rw [p_eq]; exact hy), ZMod.val_natCast_of_lt (by rw [p_eq]; exact hx)]

theorem scalar_builtin : scalar builtinSecret = 0x74209914b342b7203b3d7a78ac375ddce362fb55da83fbb715fb8964990f3f48 := by
  decide +kernel

/-- C80: the public key built into the program is the public key of the secret key built into it. -/
theorem builtin_publicOf : publicOf builtinSecret = builtinPublic := by
  unfold publicOf
  rw [scalar_builtin, encode_mul_base _ 52922282908462020335251786666304999454397476663413444618693752421119393151221
    39195114008918047869812427184621430663269754342254609865446648665679897820583 (by norm_num) (by norm_num) (by norm_num)
    (by decide +kernel) (by decide +kernel)]
  decide +kernel

/-- C80: the built-in keys form a key pair of Ed25519. -/
theorem builtin_keyPair : Ed25519.rfc8032.KeyPair builtinSecret builtinPublic := by
  rw [← builtin_publicOf]
  exact keyPair_of_secret builtinSecret rfl

/-- C80: what the program signs with its built-in keys, it verifies. -/
theorem builtin_sign_verify (data : List UInt8) :
    ∃ s, sign Ed25519.rfc8032 data privateKey publicKey = .ok s ∧ s.length = 64 ∧
      verify Ed25519.rfc8032 data s publicKey = .ok true := by
  refine ⟨Ed25519.rfc8032.sign (builtinSecret ++ builtinPublic) data, ?_, Ed25519.rfc8032.sign_length _ _, ?_⟩
  · rw [sign_builtin, if_pos builtin_keyPair.keypair]
  · rw [verify_builtin, if_pos builtin_keyPair.public_ok, if_pos (builtin_keyPair.parses data), builtin_keyPair.verifies data]

/-- C80: keys made by `generate` sign and verify. -/
theorem generated_sign_verify (secret : List UInt8) (hs : secret.length = 32) (data : List UInt8) :
    ∃ s, sign Ed25519.rfc8032 data (generate secret (publicOf secret)).1 (generate secret (publicOf secret)).2 = .ok s ∧
      s.length = 64 ∧ verify Ed25519.rfc8032 data s (generate secret (publicOf secret)).2 = .ok true :=
  sign_verify_roundtrip _ secret (publicOf secret) (keyPair_of_secret secret hs) data

/-! ### C81: what an accepted signature binds -/

theorem smul_pred {G : Type} [AddCommGroup G] (b : G) (o : Nat) (ho : 0 < o) (h : o • b = 0) (m : Nat) :
    ((o - 1) * m) • b = -(m • b) := by
  obtain ⟨o, rfl⟩ : ∃ o', o = o' + 1 := ⟨o - 1, by omega⟩
  rw [eq_neg_iff_add_eq_zero, ← add_nsmul, Nat.add_sub_cancel, show o * m + m = m * (o + 1) by ring, mul_nsmul', h, smul_zero]

theorem add_pred_mod (o s x : Nat) (ho : 0 < o) (hs : s < o) : ((s + (o - 1) * x) % o + x) % o = s := by
  obtain ⟨o, rfl⟩ : ∃ o', o = o' + 1 := ⟨o - 1, by omega⟩
  rw [Nat.mod_add_mod, add_assoc, Nat.add_sub_cancel, show o * x + x = (o + 1) * x by ring, Nat.add_mul_mod_self_left,
    Nat.mod_eq_of_lt hs]

/-- C81: an accepted signature has the form of a signature made with the secret scalar: some multiple `r` of the base point, and
the number determined by it, the key and the message. -/
theorem verify_iff_form (secret message signature : List UInt8) (hl : signature.length = 64) :
    Ed25519.rfc8032.verify (publicOf secret) message signature = true ↔ ∃ r < order,
      signature = encodePoint (mul r base) ++
        leBytes 32 ((r + hashScalar (encodePoint (mul r base) ++ publicOf secret ++ message) * scalar secret) % order) := by
  rw [rfc8032_verify, verify_iff]
  constructor
  · rintro ⟨P, hP, hlt, henc⟩
    rw [decode_publicOf] at hP
    have hPe : scalar secret • B = P := some_coords_inj hP
    subst hPe
    set s := leNat (signature.drop 32) with hsd
    set k := hashScalar (signature.take 32 ++ publicOf secret ++ message) with hk
    refine ⟨(s + (order - 1) * (k * scalar secret)) % order, Nat.mod_lt _ order_pos, ?_⟩
    have hR : encodePoint (mul ((s + (order - 1) * (k * scalar secret)) % order) base) = signature.take 32 := by
      rw [← B_coords, mul_coords, mod_order_smul, add_nsmul, smul_pred B order order_pos order_smul_base, ← sub_eq_add_neg, mul_comm k, mul_nsmul]
      exact henc
    rw [hR, ← hk]
    rw [add_pred_mod order s (k * scalar secret) order_pos hlt, hsd]
    have h32 : (signature.drop 32).length = 32 := by rw [List.length_drop, hl]
    conv_lhs => rw [← List.take_append_drop 32 signature]
    congr 1
    have hb := leBytes_leNat (signature.drop 32)
    rw [h32] at hb
    exact hb.symm
  · rintro ⟨r, _, rfl⟩
    rw [← B_coords, mul_coords]
    refine ⟨scalar secret • B, decode_publicOf secret, ?_, ?_⟩
    · rw [drop_signature _ _ (encodePoint_length _), leNat_sign_tail]
      exact Nat.mod_lt _ order_pos
    · rw [drop_signature _ _ (encodePoint_length _), take_signature _ _ (encodePoint_length _), leNat_sign_tail, mod_order_smul, add_nsmul,
        mul_comm, mul_nsmul, add_sub_cancel_right]

/-- C81: the second half of a signature cannot be altered: for a public key, a message and a first half at most one second half
is accepted. -/
theorem signature_tail_unique (public_ message R s s' : List UInt8) (hR : R.length = 32) (hs : s.length = 32) (hs' : s'.length = 32)
    (h : Ed25519.rfc8032.verify public_ message (R ++ s) = true) (h' : Ed25519.rfc8032.verify public_ message (R ++ s') = true) :
    s = s' := by
  have ht : ∀ x : List UInt8, (R ++ x).take 32 = R := fun x => by rw [← hR, List.take_left]
  have hd : ∀ x : List UInt8, (R ++ x).drop 32 = x := fun x => by rw [← hR, List.drop_left]
  obtain ⟨P, hP, hlt, henc⟩ := (verify_iff _ _ _).mp (rfc8032_verify ▸ h)
  obtain ⟨P', hP', hlt', henc'⟩ := (verify_iff _ _ _).mp (rfc8032_verify ▸ h')
  rw [hP] at hP'
  have hPe : P = P' := some_coords_inj hP'
  subst hPe
  rw [ht, hd] at henc henc'
  rw [hd] at hlt hlt'
  have hc := encodePoint_inj (Pt.onCurve _) (Pt.onCurve _) (henc.trans henc'.symm)
  have hpt : leNat s • B - hashScalar (R ++ public_ ++ message) • P = leNat s' • B - hashScalar (R ++ public_ ++ message) • P :=
    coords_inj hc
  have hm := smul_base_inj (sub_left_injective hpt)
  rw [Nat.mod_eq_of_lt hlt, Nat.mod_eq_of_lt hlt'] at hm
  rw [← leBytes_leNat s, ← leBytes_leNat s', hs, hs', hm]

/-- C81: a signature that verifies for one message verifies for another exactly if the hashes of the two, after the first half of
the signature and the public key, agree modulo the order of the base point. -/
theorem signature_of_two_messages (secret m m' signature : List UInt8)
    (h : Ed25519.rfc8032.verify (publicOf secret) m signature = true) :
    Ed25519.rfc8032.verify (publicOf secret) m' signature = true ↔
      hashScalar (signature.take 32 ++ publicOf secret ++ m') = hashScalar (signature.take 32 ++ publicOf secret ++ m) := by
  obtain ⟨P, hP, hlt, henc⟩ := (verify_iff _ _ _).mp (rfc8032_verify ▸ h)
  have hP0 := hP
  rw [decode_publicOf] at hP0
  have hPe : scalar secret • B = P := some_coords_inj hP0
  rw [rfc8032_verify, verify_iff]
  constructor
  · rintro ⟨P', hP', _, henc'⟩
    rw [hP] at hP'
    have hPe' : P = P' := some_coords_inj hP'
    subst hPe'
    have hc := encodePoint_inj (Pt.onCurve _) (Pt.onCurve _) (henc'.trans henc.symm)
    have hpt := coords_inj hc
    have hm := sub_right_injective hpt
    rw [← hPe, nsmul_eq_nsmul_iff_modEq, public_point_order] at hm
    unfold hashScalar at hm ⊢
    rw [Nat.ModEq, Nat.mod_mod, Nat.mod_mod] at hm
    exact hm
  · intro he
    refine ⟨P, hP, hlt, ?_⟩
    rw [he]
    exact henc

theorem verify_collides (m m' s : List UInt8) (hne : m ≠ m')
    (h : Ed25519.rfc8032.verify builtinPublic m s = true) (h' : Ed25519.rfc8032.verify builtinPublic m' s = true) :
    HashCollision (s.take 32) builtinPublic m m' := by
  rw [← builtin_publicOf] at h h'
  have he := (signature_of_two_messages builtinSecret m m' s h).mp h'
  rw [builtin_publicOf] at he
  unfold hashScalar at he
  rw [order_eq] at he
  exact ⟨hne, he.symm⟩

/-- C81: one signature accepted by the built-in key for two different messages exhibits a collision of the hash. -/
theorem two_messages_collide (m m' s : List UInt8) (hne : m ≠ m')
    (h : verify Ed25519.rfc8032 m s publicKey = .ok true) (h' : verify Ed25519.rfc8032 m' s publicKey = .ok true) :
    HashCollision (s.take 32) builtinPublic m m' := by
  obtain ⟨k, hk, _, hs, hv⟩ := (verify_spec _ _ _ _ _).mp h
  obtain ⟨k', hk', _, _, hv'⟩ := (verify_spec _ _ _ _ _).mp h'
  have hb : decodeHex publicKey = .ok (some builtinPublic) := by decide +kernel
  rw [hb] at hk hk'
  cases hk; cases hk'
  exact verify_collides m m' s hne hv hv'

/-! ### The pipeline with Ed25519 -/

section
open LawfulFloat
variable {F : Type} [FloatOps F] [LawfulFloat F]

/-- C81: if a channel that carries the record of a source channel is accepted although its restored feature cells differ from the
signed cells, then SHA-512 has a collision (modulo the order of the base point) between the bytes of the two. -/
theorem accepted_cells_collide (D : Deps F) (hE : D.ed = Ed25519.rfc8032) (hL : D.ldpc.DecodesClean)
    (c : GrayImage) (n levels a : Nat) (depth step : F) (t : ℝ) (hc : c.IsSquare n)
    (hg : EmbedGeometry n levels c.pixels) (hs : SignalOK n levels c.pixels depth t)
    (hsup : SupportedCapacity (domainBytes n levels)) (hal : blockBytes (domainBytes n levels) ∣ domainBytes n levels)
    (hfit : recordBytes a + 4 ≤ domainBytes n levels / 2) (ha : a ≤ 85)
    (fs : List F) (hf : equalizedFeatures D c a = .ok fs) (q : List Int) (p : List Bool)
    (hq : threeBitQuantization fs step = .ok (q, p)) :
    ∃ out, watermarkChannel D c depth step a levels = .ok out ∧
      ∀ noisy : GrayImage, noisy.IsSquare n → WithinNoise n t out.pixels noisy.pixels →
        ∀ (a' : Nat) (gs : List F) (q' : List Int), equalizedFeatures D noisy a' = .ok gs →
          threeBitDequantization gs p step = .ok q' →
          authenticateChannel D noisy depth step a' levels = .ok true →
            q' = q ∨ HashCollision ((Ed25519.rfc8032.sign (builtinSecret ++ builtinPublic) (vecI64ToBytes q)).take 32) builtinPublic
              (vecI64ToBytes q') (vecI64ToBytes q) := by
  obtain ⟨out, h1, h2⟩ := accepted_cells_are_signed D hL (hE ▸ builtin_keyPair) c n levels a depth step t hc hg hs hsup hal hfit ha
    fs hf q p hq
  refine ⟨out, h1, fun noisy hn hw a' gs q' hgs hdq hacc => ?_⟩
  rcases h2 noisy hn hw a' gs q' hgs hdq hacc with h | ⟨hne, hv, hv'⟩
  · exact Or.inl h
  · rw [hE] at hv hv'
    exact Or.inr (verify_collides _ _ _ hne hv hv')

/-- C81: two channels accepted with one and the same signature have the same restored cells, or SHA-512 has a collision between
the bytes of their cells. -/
theorem same_signature_same_cells (D : Deps F) (hE : D.ed = Ed25519.rfc8032) (c c' : GrayImage) (depth step : F)
    (a a' levels levels' : Nat) (h : authenticateChannel D c depth step a levels = .ok true)
    (h' : authenticateChannel D c' depth step a' levels' = .ok true)
    (data data' : List UInt8) (w w' : Watermark)
    (hx : extract D.ldpc c.pixels depth levels = .ok data) (hw : deserializeWatermark data = .ok w)
    (hx' : extract D.ldpc c'.pixels depth levels' = .ok data') (hw' : deserializeWatermark data' = .ok w')
    (hsig : w.signature = w'.signature) :
    ∃ fs fs' q q', equalizedFeatures D c a = .ok fs ∧ threeBitDequantization fs w.perturbationVector step = .ok q ∧
      equalizedFeatures D c' a' = .ok fs' ∧ threeBitDequantization fs' w'.perturbationVector step = .ok q' ∧
      (vecI64ToBytes q = vecI64ToBytes q' ∨ HashCollision (w.signature.take 32) builtinPublic (vecI64ToBytes q) (vecI64ToBytes q')) := by
  obtain ⟨_, fs, d1, w1, q, a1, a2, a3, a4, _, a5, a6⟩ := (authenticate_iff D c depth step a levels true).mp h
  obtain ⟨_, fs', d2, w2, q', b1, b2, b3, b4, _, b5, b6⟩ := (authenticate_iff D c' depth step a' levels' true).mp h'
  rw [hx] at a2; cases a2
  rw [hw] at a3; cases a3
  rw [hx'] at b2; cases b2
  rw [hw'] at b3; cases b3
  refine ⟨fs, fs', q, q', a1, a4, b1, b4, ?_⟩
  by_cases hne : vecI64ToBytes q = vecI64ToBytes q'
  · exact Or.inl hne
  · right
    rw [hE] at a6 b6
    rw [← hsig] at b6
    exact verify_collides _ _ _ hne a6 b6

/-- C80, C38: with Ed25519, a marked channel authenticates; nothing has to be assumed about the keys. -/
theorem marked_channel_authenticates_rfc8032 (D : Deps F) (hE : D.ed = Ed25519.rfc8032) (hL : D.ldpc.DecodesClean)
    (c : GrayImage) (n levels a : Nat) (depth step : F) (t : ℝ) (hc : c.IsSquare n)
    (hg : EmbedGeometry n levels c.pixels) (hs : SignalOK n levels c.pixels depth t)
    (hsup : SupportedCapacity (domainBytes n levels)) (hal : blockBytes (domainBytes n levels) ∣ domainBytes n levels)
    (hfit : recordBytes a + 4 ≤ domainBytes n levels / 2) (ha : a ≤ 85)
    (hstep : GoodDepth step) (K : ℝ) (hK0 : 0 ≤ K) (hK : K ≤ 2 ^ 39)
    (fs : List F) (hf : equalizedFeatures D c a = .ok fs)
    (hfs : ∀ f ∈ fs, fin f ∧ |val f| ≤ K * val step ∧ AwayFromHalves (quantMargin F K) (val f / val step)) :
    ∃ out, watermarkChannel D c depth step a levels = .ok out ∧ out.IsSquare n ∧
      ∀ noisy : GrayImage, noisy.IsSquare n → WithinNoise n t out.pixels noisy.pixels →
        ∀ gs : List F, equalizedFeatures D noisy a = .ok gs →
          (∀ g ∈ gs, fin g ∧ AwayFromHalves (quantMargin F K) (val g / val step)) →
          List.Forall₂ (fun f g => |val g - val f| ≤ val step) fs gs →
          authenticateChannel D noisy depth step a levels = .ok true :=
  marked_channel_authenticates_float D hL (hE ▸ builtin_keyPair) c n levels a depth step t hc hg hs hsup hal hfit ha hstep K hK0 hK
    fs hf hfs

/-- C80, C40: with Ed25519 and the key built into the program there is one byte string that, embedded as the signature of a record
without perturbation bits, makes every suitable image authentic. -/
theorem empty_record_authenticates_rfc8032 : ∃ sig : List UInt8, sig.length = 64 ∧
    ∀ (D : Deps F), D.ed = Ed25519.rfc8032 → D.ldpc.DecodesClean →
    ∀ (text : String), text.utf8ByteSize ≤ 255 → ∀ (c : GrayImage) (n levels : Nat) (depth : F) (t : ℝ), c.IsSquare n →
    EmbedGeometry n levels c.pixels → SignalOK n levels c.pixels depth t → SupportedCapacity (domainBytes n levels) →
    blockBytes (domainBytes n levels) ∣ domainBytes n levels → 3 + 64 + text.utf8ByteSize + 4 ≤ domainBytes n levels / 2 →
    ∃ record m, Watermark.serialize ⟨[], sig, text⟩ = .ok record ∧ embed D.ldpc c.pixels record depth levels = .ok m ∧
      m.IsSquare n ∧ ∀ noisy : GrayImage, noisy.IsSquare n → WithinNoise n t m noisy.pixels →
        ∀ (a : Nat) (step : F) (fs : List F), equalizedFeatures D noisy a = .ok fs → FeaturesInRange fs step →
          authenticateChannel D noisy depth step a levels = .ok true := by
  refine ⟨Ed25519.rfc8032.sign (builtinSecret ++ builtinPublic) [], Ed25519.rfc8032.sign_length _ _, ?_⟩
  intro D hE hL text htext c n levels depth t hc hg hs hsup hal hfit
  refine empty_record_authenticates D hL ?_ _ ?_ ?_ text htext c n levels depth t hc hg hs hsup hal hfit
  · rw [hE]; exact builtin_keyPair.public_ok
  · rw [hE]; exact builtin_keyPair.parses []
  · rw [hE]; exact builtin_keyPair.verifies []

end
end Sia
