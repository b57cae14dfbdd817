import Verif.Props.Ed25519Props
import Verif.Props.CliAuthExamples

/-! The model of Ed25519 on the test vectors of its standards, and a channel marked with it (C80, C81). -/
namespace Sia
open Rfc8032

/-- The fractional part of the cube root of `q`, and of the square root, as 64-bit words: FIPS 180-4, 4.2.3 and 5.3.5. -/
def IsCubeRootWord (q k : Nat) : Prop := ∃ i < 8, (i * 2 ^ 64 + k) ^ 3 ≤ q * 2 ^ 192 ∧ q * 2 ^ 192 < (i * 2 ^ 64 + k + 1) ^ 3
def IsSquareRootWord (q k : Nat) : Prop := ∃ i < 8, (i * 2 ^ 64 + k) ^ 2 ≤ q * 2 ^ 128 ∧ q * 2 ^ 128 < (i * 2 ^ 64 + k + 1) ^ 2

instance (q k : Nat) : Decidable (IsCubeRootWord q k) := by unfold IsCubeRootWord; infer_instance
instance (q k : Nat) : Decidable (IsSquareRootWord q k) := by unfold IsSquareRootWord; infer_instance

/-- The constants of SHA-512 are the words given by the first 80 and the first 8 prime numbers. -/
example : Sha512.roundConstants.length = 80 ∧ Sha512.initial.length = 8 ∧
    (∀ x ∈ ((List.range 410).filter fun q => decide (2 ≤ q) && (List.range q).all fun i => decide (i < 2) || q % i != 0).zip
      Sha512.roundConstants, IsCubeRootWord x.1 x.2) ∧
    ∀ x ∈ [2, 3, 5, 7, 11, 13, 17, 19].zip Sha512.initial, IsSquareRootWord x.1 x.2 := by decide +kernel

/-- FIPS 180-4: the hash of `abc`. -/
example : Sha512.hash [0x61, 0x62, 0x63] =
    [0xdd, 0xaf, 0x35, 0xa1, 0x93, 0x61, 0x7a, 0xba, 0xcc, 0x41, 0x73, 0x49, 0xae, 0x20, 0x41, 0x31,
     0x12, 0xe6, 0xfa, 0x4e, 0x89, 0xa9, 0x7e, 0xa2, 0x0a, 0x9e, 0xee, 0xe6, 0x4b, 0x55, 0xd3, 0x9a,
     0x21, 0x92, 0x99, 0x2a, 0x27, 0x4f, 0xc1, 0xa8, 0x36, 0xba, 0x3c, 0x23, 0xa3, 0xfe, 0xeb, 0xbd,
     0x45, 0x4d, 0x44, 0x23, 0x64, 0x3c, 0xe8, 0x0e, 0x2a, 0x9a, 0xc9, 0x4f, 0xa5, 0x4c, 0xa4, 0x9f] := by decide +kernel

/-- A message of 200 bytes, two blocks: the first bytes of its hash. -/
example : (Sha512.hash (List.replicate 200 0x61)).take 4 = [0x4b, 0x11, 0x45, 0x9c] := by decide +kernel

theorem sign_value (keypair message : List UInt8) (r : Nat)
    (hr : hashScalar ((Sha512.hash (keypair.take 32)).drop 32 ++ message) = r) (x y : Nat) (hn : r < 2 ^ 256)
    (hx : x < 2 ^ 255 - 19) (hy : y < 2 ^ 255 - 19)
    (h1 : (pmul 256 r baseNat).1 % (2 ^ 255 - 19) = x * (pmul 256 r baseNat).2.2 % (2 ^ 255 - 19))
    (h2 : (pmul 256 r baseNat).2.1 % (2 ^ 255 - 19) = y * (pmul 256 r baseNat).2.2 % (2 ^ 255 - 19)) (signature : List UInt8)
    (hs : leBytes 32 (y + 2 ^ 255 * (x % 2)) ++ leBytes 32 ((r + hashScalar (leBytes 32 (y + 2 ^ 255 * (x % 2)) ++
      keypair.drop 32 ++ message) * scalar (keypair.take 32)) % order) = signature) :
    Ed25519.rfc8032.sign keypair message = signature := by
  rw [rfc8032_sign]
  unfold Rfc8032.sign
  dsimp only
  rw [hr, encode_mul_base r x y hn hx hy h1 h2]
  exact hs

/-- RFC 8032, 7.1, test 1: the keys, the message and the signature. -/
def secret1 : List UInt8 :=
  [0x9d, 0x61, 0xb1, 0x9d, 0xef, 0xfd, 0x5a, 0x60, 0xba, 0x84, 0x4a, 0xf4, 0x92, 0xec, 0x2c, 0xc4,
   0x44, 0x49, 0xc5, 0x69, 0x7b, 0x32, 0x69, 0x19, 0x70, 0x3b, 0xac, 0x03, 0x1c, 0xae, 0x7f, 0x60]
def public1 : List UInt8 :=
  [0xd7, 0x5a, 0x98, 0x01, 0x82, 0xb1, 0x0a, 0xb7, 0xd5, 0x4b, 0xfe, 0xd3, 0xc9, 0x64, 0x07, 0x3a,
   0x0e, 0xe1, 0x72, 0xf3, 0xda, 0xa6, 0x23, 0x25, 0xaf, 0x02, 0x1a, 0x68, 0xf7, 0x07, 0x51, 0x1a]
def message1 : List UInt8 := []
def signature1 : List UInt8 :=
  [0xe5, 0x56, 0x43, 0x00, 0xc3, 0x60, 0xac, 0x72, 0x90, 0x86, 0xe2, 0xcc, 0x80, 0x6e, 0x82, 0x8a,
   0x84, 0x87, 0x7f, 0x1e, 0xb8, 0xe5, 0xd9, 0x74, 0xd8, 0x73, 0xe0, 0x65, 0x22, 0x49, 0x01, 0x55,
   0x5f, 0xb8, 0x82, 0x15, 0x90, 0xa3, 0x3b, 0xac, 0xc6, 0x1e, 0x39, 0x70, 0x1c, 0xf9, 0xb4, 0x6b,
   0xd2, 0x5b, 0xf5, 0xf0, 0x59, 0x5b, 0xbe, 0x24, 0x65, 0x51, 0x41, 0x43, 0x8e, 0x7a, 0x10, 0x0b]

example : publicOf secret1 = public1 ∧ Ed25519.rfc8032.sign (secret1 ++ public1) message1 = signature1 := by
  refine ⟨?_, ?_⟩
  · unfold publicOf
    rw [show scalar secret1 = 36144925721603087658594284515452164870581325872720374094707712194495455132720 by decide +kernel, encode_mul_base _
      38815646466658113194383306759739515082307681141926459231621296960732224964046
      11903303657706407974989296177215005343713679411332034699907763981919547054807
      (by norm_num) (by norm_num) (by norm_num) (by decide +kernel) (by decide +kernel)]
    decide +kernel
  · refine sign_value _ _
      2015312323900227545039973048451112962192803170366412514267238242679089760755 ?_
      44370630452101398467924320556439323233869374150616132215183787387252341590058
      38448863731492799660668882834560725606410712239157980760146247592118262650597
      (by norm_num) (by norm_num) (by norm_num) (by decide +kernel) (by decide +kernel) _ ?_
    · decide +kernel
    · decide +kernel

/-- RFC 8032, 7.1, test 2: the keys, the message and the signature. -/
def secret2 : List UInt8 :=
  [0x4c, 0xcd, 0x08, 0x9b, 0x28, 0xff, 0x96, 0xda, 0x9d, 0xb6, 0xc3, 0x46, 0xec, 0x11, 0x4e, 0x0f,
   0x5b, 0x8a, 0x31, 0x9f, 0x35, 0xab, 0xa6, 0x24, 0xda, 0x8c, 0xf6, 0xed, 0x4f, 0xb8, 0xa6, 0xfb]
def public2 : List UInt8 :=
  [0x3d, 0x40, 0x17, 0xc3, 0xe8, 0x43, 0x89, 0x5a, 0x92, 0xb7, 0x0a, 0xa7, 0x4d, 0x1b, 0x7e, 0xbc,
   0x9c, 0x98, 0x2c, 0xcf, 0x2e, 0xc4, 0x96, 0x8c, 0xc0, 0xcd, 0x55, 0xf1, 0x2a, 0xf4, 0x66, 0x0c]
def message2 : List UInt8 := [0x72]
def signature2 : List UInt8 :=
  [0x92, 0xa0, 0x09, 0xa9, 0xf0, 0xd4, 0xca, 0xb8, 0x72, 0x0e, 0x82, 0x0b, 0x5f, 0x64, 0x25, 0x40,
   0xa2, 0xb2, 0x7b, 0x54, 0x16, 0x50, 0x3f, 0x8f, 0xb3, 0x76, 0x22, 0x23, 0xeb, 0xdb, 0x69, 0xda,
   0x08, 0x5a, 0xc1, 0xe4, 0x3e, 0x15, 0x99, 0x6e, 0x45, 0x8f, 0x36, 0x13, 0xd0, 0xf1, 0x1d, 0x8c,
   0x38, 0x7b, 0x2e, 0xae, 0xb4, 0x30, 0x2a, 0xee, 0xb0, 0x0d, 0x29, 0x16, 0x12, 0xbb, 0x0c, 0x00]

theorem vector2 : publicOf secret2 = public2 ∧ Ed25519.rfc8032.sign (secret2 ++ public2) message2 = signature2 := by
  refine ⟨?_, ?_⟩
  · unfold publicOf
    rw [show scalar secret2 = 36719169098639693649133653787996834628439804378423932336643700061163197742440 by decide +kernel, encode_mul_base _
      52774231920053734232574595727734981596546427020284349182563870143297718469550
      5609657767448528674903586191599477543993232845525898641911799861560072421437
      (by norm_num) (by norm_num) (by norm_num) (by decide +kernel) (by decide +kernel)]
    decide +kernel
  · refine sign_value _ _
      3708935390207795704151005957304313360809555365997121277205774546442005757839 ?_
      9723755734215906320098229349078520107637843343703680356978966424352572363457
      40895193136033226965014799556713247533209654337761990128738905002094921097362
      (by norm_num) (by norm_num) (by norm_num) (by decide +kernel) (by decide +kernel) _ ?_
    · decide +kernel
    · decide +kernel

/-- RFC 8032, 7.1, test 3: the keys, the message and the signature. -/
def secret3 : List UInt8 :=
  [0xc5, 0xaa, 0x8d, 0xf4, 0x3f, 0x9f, 0x83, 0x7b, 0xed, 0xb7, 0x44, 0x2f, 0x31, 0xdc, 0xb7, 0xb1,
   0x66, 0xd3, 0x85, 0x35, 0x07, 0x6f, 0x09, 0x4b, 0x85, 0xce, 0x3a, 0x2e, 0x0b, 0x44, 0x58, 0xf7]
def public3 : List UInt8 :=
  [0xfc, 0x51, 0xcd, 0x8e, 0x62, 0x18, 0xa1, 0xa3, 0x8d, 0xa4, 0x7e, 0xd0, 0x02, 0x30, 0xf0, 0x58,
   0x08, 0x16, 0xed, 0x13, 0xba, 0x33, 0x03, 0xac, 0x5d, 0xeb, 0x91, 0x15, 0x48, 0x90, 0x80, 0x25]
def message3 : List UInt8 := [0xaf, 0x82]
def signature3 : List UInt8 :=
  [0x62, 0x91, 0xd6, 0x57, 0xde, 0xec, 0x24, 0x02, 0x48, 0x27, 0xe6, 0x9c, 0x3a, 0xbe, 0x01, 0xa3,
   0x0c, 0xe5, 0x48, 0xa2, 0x84, 0x74, 0x3a, 0x44, 0x5e, 0x36, 0x80, 0xd7, 0xdb, 0x5a, 0xc3, 0xac,
   0x18, 0xff, 0x9b, 0x53, 0x8d, 0x16, 0xf2, 0x90, 0xae, 0x67, 0xf7, 0x60, 0x98, 0x4d, 0xc6, 0x59,
   0x4a, 0x7c, 0x15, 0xe9, 0x71, 0x6e, 0xd2, 0x8d, 0xc0, 0x27, 0xbe, 0xce, 0xea, 0x1e, 0xc4, 0x0a]

example : publicOf secret3 = public3 ∧ Ed25519.rfc8032.sign (secret3 ++ public3) message3 = signature3 := by
  refine ⟨?_, ?_⟩
  · unfold publicOf
    rw [show scalar secret3 = 41911590414521875233341115108072091496810396974354451206977851026743843592848 by decide +kernel, encode_mul_base _
      43933056957747458452560886832567536073542840507013052263144963060608791330050
      16962727616734173323702303146057009569815335830970791807500022961899349823996
      (by norm_num) (by norm_num) (by norm_num) (by decide +kernel) (by decide +kernel)]
    decide +kernel
  · refine sign_value _ _
      2414783804716301687617116505845113775572368206672786787676441278874593005183 ?_
      26073464383897998325899031212762184271676052677226679463708862316754828477519
      20246927599389923510374971105736264637524117420538179767629249587300902801762
      (by norm_num) (by norm_num) (by norm_num) (by decide +kernel) (by decide +kernel) _ ?_
    · decide +kernel
    · decide +kernel

/-- C81: the hypotheses can be met, and an altered second half is refused. -/
example : Ed25519.rfc8032.verify public2 message2 signature2 = true ∧
    ∀ s, s.length = 32 → s ≠ signature2.drop 32 → Ed25519.rfc8032.verify public2 message2 (signature2.take 32 ++ s) = false := by
  have hv : Ed25519.rfc8032.verify public2 message2 signature2 = true := by
    rw [← vector2.1, ← vector2.2, ← vector2.1]
    exact (keyPair_of_secret secret2 rfl).verifies _
  refine ⟨hv, fun s hs hne => ?_⟩
  by_contra h
  rw [Bool.not_eq_false] at h
  apply hne
  refine signature_tail_unique public2 message2 (signature2.take 32) s (signature2.drop 32) rfl hs rfl h ?_
  rw [List.take_append_drop]
  exact hv

/-- Exact moments of an image equalised to one grey, with the signatures of Ed25519. -/
noncomputable def Deps.flatRfc : Deps ℝ where
  ldpc := Ldpc.toy
  ed := Ed25519.rfc8032
  equalize c := c.raw.map fun _ => 128
  momentAbs order index image := match zernikeMoment order index image with
    | .ok m => ‖m‖
    | .error _ => 0
  equalize_length c := by simp

theorem Deps.flatRfc_exact : Deps.flatRfc.Exact := by
  intro order index image m h
  unfold Deps.flatRfc
  dsimp only
  rw [h]

theorem flatRfc_pixels (c c' : GrayImage) (n : Nat) (h : c.IsSquare n) (h' : c'.IsSquare n) :
    equalizedPixels Deps.flatRfc c = equalizedPixels Deps.flatRfc c' := by
  have e : Deps.flatRfc.equalize c = Deps.flatRfc.equalize c' := map_const_eq _ _ (by rw [h.2.2, h'.2.2])
  unfold equalizedPixels
  rw [e, h.1, h.2.1, h'.1, h'.2.1]

/-- C80: the test channel, marked in exact arithmetic with the real signatures and the built-in keys, authenticates. -/
theorem rfc8032_marks : ∃ out, watermarkChannel Deps.flatRfc testChannel 100 1 11 3 = .ok out ∧
    authenticateChannel Deps.flatRfc out 100 1 11 3 = .ok true := by
  obtain ⟨out, h1, h2, h3⟩ := marked_channel_authenticates_pixels Deps.flatRfc Deps.flatRfc_exact Ldpc.toy_decodesClean
    builtin_keyPair testChannel 512 3 11 100 1 0 testChannel_square testChannel_geometry
    (by norm_num) (by norm_num) (by
      intro i hi j hj
      obtain ⟨a, b⟩ := testChannel_range i hi j hj
      have a' : (100 : ℝ) ≤ ((testChannel.pixels.get i j).toNat : ℝ) := by exact_mod_cast a
      have b' : ((testChannel.pixels.get i j).toNat : ℝ) ≤ 131 := by exact_mod_cast b
      constructor <;> linarith) (by decide) (by decide) (by decide) (by decide) (by decide) (by norm_num)
  refine ⟨out, h1, h3 out h2 ⟨⟨h2.1, h2.2.1⟩, fun i _ j _ => by rw [sub_self, abs_zero]⟩ ?_⟩
  rw [flatRfc_pixels testChannel out 512 testChannel_square h2]
  unfold meanDifference
  simp only [sub_self, abs_zero, Finset.sum_const_zero, zero_div]
  positivity

end Sia
