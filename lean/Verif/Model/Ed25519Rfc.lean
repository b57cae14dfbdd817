import Verif.Model.Bytes
import Verif.Model.Signature
import Verif.Lemmas.EdwardsPrime
import Verif.Lemmas.BytesLemmas
import Mathlib.Algebra.Field.ZMod

/-! The signature scheme behind `lib/sia/rust/signature/src/{lib.rs:14-39, ecdsa.rs:9-33, keypair.rs:7-13}` (the crates `ed25519-dalek` 1.0.1 and `ed25519` 1.5.2, whose
source is not in /repo): SHA-512 as in FIPS 180-4 and Ed25519 as in RFC 8032, section 5.1, with the checks of these crates. All other
modules take the scheme as a parameter; this one says which value of the parameter the program runs with. -/
namespace Sia

/-! ### SHA-512 (FIPS 180-4, sections 4.1.3, 4.2.3, 5.1.2, 5.3.5, 6.4) -/
namespace Sha512

/-- Rotation of a 64-bit word to the right. FIPS 180-4, 3.2; called from signature/src/ecdsa.rs:15, 31. -/
def rotr (n x : Nat) : Nat := (x >>> n) ||| ((x <<< (64 - n)) % 2 ^ 64)

/-- FIPS 180-4, 4.1.3; called from signature/src/ecdsa.rs:15, 31. -/
def ch (x y z : Nat) : Nat := (x &&& y) ^^^ ((2 ^ 64 - 1 - x) &&& z)
/-- FIPS 180-4, 4.1.3; called from signature/src/ecdsa.rs:15, 31. -/
def maj (x y z : Nat) : Nat := (x &&& y) ^^^ (x &&& z) ^^^ (y &&& z)
/-- FIPS 180-4, 4.1.3; called from signature/src/ecdsa.rs:15, 31. -/
def bigSigma0 (x : Nat) : Nat := rotr 28 x ^^^ rotr 34 x ^^^ rotr 39 x
/-- FIPS 180-4, 4.1.3; called from signature/src/ecdsa.rs:15, 31. -/
def bigSigma1 (x : Nat) : Nat := rotr 14 x ^^^ rotr 18 x ^^^ rotr 41 x
/-- FIPS 180-4, 4.1.3; called from signature/src/ecdsa.rs:15, 31. -/
def smallSigma0 (x : Nat) : Nat := rotr 1 x ^^^ rotr 8 x ^^^ (x >>> 7)
/-- FIPS 180-4, 4.1.3; called from signature/src/ecdsa.rs:15, 31. -/
def smallSigma1 (x : Nat) : Nat := rotr 19 x ^^^ rotr 61 x ^^^ (x >>> 6)

/-- The round constants, FIPS 180-4, 4.2.3; used through signature/src/ecdsa.rs:15, 31. -/
def roundConstants : List Nat :=
  [0x428a2f98d728ae22, 0x7137449123ef65cd, 0xb5c0fbcfec4d3b2f, 0xe9b5dba58189dbbc, 0x3956c25bf348b538,
   0x59f111f1b605d019, 0x923f82a4af194f9b, 0xab1c5ed5da6d8118, 0xd807aa98a3030242, 0x12835b0145706fbe,
   0x243185be4ee4b28c, 0x550c7dc3d5ffb4e2, 0x72be5d74f27b896f, 0x80deb1fe3b1696b1, 0x9bdc06a725c71235,
   0xc19bf174cf692694, 0xe49b69c19ef14ad2, 0xefbe4786384f25e3, 0x0fc19dc68b8cd5b5, 0x240ca1cc77ac9c65,
   0x2de92c6f592b0275, 0x4a7484aa6ea6e483, 0x5cb0a9dcbd41fbd4, 0x76f988da831153b5, 0x983e5152ee66dfab,
   0xa831c66d2db43210, 0xb00327c898fb213f, 0xbf597fc7beef0ee4, 0xc6e00bf33da88fc2, 0xd5a79147930aa725,
   0x06ca6351e003826f, 0x142929670a0e6e70, 0x27b70a8546d22ffc, 0x2e1b21385c26c926, 0x4d2c6dfc5ac42aed,
   0x53380d139d95b3df, 0x650a73548baf63de, 0x766a0abb3c77b2a8, 0x81c2c92e47edaee6, 0x92722c851482353b,
   0xa2bfe8a14cf10364, 0xa81a664bbc423001, 0xc24b8b70d0f89791, 0xc76c51a30654be30, 0xd192e819d6ef5218,
   0xd69906245565a910, 0xf40e35855771202a, 0x106aa07032bbd1b8, 0x19a4c116b8d2d0c8, 0x1e376c085141ab53,
   0x2748774cdf8eeb99, 0x34b0bcb5e19b48a8, 0x391c0cb3c5c95a63, 0x4ed8aa4ae3418acb, 0x5b9cca4f7763e373,
   0x682e6ff3d6b2b8a3, 0x748f82ee5defb2fc, 0x78a5636f43172f60, 0x84c87814a1f0ab72, 0x8cc702081a6439ec,
   0x90befffa23631e28, 0xa4506cebde82bde9, 0xbef9a3f7b2c67915, 0xc67178f2e372532b, 0xca273eceea26619c,
   0xd186b8c721c0c207, 0xeada7dd6cde0eb1e, 0xf57d4f7fee6ed178, 0x06f067aa72176fba, 0x0a637dc5a2c898a6,
   0x113f9804bef90dae, 0x1b710b35131c471b, 0x28db77f523047d84, 0x32caab7b40c72493, 0x3c9ebe0a15c9bebc,
   0x431d67c49c100d4c, 0x4cc5d4becb3e42b6, 0x597f299cfc657e2a, 0x5fcb6fab3ad6faec, 0x6c44198c4a475817]

/-- The initial hash value, FIPS 180-4, 5.3.5; used through signature/src/ecdsa.rs:15, 31. -/
def initial : List Nat :=
  [0x6a09e667f3bcc908, 0xbb67ae8584caa73b, 0x3c6ef372fe94f82b, 0xa54ff53a5f1d36f1, 0x510e527fade682d1,
   0x9b05688c2b3e6c1f, 0x1f83d9abfb41bd6b, 0x5be0cd19137e2179]

/-- The bytes of a number, most significant first. FIPS 180-4, 3.1; used through signature/src/ecdsa.rs:15, 31. -/
def beBytes (k n : Nat) : List UInt8 := (leBytes k n).reverse

/-- The number with these bytes, most significant first. FIPS 180-4, 3.1; used through signature/src/ecdsa.rs:15, 31. -/
def beNat (bs : List UInt8) : Nat := leNat bs.reverse

/-- Padding, FIPS 180-4, 5.1.2; called from signature/src/ecdsa.rs:15, 31. -/
def pad (m : List UInt8) : List UInt8 :=
  m ++ 0x80 :: (List.replicate ((239 - m.length % 128) % 128) 0 ++ beBytes 16 (8 * m.length))

/-- The message schedule, newest word first, FIPS 180-4, 6.4.2 step 1; called from signature/src/ecdsa.rs:15, 31. -/
def schedule : Nat → List Nat → List Nat
  | 0, w => w
  | t + 1, w => schedule t
      ((smallSigma1 (w.getD 1 0) + w.getD 6 0 + smallSigma0 (w.getD 14 0) + w.getD 15 0) % 2 ^ 64 :: w)

/-- The 80 rounds, FIPS 180-4, 6.4.2 step 3; called from signature/src/ecdsa.rs:15, 31. -/
def rounds : List (Nat × Nat) → Nat → Nat → Nat → Nat → Nat → Nat → Nat → Nat → List Nat
  | [], a, b, c, d, e, f, g, h => [a, b, c, d, e, f, g, h]
  | (k, w) :: rest, a, b, c, d, e, f, g, h =>
    rounds rest
      ((h + bigSigma1 e + ch e f g + k + w + bigSigma0 a + maj a b c) % 2 ^ 64) a b c
      ((d + (h + bigSigma1 e + ch e f g + k + w)) % 2 ^ 64) e f g

/-- `n` groups of `k` bytes. FIPS 180-4, 5.2.2; called from signature/src/ecdsa.rs:15, 31. -/
def groups (k : Nat) : Nat → List UInt8 → List (List UInt8)
  | 0, _ => []
  | n + 1, l => l.take k :: groups k n (l.drop k)

/-- One block, FIPS 180-4, 6.4.2; called from signature/src/ecdsa.rs:15, 31. -/
def compress (s : List Nat) (block : List UInt8) : List Nat :=
  let w := (schedule 64 ((groups 8 16 block).map beNat).reverse).reverse
  let out := rounds (roundConstants.zip w) (s.getD 0 0) (s.getD 1 0) (s.getD 2 0) (s.getD 3 0) (s.getD 4 0) (s.getD 5 0)
    (s.getD 6 0) (s.getD 7 0)
  (s.zip out).map fun x => (x.1 + x.2) % 2 ^ 64

/-- The hash of a message, FIPS 180-4, 6.4; called from signature/src/ecdsa.rs:15, 31. -/
def hash (m : List UInt8) : List UInt8 := ((groups 128 ((pad m).length / 128) (pad m)).foldl compress initial).flatMap (beBytes 8)

end Sha512

/-! ### Ed25519 (RFC 8032, section 5.1) -/
namespace Rfc8032

/-- The size of the field, RFC 8032, 5.1; used through signature/src/lib.rs:14-39. -/
@[irreducible] def p : Nat := 2 ^ 255 - 19

theorem p_eq : p = 2 ^ 255 - 19 := by unfold p; rfl

instance : Fact (Nat.Prime p) := ⟨by rw [p_eq]; exact Edwards.prime_p⟩

/-- The field, RFC 8032, 5.1; used through signature/src/lib.rs:14-39. -/
abbrev Fp := ZMod p

/-- The order of the base point, RFC 8032, 5.1; used through signature/src/lib.rs:14-39. -/
@[irreducible] def order : Nat := 2 ^ 252 + 27742317777372353535851937790883648493

/-- The constant of the curve, RFC 8032, 5.1; used through signature/src/lib.rs:14-39. -/
noncomputable def d : Fp := -121665 / 121666

/-- The curve, RFC 8032, 5.1; used through signature/src/lib.rs:14-39. -/
def OnCurve (P : Fp × Fp) : Prop := -P.1 ^ 2 + P.2 ^ 2 = 1 + d * P.1 ^ 2 * P.2 ^ 2

/-- The base point, RFC 8032, 5.1; used through signature/src/lib.rs:14-39. -/
@[irreducible] def base : Fp × Fp :=
  (15112221349535400772501151409588531511454012693041857206046113283949847762202,
   46316835694926478169428394003475163141307993866256225615783033603165251855960)

/-- Addition of points, RFC 8032, 5.1.4; used through signature/src/lib.rs:14-39. -/
noncomputable def add (P Q : Fp × Fp) : Fp × Fp :=
  ((P.1 * Q.2 + P.2 * Q.1) / (1 + d * P.1 * Q.1 * P.2 * Q.2),
   (P.2 * Q.2 + P.1 * Q.1) / (1 - d * P.1 * Q.1 * P.2 * Q.2))

/-- The opposite point; used through signature/src/lib.rs:29-39. -/
def neg (P : Fp × Fp) : Fp × Fp := (-P.1, P.2)

/-- A multiple of a point, by repeated addition, RFC 8032, 5.1.5–5.1.7 (how the library speeds this up is not modelled); used
through signature/src/lib.rs:14-39. -/
noncomputable def mul : Nat → Fp × Fp → Fp × Fp
  | 0, _ => (0, 1)
  | n + 1, P => add (mul n P) P

/-- The encoding of a point, RFC 8032, 5.1.2: `y` on 255 bits, then the lowest bit of `x`; used through
signature/src/lib.rs:14-39. -/
def encodePoint (P : Fp × Fp) : List UInt8 := leBytes 32 (P.2.val + 2 ^ 255 * (P.1.val % 2))

open Classical in
/-- The point with this encoding, RFC 8032, 5.1.3, as in the library `curve25519-dalek`: a `y` that is too large is reduced and
`x = 0` is accepted with either sign. The square root is left to the choice of a solution of the equation of the curve; used
through signature/src/lib.rs:14-39. -/
@[irreducible] noncomputable def decodePoint (bs : List UInt8) : Option (Fp × Fp) :=
  let y : Fp := (leNat bs % 2 ^ 255 : Nat)
  if h : ∃ x : Fp, OnCurve (x, y) ∧ (x = 0 ∨ x.val % 2 = leNat bs / 2 ^ 255) then some (Classical.choose h, y) else none

/-- The secret scalar, RFC 8032, 5.1.5, step 2: the three lowest bits are cleared, bit 254 is set and bit 255 is cleared; used
through signature/src/lib.rs:22. -/
def clamp (n : Nat) : Nat := n % 2 ^ 254 - n % 8 + 2 ^ 254

/-- The secret scalar of a secret key, RFC 8032, 5.1.5; used through signature/src/lib.rs:22, keypair.rs:8. -/
def scalar (secret : List UInt8) : Nat := clamp (leNat ((Sha512.hash secret).take 32))

/-- The public key of a secret key, RFC 8032, 5.1.5; used through signature/src/keypair.rs:8. -/
noncomputable def publicOf (secret : List UInt8) : List UInt8 := encodePoint (mul (scalar secret) base)

/-- The hash of some bytes as a number below the order of the base point, RFC 8032, 5.1.6, steps 2 and 4; used through
signature/src/lib.rs:14-39. -/
def hashScalar (bs : List UInt8) : Nat := leNat (Sha512.hash bs) % order

/-- Signing with a key pair of 32 secret and 32 public bytes, RFC 8032, 5.1.6; signature/src/ecdsa.rs:14-16. -/
noncomputable def sign (keypair message : List UInt8) : List UInt8 :=
  let secret := keypair.take 32
  let public_ := keypair.drop 32
  let r := hashScalar ((Sha512.hash secret).drop 32 ++ message)
  let R := encodePoint (mul r base)
  let k := hashScalar (R ++ public_ ++ message)
  R ++ leBytes 32 ((r + k * scalar secret) % order)

/-- The check of a signature with the parts `R` and `s` under the public point `A`, where `k` is the hash of the key and the message:
RFC 8032, 5.1.7, steps 1 and 3, as in the library (without the cofactor; `R` is compared as bytes); signature/src/ecdsa.rs:27-33. -/
noncomputable def accepts (A : Fp × Fp) (k s : Nat) (R : List UInt8) : Bool :=
  decide (s < order) && (encodePoint (add (mul s base) (mul k (neg A))) == R)

/-- Verifying, RFC 8032, 5.1.7; signature/src/ecdsa.rs:27-33. -/
noncomputable def verify (public_ message signature : List UInt8) : Bool :=
  (decodePoint public_).any fun A =>
    accepts A (hashScalar (signature.take 32 ++ public_ ++ message)) (leNat (signature.drop 32)) (signature.take 32)

end Rfc8032

/-- The signature library of the program: Ed25519 with the checks of the crates. A key pair is 64 bytes whose second half encodes a
point (that the halves belong together is not checked); the three highest bits of a signature must be clear.
signature/src/lib.rs:14-39, ecdsa.rs:9-33. -/
noncomputable def Ed25519.rfc8032 : Ed25519 where
  keypairOk k := decide (k.length = 64) && (Rfc8032.decodePoint (k.drop 32)).isSome
  publicOk k := decide (k.length = 32) && (Rfc8032.decodePoint k).isSome
  signatureOk s := decide (s.length = 64) && s.getD 63 0 &&& 224 == 0
  sign := Rfc8032.sign
  verify := Rfc8032.verify
  keypair_length k h := by simp only [Bool.and_eq_true, decide_eq_true_eq] at h; exact h.1
  public_length k h := by simp only [Bool.and_eq_true, decide_eq_true_eq] at h; exact h.1
  signature_length k h := by simp only [Bool.and_eq_true, decide_eq_true_eq] at h; exact h.1
  sign_length k m := by simp [Rfc8032.sign, Rfc8032.encodePoint]

end Sia
