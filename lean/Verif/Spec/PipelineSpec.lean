import Verif.Model.DynamicImage
import Verif.Spec.EmbedSpec

/-! Specification vocabulary for watermarking and authentication of channels (C36–C41, C50–C52). -/
namespace Sia

/-- A square channel of side `n` with exactly one byte per pixel. -/
def GrayImage.IsSquare (c : GrayImage) (n : Nat) : Prop := c.width = n ∧ c.height = n ∧ c.raw.length = n * n

/-- The pixel matrix of a channel (the raw bytes cut into `width` rows of `height` bytes; for a square channel these are the
rows of the picture). -/
def GrayImage.pixels (c : GrayImage) : Mat UInt8 := ⟨c.width, c.height, fun i j => c.raw.getD (i * c.height + j) 0⟩

/-- The public key built into the program. -/
def builtinPublic : List UInt8 :=
  [0xa7, 0xfd, 0x23, 0x50, 0x02, 0xf6, 0x0f, 0xad, 0x1a, 0x70, 0x77, 0xd7, 0x4c, 0xfd, 0x62, 0xdd,
   0x89, 0x22, 0x96, 0x3e, 0xbc, 0x71, 0x3c, 0x38, 0x5a, 0xd3, 0x75, 0x96, 0xfb, 0xa5, 0xa7, 0xd6]

/-- The secret key built into the program. -/
def builtinSecret : List UInt8 :=
  [0xe1, 0xec, 0x99, 0x15, 0x18, 0xbe, 0xad, 0x7d, 0x94, 0xb6, 0x0b, 0xf6, 0x44, 0x69, 0xb9, 0x8d,
   0x86, 0x63, 0x15, 0xb3, 0x67, 0x6d, 0x4f, 0xa5, 0xb4, 0xe7, 0xc3, 0x6d, 0xc4, 0x95, 0x1d, 0x60]

/-- Contract of the signature library for a key pair: it parses, and what is signed with it verifies. -/
structure Ed25519.KeyPair (E : Ed25519) (secret public_ : List UInt8) : Prop where
  keypair : E.keypairOk (secret ++ public_) = true
  public_ok : E.publicOk public_ = true
  parses : ∀ m, E.signatureOk (E.sign (secret ++ public_) m) = true
  verifies : ∀ m, E.verify public_ m (E.sign (secret ++ public_) m) = true

/-- Size of the watermark record for `a` features: 3 length bytes, 3 bits per feature, a 64-byte signature and the 12 bytes
of the text. -/
def recordBytes (a : Nat) : Nat := 3 + (3 * a + 7) / 8 + 64 + 12

/-- In exact arithmetic the moment library returns the moduli of the Zernike moments computed by the code. -/
def Deps.Exact (D : Deps ℝ) : Prop :=
  ∀ order index image m, zernikeMoment order index image = .ok m → D.momentAbs order index image = ‖m‖

end Sia
