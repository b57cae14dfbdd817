import Verif.Model.Basic
import Verif.Model.Hex

/-! Model of `lib/sia/rust/signature/src/{lib,ecdsa,keypair}.rs`. The Ed25519 library (`ed25519`, `ed25519_dalek`) is a
parameter; strings are their UTF-8 bytes. -/
namespace Sia

/-- The Ed25519 library: which byte strings parse as a key pair (`Keypair::from_bytes`), a public key
(`PublicKey::from_bytes`) and a signature (`Signature::from_bytes`), and signing and verifying. Only the sizes of the
Rust types are built in: 64-byte key pairs, 32-byte public keys, 64-byte signatures. signature/src/lib.rs:14-39, ecdsa.rs. -/
structure Ed25519 where
  keypairOk : List UInt8 → Bool
  publicOk : List UInt8 → Bool
  signatureOk : List UInt8 → Bool
  sign : List UInt8 → List UInt8 → List UInt8
  verify : List UInt8 → List UInt8 → List UInt8 → Bool
  keypair_length : ∀ k, keypairOk k = true → k.length = 64
  public_length : ∀ k, publicOk k = true → k.length = 32
  signature_length : ∀ s, signatureOk s = true → s.length = 64
  sign_length : ∀ k m, (sign k m).length = 64

/-- `decode_hex(..).unwrap()`, signature/src/lib.rs:15-16 and 30. -/
def decodeHexUnwrap (s : List UInt8) : Res (List UInt8) := do
  match ← decodeHex s with
  | none => .error .keyError
  | some bytes => .ok bytes

/-- `sign`, signature/src/lib.rs:14-27. -/
def sign (E : Ed25519) (data privateKey publicKey : List UInt8) : Res (List UInt8) := do
  let privateKeyBytes ← decodeHexUnwrap privateKey
  let publicKeyBytes ← decodeHexUnwrap publicKey
  let keyPairBytes := privateKeyBytes ++ publicKeyBytes
  if E.keypairOk keyPairBytes then return E.sign keyPairBytes data else throw .keyError

/-- `verify`, signature/src/lib.rs:29-39. -/
def verify (E : Ed25519) (data signature publicKey : List UInt8) : Res Bool := do
  let publicKeyBytes ← decodeHexUnwrap publicKey
  if E.publicOk publicKeyBytes then
    if E.signatureOk signature then return E.verify publicKeyBytes data signature else throw .keyError
  else throw .keyError

/-- `generate`, signature/src/keypair.rs:7-13, from the random key pair (32 secret and 32 public bytes) that the library
drew. -/
def generate (secret public_ : List UInt8) : List UInt8 × List UInt8 := (encodeHex secret, encodeHex public_)

end Sia
