import Verif.Model.Basic

/-! Model of `lib/sia/rust/encoding/src/lib.rs`. The LDPC library (`labrador_ldpc`) is a parameter. -/
namespace Sia

/-- The codes used, with `n()`, `k()` and `output_len()` of `labrador_ldpc` 1.0.1 (output is `(n + punctured)/8`).
encoding/src/lib.rs:18-38. -/
inductive LdpcCode where
  | TC128 | TC256 | TC512 | TM2048 | TM8192
  deriving DecidableEq, Repr

namespace LdpcCode
/-- `LDPCCode::n`, bits of a code word (labrador_ldpc), encoding/src/lib.rs:116. -/
def n : LdpcCode → Nat
  | TC128 => 128 | TC256 => 256 | TC512 => 512 | TM2048 => 2048 | TM8192 => 8192
/-- `LDPCCode::k`, bits of a data word (labrador_ldpc), encoding/src/lib.rs:72. -/
def k : LdpcCode → Nat
  | TC128 => 64 | TC256 => 128 | TC512 => 256 | TM2048 => 1024 | TM8192 => 4096
/-- `LDPCCode::output_len`, bytes of the decoder's buffer (labrador_ldpc), encoding/src/lib.rs:104-144. -/
def outputLen : LdpcCode → Nat
  | TC128 => 16 | TC256 => 32 | TC512 => 64 | TM2048 => 320 | TM8192 => 1280
end LdpcCode

/-- The LDPC library: `copy_encode` fills a buffer of `n/8` bytes from `k/8` data bytes; `decode_bf` (20 iterations)
fills a buffer of `output_len` bytes from a received word of `n/8` bytes. Only the buffer sizes are built in.
encoding/src/lib.rs:72-90, 116-128. -/
structure Ldpc where
  encode : LdpcCode → List UInt8 → List UInt8
  decode : LdpcCode → List UInt8 → List UInt8
  encode_length : ∀ c w, (encode c w).length = c.n / 8
  decode_length : ∀ c w, (decode c w).length = c.outputLen

/-- `bytes_to_u16`, encoding/src/lib.rs:8-10. -/
def bytesToU16 (b1 b2 : UInt8) : Nat := b1.toNat * 256 + b2.toNat

/-- `u16_to_bytes`, encoding/src/lib.rs:12-16, of the `u16` with the given value. -/
def u16ToBytes (n : Nat) : UInt8 × UInt8 := (UInt8.ofNat (n / 256 % 256), UInt8.ofNat (n % 256))

/-- `get_code_by_codeword_length`, encoding/src/lib.rs:18-27. The product is taken to be below 2^64 (a domain of 2^64 bits does not fit
in memory). -/
def getCodeByCodewordLength (codewordLength : Nat) : Option LdpcCode :=
  let bits := codewordLength * 8
  if bits = 128 then some .TC128
  else if bits = 256 then some .TC256
  else if bits = 512 ∨ bits = 1024 then some .TC512
  else if bits = 2048 ∨ bits = 4096 then some .TM2048
  else if 8192 ≤ bits then some .TM8192
  else none

/-- `get_code_for_encode`, encoding/src/lib.rs:29-38. -/
def getCodeForEncode (length : Nat) : Option LdpcCode :=
  if 9 ≤ length ∧ length ≤ 64 then some .TC128
  else if 65 ≤ length ∧ length ≤ 128 then some .TC256
  else if 129 ≤ length ∧ length ≤ 256 then some .TC512
  else if 257 ≤ length ∧ length ≤ 1024 then some .TM2048
  else if 1025 ≤ length then some .TM8192
  else none

/-- `get_code_for_decode`, encoding/src/lib.rs:40-49 (private, not called). -/
def getCodeForDecode (length : Nat) : Option LdpcCode :=
  if 128 ≤ length ∧ length ≤ 255 then some .TC128
  else if 256 ≤ length ∧ length ≤ 511 then some .TC256
  else if 512 ≤ length ∧ length ≤ 2047 then some .TC512
  else if 2048 ≤ length ∧ length ≤ 8191 then some .TM2048
  else if 8192 ≤ length then some .TM8192
  else none

/-- `pad_bits` followed by `into_vec`, encoding/src/lib.rs:77-79 and 98-102: the word resized to `k` bits with zeros. -/
def padWord (word : List UInt8) (k : Nat) : List UInt8 :=
  let bits := bytesBits word
  packBits (bits.take k ++ List.replicate (k - bits.length) false)

/-- `encode`, encoding/src/lib.rs:51-96. `input.len() as u16` wraps modulo 65536. -/
def encode (L : Ldpc) (input : List UInt8) (codewordLength : Nat) : List UInt8 :=
  let (b1, b2) := u16ToBytes (input.length % 65536)
  let bytes := [b1, b2] ++ input
  match getCodeByCodewordLength codewordLength with
  | none => bytes
  | some code => (chunks (code.k / 8) bytes).flatMap fun word => L.encode code (padWord word code.k)

/-- `decode`, encoding/src/lib.rs:104-144. `decode_bf` asserts that the received word has `n/8` bytes. -/
def decode (L : Ldpc) (bytes : List UInt8) (codewordLength : Nat) : Res (List UInt8) :=
  match getCodeByCodewordLength codewordLength with
  | none => .ok bytes
  | some code => do
    let words ← (chunks (code.n / 8) bytes).mapM fun w =>
      if w.length = code.n / 8 then slice (L.decode code w) 0 (code.k / 8) else .error .ldpcBlockLength
    let decoded := words.flatten
    match decoded[0]?, decoded[1]? with
    | some b1, some b2 =>
      let bytesLength := bytesToU16 b1 b2
      slice decoded 2 (bytesLength + 2)
    | _, _ => .error .indexOutOfRange

end Sia
