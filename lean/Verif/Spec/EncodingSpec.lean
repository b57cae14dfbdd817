import Verif.Model.Encoding

/-! Specification vocabulary for the channel coder (C11–C14). -/
namespace Sia

/-- Capacities (bytes) for which a code exists. -/
def SupportedCapacity (cap : Nat) : Prop :=
  cap = 16 ∨ cap = 32 ∨ cap = 64 ∨ cap = 128 ∨ cap = 256 ∨ cap = 512 ∨ 1024 ≤ cap

instance (cap : Nat) : Decidable (SupportedCapacity cap) := by unfold SupportedCapacity; infer_instance

/-- Data bytes per block for a supported capacity. -/
def dataBytes (cap : Nat) : Nat :=
  if cap = 16 then 8 else if cap = 32 then 16 else if cap = 64 ∨ cap = 128 then 32
  else if cap = 256 ∨ cap = 512 then 128 else 512

/-- Transmitted bytes per block for a supported capacity: all codes have rate 1/2. -/
def blockBytes (cap : Nat) : Nat := 2 * dataBytes cap

/-- The code used at a supported capacity. -/
def codeAt (cap : Nat) : LdpcCode :=
  if cap = 16 then .TC128 else if cap = 32 then .TC256 else if cap = 64 ∨ cap = 128 then .TC512
  else if cap = 256 ∨ cap = 512 then .TM2048 else .TM8192

/-- The frame: the length of the input as a big-endian 16-bit number, then the input. -/
def frame (input : List UInt8) : List UInt8 :=
  [UInt8.ofNat (input.length / 256 % 256), UInt8.ofNat (input.length % 256)] ++ input

/-- Data block `i` of the frame, zero padded. -/
def dataBlock (cap : Nat) (input : List UInt8) (i : Nat) : List UInt8 :=
  (List.range (dataBytes cap)).map fun j => (frame input).getD (i * dataBytes cap + j) 0

/-- Number of blocks that carry data. -/
def blockCount (cap : Nat) (input : List UInt8) : Nat := (input.length + 2 + dataBytes cap - 1) / dataBytes cap

/-- The `i`-th block of a received byte string. -/
def receivedBlock (cap : Nat) (received : List UInt8) (i : Nat) : List UInt8 :=
  (received.drop (i * blockBytes cap)).take (blockBytes cap)

/-- Contract of the LDPC library: it decodes its own clean codewords. -/
def Ldpc.DecodesClean (L : Ldpc) : Prop :=
  ∀ (c : LdpcCode) (d : List UInt8), d.length = c.k / 8 → (L.decode c (L.encode c d)).take (c.k / 8) = d

/-- Number of differing bits of two byte strings of equal length. -/
def bitDistance (a b : List UInt8) : Nat := ((bytesBits a).zip (bytesBits b)).countP fun p => p.1 != p.2

/-- Stronger contract: the library corrects up to `t` flipped bits in a block of code `c`. -/
def Ldpc.CorrectsBits (L : Ldpc) (c : LdpcCode) (t : Nat) : Prop :=
  ∀ (d r : List UInt8), d.length = c.k / 8 → r.length = c.n / 8 → bitDistance (L.encode c d) r ≤ t →
    (L.decode c r).take (c.k / 8) = d

end Sia
