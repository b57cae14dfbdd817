import Verif.Model.LdpcCcsds
import Verif.Spec.EncodingSpec
import Verif.Model.Watermarking
import Verif.Model.Ed25519Rfc
import Mathlib.Algebra.Group.Nat.Even

/-! Specification vocabulary for the codes the program runs with (C82). -/
namespace Sia

/-- A parity check, given by the bits in it, holds for a word. -/
def CheckHolds (w : Nat → Bool) (check : List Nat) : Prop := Even (check.filter w).length

/-- The bits of a byte string are the first bits of a word; the rest of the word are the bits that are not transmitted. -/
def BitsOf (bytes : List UInt8) (w : Nat → Bool) : Prop := ∀ i < 8 * bytes.length, w i = bitAt bytes i

/-- A code word of a code: a byte string of its length that can be completed by punctured bits such that all parity checks hold. -/
def IsCodeWord (c : LdpcCode) (bytes : List UInt8) : Prop :=
  bytes.length = c.n / 8 ∧ ∃ w : Nat → Bool, BitsOf bytes w ∧ ∀ check ∈ c.checks, CheckHolds w check

/-- The byte string `r` is `s` with the bits at the given places flipped. -/
def Flipped (s r : List UInt8) (places : List Nat) : Prop :=
  r.length = s.length ∧ ∀ i < 8 * s.length, (bitAt r i ≠ bitAt s i ↔ i ∈ places)

/-- The libraries for coding and signing are the ones of the program. -/
def Deps.Actual {F : Type} (D : Deps F) : Prop := D.ldpc = Ldpc.ccsds ∧ D.ed = Ed25519.rfc8032

end Sia
