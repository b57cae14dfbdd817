import Verif.Model.Ed25519Rfc

/-! Specification vocabulary for the signatures of the program (C80, C81). -/
namespace Sia

/-- Two different messages whose SHA-512 hashes, taken after the same bytes `r` (the first half of a given signature) and the public
key, agree modulo the order of the base point. `r` is named and not quantified: among all 32-byte strings there may well be some for
which two given messages collide. -/
def HashCollision (r public_ m m' : List UInt8) : Prop :=
  m ≠ m' ∧ leNat (Sha512.hash (r ++ public_ ++ m)) % (2 ^ 252 + 27742317777372353535851937790883648493) =
    leNat (Sha512.hash (r ++ public_ ++ m')) % (2 ^ 252 + 27742317777372353535851937790883648493)

end Sia
