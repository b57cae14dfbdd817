import Verif.Model.Bytes
import Verif.Lemmas.Lists

namespace Sia

@[simp] theorem leBytes_length (k n : Nat) : (leBytes k n).length = k := by
  induction k generalizing n with
  | zero => rfl
  | succ k ih => simp [leBytes, ih]

theorem leNat_lt : ∀ l : List UInt8, leNat l < 256 ^ l.length
  | [] => by simp [leNat]
  | b :: bs => by
    have := leNat_lt bs
    have hb := b.toNat_lt
    simp only [leNat, List.length_cons, pow_succ]; omega

theorem leNat_leBytes (k n : Nat) (h : n < 256 ^ k) : leNat (leBytes k n) = n := by
  induction k generalizing n with
  | zero => simp at h; subst h; rfl
  | succ k ih =>
    simp only [leBytes, leNat]
    rw [ih (n / 256) (by rw [pow_succ] at h; omega)]
    simp; omega

theorem leBytes_leNat : ∀ l : List UInt8, leBytes l.length (leNat l) = l
  | [] => rfl
  | b :: bs => by
    have hb := b.toNat_lt
    simp only [leNat, List.length_cons, leBytes]
    have h1 : (b.toNat + 256 * leNat bs) % 256 = b.toNat := by omega
    have h2 : (b.toNat + 256 * leNat bs) / 256 = leNat bs := by omega
    rw [h1, h2, leBytes_leNat bs]; simp

theorem i64OfPattern_pattern (z : Int) (h1 : -2 ^ 63 ≤ z) (h2 : z < 2 ^ 63) : i64OfPattern (i64Pattern z) = z := by
  unfold i64OfPattern i64Pattern
  split <;> omega

theorem i64Pattern_lt (z : Int) : i64Pattern z < 2 ^ 64 := by
  unfold i64Pattern; omega

theorem i64Pattern_ofPattern (n : Nat) (h : n < 2 ^ 64) : i64Pattern (i64OfPattern n) = n := by
  unfold i64OfPattern i64Pattern
  split <;> omega

theorem i64OfPattern_range (n : Nat) (h : n < 2 ^ 64) : -2 ^ 63 ≤ i64OfPattern n ∧ i64OfPattern n < 2 ^ 63 := by
  unfold i64OfPattern
  split <;> omega

/-- Generic round trip for fixed-width records. -/
theorem chunks_flatMap {α : Type} {n : Nat} (hn : 0 < n) (f : α → List UInt8) (hf : ∀ a, (f a).length = n) (l : List α) :
    chunks n (l.flatMap f) = l.map f := by
  have := chunks_flatten_of_full hn (l.map f) [] (by simp; intro a _; exact hf a)
  simpa [List.flatMap_def] using this

end Sia
