import Verif.Model.Basic
import Verif.Model.Float

/-! Model of `lib/sia/rust/embedding/src/haar/mod.rs` and of the one-level Haar transform of the `dwt` crate. -/
namespace Sia
open FloatOps

section
variable {F : Type} [FloatOps F]

/-- `dwt::transform(.., Operation::Forward, Haar, 1)` on a vector of even length `n`: approximation coefficients
`c*a + c*b` in the first half, details `c*a + (-c)*b` in the second half, `c = 1/sqrt 2` (the dependency's documented
convention, pinned down by the test haar/mod.rs:128-148). -/
def haarForward (n : Nat) (v : Nat → F) (i : Nat) : F :=
  if i < n / 2 then add (mul frac1Sqrt2 (v (2 * i))) (mul frac1Sqrt2 (v (2 * i + 1)))
  else sub (mul frac1Sqrt2 (v (2 * (i - n / 2)))) (mul frac1Sqrt2 (v (2 * (i - n / 2) + 1)))

/-- `dwt::transform(.., Operation::Inverse, Haar, 1)` on a vector of even length `n`: inverse of the above.
embedding/src/haar/mod.rs:4-17. -/
def haarBackward (n : Nat) (v : Nat → F) (i : Nat) : F :=
  if i % 2 = 0 then add (mul frac1Sqrt2 (v (i / 2))) (mul frac1Sqrt2 (v (n / 2 + i / 2)))
  else sub (mul frac1Sqrt2 (v (i / 2))) (mul frac1Sqrt2 (v (n / 2 + i / 2)))

/-- `dwt_1d(_, 1, is_backward)`, haar/mod.rs:4-17; position `i` of the result for a vector of even length `n`. -/
def dwt1d (n : Nat) (v : Nat → F) (backward : Bool) (i : Nat) : F :=
  if backward then haarBackward n v i else haarForward n v i

/-- haar/mod.rs:34-40: transform every row of the top-left `w x h` submatrix. -/
def rowPass (w h : Nat) (backward : Bool) (m : Nat → Nat → F) (i j : Nat) : F :=
  if i < w ∧ j < h then dwt1d h (fun j' => m i j') backward j else m i j

/-- haar/mod.rs:42-48: transform every column of the top-left `w x h` submatrix. -/
def colPass (w h : Nat) (backward : Bool) (m : Nat → Nat → F) (i j : Nat) : F :=
  if i < w ∧ j < h then dwt1d w (fun i' => m i' j) backward i else m i j

/-- One round of the loop of `dwt_2d`, haar/mod.rs:22-48. `2_i32.pow(iteration)` overflows from 31 on. Each row
has `h` and each column `w` elements; `dwt::transform` at level 1 asserts that the length is even. -/
def dwtIteration (backward : Bool) (m : Mat F) (iteration : Nat) : Res (Mat F) :=
  if 31 ≤ iteration then .error .arithOverflow
  else
    let w := m.rows / 2 ^ iteration
    let h := m.cols / 2 ^ iteration
    if (0 < w ∧ h % 2 ≠ 0) ∨ (0 < h ∧ w % 2 ≠ 0) then .error .dwtLength
    else .ok { m with get := colPass w h backward (rowPass w h backward m.get) }

/-- `dwt_2d`, haar/mod.rs:19-63: iterations `0, 1, .., level-1` forward, `level-1, .., 0` backward; `level - 1`
underflows for level 0. -/
def dwt2d (m : Mat F) (level : Nat) (backward : Bool) : Res (Mat F) :=
  if level = 0 then .error .arithOverflow
  else (if backward then (List.range level).reverse else List.range level).foldlM (dwtIteration backward) m

end
end Sia
