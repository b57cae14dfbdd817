import Verif.Model.Watermarking

/-! Model of `lib/sia/rust/utils/src/lib.rs`. -/
namespace Sia

/-- `vector_2d_as_nd_array`, utils/src/lib.rs:24-31: `x1[0]` panics on an empty vector. -/
def vector2dAsNdArray {α : Type} [Inhabited α] (x : List (List α)) : Res (Mat α) :=
  match x with
  | [] => .error .indexOutOfRange
  | first :: _ => fromShapeVec x.length first.length x.flatten

/-- `f64::abs`. utils/src/lib.rs:16. -/
def F64.abs : F64 → F64
  | .nan => .nan
  | .inf _ => .inf false
  | .fin x => .fin |x|

/-- `a < b` on `f64`; false if either is NaN. utils/src/lib.rs:16. -/
def F64.lt : F64 → F64 → Bool
  | .fin a, .fin b => decide (a < b)
  | .inf s, .inf t => s && !t
  | .inf s, .fin _ => s
  | .fin _, .inf t => !t
  | .nan, _ => false
  | _, .nan => false

/-- `DELTA`, utils/src/lib.rs:13. -/
def approxDelta : F64 := FloatOps.lit (1 / 10000)

/-- `assert_approx_eq!(expected, actual, DELTA)` (crate assert_approx_eq): `assert!((a - b).abs() < eps)`.
`assert_approximately_equal`, utils/src/lib.rs:15-17. -/
def assertApprox (expected actual : F64) : Res Unit :=
  if F64.lt (F64.abs (F64.sub expected actual)) approxDelta then .ok () else .error .assertionFailed

/-- The loop of `assert_approximately_equals_1d`, utils/src/lib.rs:56-62, from index `i` on: it runs over `actual`. -/
def assertApprox1dFrom (expected : List F64) : Nat → List F64 → Res Unit
  | _, [] => .ok ()
  | i, x :: rest => do
    match expected[i]? with
    | none => .error .indexOutOfRange
    | some e => assertApprox e x
    assertApprox1dFrom expected (i + 1) rest

/-- `assert_approximately_equals_1d`, utils/src/lib.rs:56-62. -/
def assertApprox1d (expected actual : List F64) : Res Unit := assertApprox1dFrom expected 0 actual

/-- `assert_approximately_equal_complex`, utils/src/lib.rs:19-22; a complex number is the pair of its parts. -/
def assertApproxComplex (expected actual : F64 × F64) : Res Unit := do
  assertApprox expected.1 actual.1
  assertApprox expected.2 actual.2

/-- `assert_approximately_equal_tuple`, utils/src/lib.rs:64-69. -/
def assertApproxTuple (expected actual : F64 × F64) : Res Unit := do
  let (leftExpected, rightExpected) := expected
  let (leftActual, rightActual) := actual
  assertApprox leftExpected leftActual
  assertApprox rightExpected rightActual

/-- One step of the inner loops of the two functions below: `expected[[i, j]]` panics outside the array.
utils/src/lib.rs:36-38, 49-51. -/
def assertElement {α : Type} (check : α → α → Res Unit) (expected actual : Mat α) (i j : Nat) : Res Unit :=
  if i < expected.rows ∧ j < expected.cols then check (expected.get i j) (actual.get i j) else .error .indexOutOfRange

/-- The two loops over rows and columns of `actual`. utils/src/lib.rs:34-40, 47-53. -/
def assertMatrix {α : Type} (check : α → α → Res Unit) (expected actual : Mat α) : Res Unit :=
  (List.range actual.rows).forM fun i => (List.range actual.cols).forM fun j => assertElement check expected actual i j

/-- `assert_approximately_equals_2d`, utils/src/lib.rs:33-41. -/
def assertApprox2d (expected actual : Mat F64) : Res Unit := assertMatrix assertApprox expected actual

/-- `assert_approximately_equals_2d_complex`, utils/src/lib.rs:43-54. -/
def assertApprox2dComplex (expected actual : Mat (F64 × F64)) : Res Unit := assertMatrix assertApproxComplex expected actual

end Sia
