import Verif.Lemmas.EdwardsLaw

/-! The points of a complete twisted Edwards curve form a commutative group (C80). -/
namespace Sia.Edwards

variable {K : Type} [Field K] {d : K}

theorem on_zero (d : K) : On d 0 1 := by unfold On; ring

theorem on_neg {x y : K} (h : On d x y) : On d (-x) y := by
  unfold On at *
  linear_combination h

theorem On.eq0 {x y : K} (h : On d x y) : y ^ 2 - x ^ 2 - (1 + d * x ^ 2 * y ^ 2) = 0 := by
  unfold On at h; linear_combination h

theorem closed_num {x1 y1 x2 y2 : K} (h1 : y1 ^ 2 - x1 ^ 2 - (1 + d * x1 ^ 2 * y1 ^ 2) = 0)
    (h2 : y2 ^ 2 - x2 ^ 2 - (1 + d * x2 ^ 2 * y2 ^ 2) = 0) :
    (y1 * y2 + x1 * x2) ^ 2 * (1 + d * x1 * x2 * y1 * y2) ^ 2 - (x1 * y2 + y1 * x2) ^ 2 * (1 - d * x1 * x2 * y1 * y2) ^ 2 =
      ((1 + d * x1 * x2 * y1 * y2) * (1 - d * x1 * x2 * y1 * y2)) ^ 2 +
        d * (x1 * y2 + y1 * x2) ^ 2 * (y1 * y2 + x1 * x2) ^ 2 := by
  linear_combination
    (d^3*x1^2*y1^2*x2^4*y2^4 - d^2*x1^2*x2^4*y2^4 + d^2*y1^2*x2^4*y2^4 - d^2*x2^4*y2^4 - d*x1^2*x2^4*y2^2 + d*x1^2*x2^2*y2^4 +
      d*y1^2*x2^4*y2^2 - d*y1^2*x2^2*y2^4 - 2*d*x2^4*y2^4 - 2*d*x2^2*y2^2 - 2*x2^4*y2^2 + x2^4 + 2*x2^2*y2^4 - 4*x2^2*y2^2 +
      y2^4) * h1 +
    (d*x1^4*x2^2*y2^2 + 2*d*x1^2*x2^2*y2^2 + d*y1^4*x2^2*y2^2 - 2*d*y1^2*x2^2*y2^2 + d*x2^2*y2^2 + 2*x1^2*x2^2*y2^2 - x1^2*x2^2 +
      x1^2*y2^2 - 2*y1^2*x2^2*y2^2 + y1^2*x2^2 - y1^2*y2^2 + 2*x2^2*y2^2 - x2^2 + y2^2 + 1) * h2

theorem on_add (hd : Complete d) {x1 y1 x2 y2 : K} (h1 : On d x1 y1) (h2 : On d x2 y2) :
    On d (addX d x1 y1 x2 y2) (addY d x1 y1 x2 y2) := by
  have hu := denom_add hd h1 h2
  have hv := denom_sub hd h1 h2
  have key := closed_num h1.eq0 h2.eq0
  unfold On addX addY
  set u := 1 + d * x1 * x2 * y1 * y2
  set v := 1 - d * x1 * x2 * y1 * y2
  field_simp
  linear_combination key

theorem sum_x (a b u v x y : K) (hu : u ≠ 0) (hv : v ≠ 0) :
    addX d (a / u) (b / v) x y = (a * v * y + b * u * x) / (u * v + d * a * b * x * y) := by
  unfold addX
  rw [← mul_div_mul_right _ _ (mul_ne_zero hu hv)]
  congr 1 <;> field_simp

theorem sum_y (a b u v x y : K) (hu : u ≠ 0) (hv : v ≠ 0) :
    addY d (a / u) (b / v) x y = (b * u * y + a * v * x) / (u * v - d * a * b * x * y) := by
  unfold addY
  rw [← mul_div_mul_right _ _ (mul_ne_zero hu hv)]
  congr 1 <;> field_simp

theorem addX_comm (d x1 y1 x2 y2 : K) : addX d x1 y1 x2 y2 = addX d x2 y2 x1 y1 := by
  unfold addX; congr 1 <;> ring

theorem addY_comm (d x1 y1 x2 y2 : K) : addY d x1 y1 x2 y2 = addY d x2 y2 x1 y1 := by
  unfold addY; congr 1 <;> ring

theorem addX_assoc (hd : Complete d) {x1 y1 x2 y2 x3 y3 : K} (h1 : On d x1 y1) (h2 : On d x2 y2) (h3 : On d x3 y3) :
    addX d (addX d x1 y1 x2 y2) (addY d x1 y1 x2 y2) x3 y3 = addX d x1 y1 (addX d x2 y2 x3 y3) (addY d x2 y2 x3 y3) := by
  have hu := denom_add hd h1 h2
  have hv := denom_sub hd h1 h2
  have hu' := denom_add hd h2 h3
  have hv' := denom_sub hd h2 h3
  have hL := denom_add hd (on_add hd h1 h2) h3
  have hR := denom_add hd (on_add hd h2 h3) h1
  have key := assoc_x h1.eq0 h2.eq0 h3.eq0
  rw [addX_comm d x1 y1 (addX d x2 y2 x3 y3)]
  have e1 : addX d (addX d x1 y1 x2 y2) (addY d x1 y1 x2 y2) x3 y3 = _ := sum_x _ _ _ _ x3 y3 hu hv
  have e2 : addX d (addX d x2 y2 x3 y3) (addY d x2 y2 x3 y3) x1 y1 = _ := sum_x _ _ _ _ x1 y1 hu' hv'
  rw [e1, e2]
  have dl : (1 + d * x1 * x2 * y1 * y2) * (1 - d * x1 * x2 * y1 * y2) + d * (x1 * y2 + y1 * x2) * (y1 * y2 + x1 * x2) * x3 * y3 ≠ 0 := by
    intro h
    apply hL
    unfold addX addY
    set u := 1 + d * x1 * x2 * y1 * y2
    set v := 1 - d * x1 * x2 * y1 * y2
    field_simp
    linear_combination h
  have dr : (1 + d * x2 * x3 * y2 * y3) * (1 - d * x2 * x3 * y2 * y3) + d * (x2 * y3 + y2 * x3) * (y2 * y3 + x2 * x3) * x1 * y1 ≠ 0 := by
    intro h
    apply hR
    unfold addX addY
    set u := 1 + d * x2 * x3 * y2 * y3
    set v := 1 - d * x2 * x3 * y2 * y3
    field_simp
    linear_combination h
  rw [div_eq_div_iff dl dr]
  linear_combination key

theorem addY_assoc (hd : Complete d) {x1 y1 x2 y2 x3 y3 : K} (h1 : On d x1 y1) (h2 : On d x2 y2) (h3 : On d x3 y3) :
    addY d (addX d x1 y1 x2 y2) (addY d x1 y1 x2 y2) x3 y3 = addY d x1 y1 (addX d x2 y2 x3 y3) (addY d x2 y2 x3 y3) := by
  have hu := denom_add hd h1 h2
  have hv := denom_sub hd h1 h2
  have hu' := denom_add hd h2 h3
  have hv' := denom_sub hd h2 h3
  have hL := denom_sub hd (on_add hd h1 h2) h3
  have hR := denom_sub hd (on_add hd h2 h3) h1
  have key := assoc_y h1.eq0 h2.eq0 h3.eq0
  rw [addY_comm d x1 y1 (addX d x2 y2 x3 y3)]
  have e1 : addY d (addX d x1 y1 x2 y2) (addY d x1 y1 x2 y2) x3 y3 = _ := sum_y _ _ _ _ x3 y3 hu hv
  have e2 : addY d (addX d x2 y2 x3 y3) (addY d x2 y2 x3 y3) x1 y1 = _ := sum_y _ _ _ _ x1 y1 hu' hv'
  rw [e1, e2]
  have dl : (1 + d * x1 * x2 * y1 * y2) * (1 - d * x1 * x2 * y1 * y2) - d * (x1 * y2 + y1 * x2) * (y1 * y2 + x1 * x2) * x3 * y3 ≠ 0 := by
    intro h
    apply hL
    unfold addX addY
    set u := 1 + d * x1 * x2 * y1 * y2
    set v := 1 - d * x1 * x2 * y1 * y2
    field_simp
    linear_combination h
  have dr : (1 + d * x2 * x3 * y2 * y3) * (1 - d * x2 * x3 * y2 * y3) - d * (x2 * y3 + y2 * x3) * (y2 * y3 + x2 * x3) * x1 * y1 ≠ 0 := by
    intro h
    apply hR
    unfold addX addY
    set u := 1 + d * x2 * x3 * y2 * y3
    set v := 1 - d * x2 * x3 * y2 * y3
    field_simp
    linear_combination h
  rw [div_eq_div_iff dl dr]
  linear_combination key

/-- A point of the curve. -/
@[ext] structure Point (d : K) where
  x : K
  y : K
  on : On d x y

instance [hd : Fact (Complete d)] : Add (Point d) :=
  ⟨fun P Q => ⟨addX d P.x P.y Q.x Q.y, addY d P.x P.y Q.x Q.y, on_add hd.out P.on Q.on⟩⟩
instance : Zero (Point d) := ⟨⟨0, 1, on_zero d⟩⟩
instance : Neg (Point d) := ⟨fun P => ⟨-P.x, P.y, on_neg P.on⟩⟩

/-- The group of the points. -/
instance [hd : Fact (Complete d)] : AddCommGroup (Point d) where
  add_assoc P Q R := Point.ext (addX_assoc hd.out P.on Q.on R.on) (addY_assoc hd.out P.on Q.on R.on)
  zero_add P := by
    refine Point.ext ?_ ?_
    · show addX d 0 1 P.x P.y = P.x
      unfold addX; simp
    · show addY d 0 1 P.x P.y = P.y
      unfold addY; simp
  add_zero P := by
    refine Point.ext ?_ ?_
    · show addX d P.x P.y 0 1 = P.x
      unfold addX; simp
    · show addY d P.x P.y 0 1 = P.y
      unfold addY; simp
  nsmul := nsmulRec
  zsmul := zsmulRec
  neg_add_cancel P := by
    refine Point.ext ?_ ?_
    · show addX d (-P.x) P.y P.x P.y = 0
      unfold addX
      rw [div_eq_zero_iff]; left; ring
    · show addY d (-P.x) P.y P.x P.y = 1
      have h := denom_sub hd.out (on_neg P.on) P.on
      unfold addY
      rw [div_eq_one_iff_eq h]
      have := P.on
      unfold On at this
      linear_combination this
  add_comm P Q := Point.ext (addX_comm d _ _ _ _) (addY_comm d _ _ _ _)

theorem add_x [Fact (Complete d)] (P Q : Point d) : (P + Q).x = addX d P.x P.y Q.x Q.y := rfl
theorem add_y [Fact (Complete d)] (P Q : Point d) : (P + Q).y = addY d P.x P.y Q.x Q.y := rfl
theorem zero_x : (0 : Point d).x = 0 := rfl
theorem zero_y : (0 : Point d).y = 1 := rfl
theorem neg_x (P : Point d) : (-P).x = -P.x := rfl
theorem neg_y (P : Point d) : (-P).y = P.y := rfl

end Sia.Edwards
