import Verif.Model.Ed25519Rfc
import Verif.Lemmas.EdwardsGroup
import Verif.Lemmas.EdwardsOrderPrime
import Mathlib.FieldTheory.Finite.Basic

/-! The curve of Ed25519: its points form a group, in which the base point has order `order` (C80). -/
namespace Sia.Rfc8032
open Sia.Edwards

theorem natCast_eq_zero {n : Nat} (h : n % (2 ^ 255 - 19) = 0) : (n : Fp) = 0 := by
  rw [ZMod.natCast_eq_zero_iff, p_eq]
  exact Nat.dvd_of_mod_eq_zero h

theorem natCast_ne_zero {n : Nat} (h : n % (2 ^ 255 - 19) ≠ 0) : (n : Fp) ≠ 0 := by
  rw [Ne, ZMod.natCast_eq_zero_iff, p_eq]
  exact fun hd => h (Nat.mod_eq_zero_of_dvd hd)

/-- The constant of the curve, as a number. -/
@[irreducible] def dNat : Nat := 37095705934669439343138083508754565189542113879843219016388785533085940283555

theorem d_eq : d = ((dNat : Nat) : Fp) := by
  unfold d
  have h0 : (121666 : Fp) ≠ 0 := by
    have := natCast_ne_zero (n := 121666) (by decide +kernel)
    exact_mod_cast this
  rw [div_eq_iff h0]
  have h := natCast_eq_zero (n := dNat * 121666 + 121665) (by decide +kernel)
  push_cast at h
  linear_combination -h

theorem powMod_cast (b e : Nat) (he : e < 2 ^ 256) (v : Nat) (h : powMod 256 b e (2 ^ 255 - 19) = v) : (b : Fp) ^ e = (v : Fp) := by
  rw [powMod_eq _ _ _ _ he] at h
  rw [← Nat.cast_pow, ← h, ← p_eq, ZMod.natCast_mod]

theorem complete : Complete d where
  two := by
    have := natCast_ne_zero (n := 2) (by decide +kernel)
    exact_mod_cast this
  sqrt := by
    refine ⟨((19681161376707505956807079304988542015446066515923890162744021073123829784752 : Nat) : Fp), ?_⟩
    have h := natCast_eq_zero
      (n := 19681161376707505956807079304988542015446066515923890162744021073123829784752 ^ 2 + 1) (by decide +kernel)
    push_cast at h ⊢
    linear_combination h
  nonsquare := by
    intro z hz
    have hd : (dNat : Fp) ^ ((2 ^ 255 - 19 - 1) / 2) = ((2 ^ 255 - 19 - 1 : Nat) : Fp) :=
      powMod_cast _ _ (by norm_num) _ (by decide +kernel)
    have hz0 : z ≠ 0 := by
      rintro rfl
      have := natCast_ne_zero (n := dNat) (by decide +kernel)
      rw [← d_eq, ← hz] at this
      exact this (by ring)
    have h1 := ZMod.pow_card_sub_one_eq_one hz0
    rw [← d_eq, ← hz, ← pow_mul, show 2 * ((2 ^ 255 - 19 - 1) / 2) = p - 1 by rw [p_eq]; norm_num, h1] at hd
    have hne := natCast_ne_zero (n := 2 ^ 255 - 19 - 2) (by decide +kernel)
    apply hne
    have hs : ((2 ^ 255 - 19 - 1 : Nat) : Fp) = ((2 ^ 255 - 19 - 2 : Nat) : Fp) + 1 := by
      rw [show (2 ^ 255 - 19 - 1 : Nat) = (2 ^ 255 - 19 - 2) + 1 by norm_num]
      exact Nat.cast_succ _
    rw [hs] at hd
    linear_combination -hd

instance : Fact (Complete d) := ⟨complete⟩

/-- The points of the curve. -/
abbrev Pt := Point d

/-- The coordinates of a point. -/
def Pt.coords (P : Pt) : Fp × Fp := (P.x, P.y)

theorem Pt.onCurve (P : Pt) : OnCurve P.coords := P.on

theorem add_coords (P Q : Pt) : add P.coords Q.coords = (P + Q).coords := rfl

theorem neg_coords (P : Pt) : neg P.coords = (-P).coords := rfl

theorem mul_coords (n : Nat) (P : Pt) : mul n P.coords = (n • P).coords := by
  induction n with
  | zero => rw [zero_smul]; rfl
  | succ n ih => rw [mul, ih, add_coords, succ_nsmul]

theorem base_on : On d base.1 base.2 := by
  unfold On base
  rw [d_eq]
  have h := natCast_eq_zero (n := 1 +
    dNat * 15112221349535400772501151409588531511454012693041857206046113283949847762202 ^ 2 *
      46316835694926478169428394003475163141307993866256225615783033603165251855960 ^ 2 +
    15112221349535400772501151409588531511454012693041857206046113283949847762202 ^ 2 +
    (2 ^ 255 - 19 - 1) * 46316835694926478169428394003475163141307993866256225615783033603165251855960 ^ 2) (by decide +kernel)
  have h' := natCast_eq_zero (n := (2 ^ 255 - 19 - 1) + 1) (by decide +kernel)
  rw [Nat.cast_add] at h'
  rw [Nat.cast_add, Nat.cast_add, Nat.cast_add, Nat.cast_mul (2 ^ 255 - 19 - 1)] at h
  push_cast at h
  push_cast at h'
  linear_combination -h + 46316835694926478169428394003475163141307993866256225615783033603165251855960 ^ 2 * h'

/-- The base point. -/
def B : Pt := ⟨base.1, base.2, base_on⟩

theorem B_coords : B.coords = base := rfl

/-- A point in projective coordinates. -/
def Rep (X Y Z : Nat) (P : Pt) : Prop := (Z : Fp) ≠ 0 ∧ (X : Fp) = P.x * Z ∧ (Y : Fp) = P.y * Z

/-- Addition in projective coordinates. -/
def padd (P Q : Nat × Nat × Nat) : Nat × Nat × Nat :=
  let q := 2 ^ 255 - 19
  let a := P.2.2 * Q.2.2 % q
  let b := a * a % q
  let c := P.1 * Q.1 % q
  let e := P.2.1 * Q.2.1 % q
  let f := dNat * c * e % q
  let g := b + (q - f)
  let h := b + f
  (a * g * (P.1 * Q.2.1 + P.2.1 * Q.1) % q, a * h * (e + c) % q, g * h % q)

/-- Multiples in projective coordinates. -/
def pmul : Nat → Nat → Nat × Nat × Nat → Nat × Nat × Nat
  | 0, _, _ => (0, 1, 1)
  | k + 1, n, Q => if n % 2 = 1 then padd (pmul k (n / 2) (padd Q Q)) Q else pmul k (n / 2) (padd Q Q)

theorem cast_mod (n : Nat) : ((n % (2 ^ 255 - 19) : Nat) : Fp) = (n : Fp) := by
  rw [← p_eq, ZMod.natCast_mod]

theorem padd_rep {P Q : Nat × Nat × Nat} {A C : Pt} (hP : Rep P.1 P.2.1 P.2.2 A) (hQ : Rep Q.1 Q.2.1 Q.2.2 C) :
    Rep (padd P Q).1 (padd P Q).2.1 (padd P Q).2.2 (A + C) := by
  obtain ⟨hz, hx, hy⟩ := hP
  obtain ⟨hz', hx', hy'⟩ := hQ
  have hu := denom_add complete A.on C.on
  have hv := denom_sub complete A.on C.on
  have hsub : ∀ m : Nat, ((2 ^ 255 - 19 - m % (2 ^ 255 - 19) : Nat) : Fp) = -(m : Fp) := by
    intro m
    have hle : m % (2 ^ 255 - 19) ≤ 2 ^ 255 - 19 := (Nat.mod_lt _ (by norm_num)).le
    rw [Nat.cast_sub hle, cast_mod, ← p_eq, ZMod.natCast_self]
    ring
  unfold Rep padd
  dsimp only
  simp only [cast_mod, Nat.cast_mul, Nat.cast_add, hsub, hx, hy, hx', hy', add_x, add_y, addX, addY, ← d_eq]
  refine ⟨?_, ?_, ?_⟩
  · have : (P.2.2 * Q.2.2 * (P.2.2 * Q.2.2) + -(d * (A.x * P.2.2 * (C.x * Q.2.2)) * (A.y * P.2.2 * (C.y * Q.2.2)))) *
        (P.2.2 * Q.2.2 * (P.2.2 * Q.2.2) + d * (A.x * P.2.2 * (C.x * Q.2.2)) * (A.y * P.2.2 * (C.y * Q.2.2))) =
        ((P.2.2 : Fp) * Q.2.2) ^ 4 * ((1 + d * A.x * C.x * A.y * C.y) * (1 - d * A.x * C.x * A.y * C.y)) := by ring
    rw [this]
    exact mul_ne_zero (pow_ne_zero _ (mul_ne_zero hz hz')) (mul_ne_zero hu hv)
  · set u := 1 + d * A.x * C.x * A.y * C.y with hud
    rw [div_mul_eq_mul_div, eq_div_iff hu, hud]
    ring
  · set v := 1 - d * A.x * C.x * A.y * C.y with hvd
    rw [div_mul_eq_mul_div, eq_div_iff hv, hvd]
    ring

theorem pmul_rep (k : Nat) : ∀ (n : Nat) (Q : Nat × Nat × Nat) (C : Pt), n < 2 ^ k → Rep Q.1 Q.2.1 Q.2.2 C →
    Rep (pmul k n Q).1 (pmul k n Q).2.1 (pmul k n Q).2.2 (n • C) := by
  induction k with
  | zero =>
    intro n Q C hn hQ
    have : n = 0 := by simpa using hn
    subst this
    refine ⟨?_, ?_, ?_⟩ <;> simp [pmul, zero_x, zero_y]
  | succ k ih =>
    intro n Q C hn hQ
    have h2 : n / 2 < 2 ^ k := by rw [Nat.div_lt_iff_lt_mul (by norm_num)]; rw [pow_succ] at hn; exact hn
    have hr := ih (n / 2) _ _ h2 (padd_rep hQ hQ)
    have hd : (n / 2) • (C + C) = (2 * (n / 2)) • C := by rw [← two_nsmul, ← mul_nsmul, mul_comm]
    rw [hd] at hr
    unfold pmul
    split_ifs with h
    · have hs : n • C = (2 * (n / 2)) • C + C := by
        rw [← succ_nsmul]; congr 1; omega
      rw [hs]
      exact padd_rep hr hQ
    · have hs : n • C = (2 * (n / 2)) • C := by congr 1; omega
      rw [hs]
      exact hr

/-- The base point in projective coordinates. -/
def baseNat : Nat × Nat × Nat :=
  (15112221349535400772501151409588531511454012693041857206046113283949847762202,
   46316835694926478169428394003475163141307993866256225615783033603165251855960, 1)

theorem baseNat_rep : Rep baseNat.1 baseNat.2.1 baseNat.2.2 B := by
  refine ⟨?_, ?_, ?_⟩ <;> simp [baseNat, B, base]

/-- Coordinates of a computed multiple of the base point. -/
theorem smul_base_coords (n x y : Nat) (hn : n < 2 ^ 256)
    (h1 : (pmul 256 n baseNat).1 % (2 ^ 255 - 19) = x * (pmul 256 n baseNat).2.2 % (2 ^ 255 - 19))
    (h2 : (pmul 256 n baseNat).2.1 % (2 ^ 255 - 19) = y * (pmul 256 n baseNat).2.2 % (2 ^ 255 - 19)) :
    (n • B).x = (x : Fp) ∧ (n • B).y = (y : Fp) := by
  obtain ⟨hz, e1, e2⟩ := pmul_rep 256 n baseNat B hn baseNat_rep
  have c1 := congrArg (Nat.cast : Nat → Fp) h1
  have c2 := congrArg (Nat.cast : Nat → Fp) h2
  rw [cast_mod, cast_mod, Nat.cast_mul] at c1 c2
  exact ⟨mul_right_cancel₀ hz (e1.symm.trans c1), mul_right_cancel₀ hz (e2.symm.trans c2)⟩

theorem order_smul_base : order • B = 0 := by
  rw [show order = 2 ^ 252 + 27742317777372353535851937790883648493 by unfold order; rfl]
  obtain ⟨h1, h2⟩ := smul_base_coords (2 ^ 252 + 27742317777372353535851937790883648493) 0 1 (by norm_num) (by decide +kernel)
    (by decide +kernel)
  refine Point.ext ?_ ?_
  · rw [h1, zero_x]; simp
  · rw [h2, zero_y]; simp

end Sia.Rfc8032
