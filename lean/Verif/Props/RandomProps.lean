import Verif.Model.PseudoRandom
import Verif.Lemmas.RoundLemmas
import Verif.Props.FloatProps

/-! C42: the pseudo-random generator, in IEEE double arithmetic. -/
namespace Sia
open FloatOps

theorem rep64_int (z : ℤ) (h : |z| ≤ 2 ^ 53) : Rep64 z := ⟨z, 0, h, by norm_num, by simp⟩

/-- Rounding keeps integers integers. -/
theorem rne64_isInt (z : ℤ) : ∃ z' : ℤ, rne64 z = z' := by
  rcases le_or_gt |z| (2 ^ 53) with h | h
  · exact ⟨z, rne64_rep _ (rep64_int z h)⟩
  · have h0 : (z : ℚ) ≠ 0 := by
      intro h0
      have : z = 0 := by exact_mod_cast h0
      subst this
      norm_num at h
    have hlog : 53 ≤ Int.log 2 |(z : ℚ)| := by
      rw [← Int.zpow_le_iff_le_log (by norm_num) (abs_pos.mpr h0)]
      have h' : ((2 ^ 53 : ℤ) : ℚ) ≤ ((|z| : ℤ) : ℚ) := by exact_mod_cast h.le
      push_cast at h'
      refine le_trans (le_of_eq ?_) h'
      norm_num
    have hu : 0 ≤ ulpExp z := le_trans (by omega) (le_max_left _ _)
    refine ⟨rneInt ((z : ℚ) / (2 : ℚ) ^ ulpExp z) * 2 ^ (ulpExp z).toNat, ?_⟩
    unfold rne64
    rw [if_neg h0]
    push_cast
    congr 1
    rw [← zpow_natCast (2 : ℚ), Int.toNat_of_nonneg hu]

theorem rne64_nonneg (x : ℚ) (h : 0 ≤ x) : 0 ≤ rne64 x := le_rne64_of_le x 0 ⟨0, 0, by norm_num, by norm_num, by simp⟩ h

theorem rep64_pow (k : ℕ) : Rep64 (2 ^ k) := ⟨1, k, by norm_num, by omega, by simp⟩

theorem ofRat_fin (x : ℚ) (k : ℕ) (hk : k < 1024) (h0 : 0 ≤ x) (h : x ≤ 2 ^ k) :
    F64.ofRat x = .fin (rne64 x) ∧ 0 ≤ rne64 x ∧ rne64 x ≤ 2 ^ k := by
  have h1 := rne64_nonneg x h0
  have h2 := rne64_le_of_le x _ (rep64_pow k) h
  refine ⟨?_, h1, h2⟩
  unfold F64.ofRat
  dsimp only
  rw [if_neg]
  rw [not_le, abs_of_nonneg h1]
  refine lt_of_le_of_lt h2 ?_
  gcongr
  norm_num

/-- A product of non-negative whole doubles is one. -/
theorem mul_whole (a b : ℤ) (k l : ℕ) (hkl : k + l < 1024) (ha : 0 ≤ a) (hb : 0 ≤ b) (ha2 : a ≤ 2 ^ k) (hb2 : b ≤ 2 ^ l) :
    ∃ c : ℤ, F64.mul (.fin a) (.fin b) = .fin c ∧ 0 ≤ c ∧ c ≤ 2 ^ (k + l) := by
  have ha' : (0 : ℚ) ≤ a := by exact_mod_cast ha
  have hb' : (0 : ℚ) ≤ b := by exact_mod_cast hb
  have ha2' : (a : ℚ) ≤ 2 ^ k := by exact_mod_cast ha2
  have hb2' : (b : ℚ) ≤ 2 ^ l := by exact_mod_cast hb2
  obtain ⟨e1, e2, e3⟩ := ofRat_fin ((a : ℚ) * b) (k + l) hkl (mul_nonneg ha' hb')
    (by rw [pow_add]; exact mul_le_mul ha2' hb2' hb' (by positivity))
  obtain ⟨c, hc⟩ := rne64_isInt (a * b)
  push_cast at hc
  rw [hc] at e1 e2 e3
  exact ⟨c, e1, by exact_mod_cast e2, by exact_mod_cast e3⟩

/-- The remainder of a whole non-negative double by a positive whole double. -/
theorem rem_whole (a : ℤ) (m : ℕ) (ha : 0 ≤ a) (hm : 0 < m) :
    F64.rem (.fin a) (.fin (m : ℚ)) = .fin (((a % m).toNat : ℕ) : ℚ) := by
  have hm' : (0 : ℚ) < m := by exact_mod_cast hm
  show (if (m : ℚ) = 0 then _ else _) = _
  rw [if_neg hm'.ne']
  have ht : truncZ ((a : ℚ) / m) = a / m := by
    unfold truncZ
    rw [if_pos (div_nonneg (by exact_mod_cast ha) hm'.le)]
    exact_mod_cast Rat.floor_intCast_div_natCast a m
  rw [ht]
  congr 1
  have h1 := Int.emod_add_mul_ediv a m
  have h2 : 0 ≤ a % m := Int.emod_nonneg _ (by omega)
  have h3 : (((a % m).toNat : ℕ) : ℚ) = ((a % m : ℤ) : ℚ) := by
    have : (((a % m).toNat : ℕ) : ℤ) = a % m := Int.toNat_of_nonneg h2
    exact_mod_cast this
  rw [h3]
  have h4 : a - m * (a / m) = a % m := by omega
  exact_mod_cast h4

theorem lit_nat (n : ℕ) (h : n ≤ 2 ^ 53) : (FloatOps.lit (n : ℚ) : F64) = .fin n := by
  have := f64_ofNat n h
  rw [← this]
  show F64.ofRat _ = F64.ofRat _
  norm_cast

theorem div_fin (a b : ℚ) (h : b ≠ 0) : F64.div (.fin a) (.fin b) = F64.ofRat (a / b) := by
  unfold F64.div
  dsimp only
  rw [if_neg h]

/-- C42: every generated unit is the double nearest to `r / 2038074743` for an integer `0 ≤ r < 2038074743`; it is at least 0
and strictly below 1, and the generator moves to the next seed. The last seed overflows. -/
theorem generateUnit_spec (s : ℕ) :
    (s + 1 < 2 ^ 64 → ∃ (r : ℕ) (u : ℚ), r < 2038074743 ∧ u = rne64 ((r : ℚ) / 2038074743) ∧ 0 ≤ u ∧ u < 1 ∧
      (PseudoRandom.mk s).generateUnit = .ok (.fin u, ⟨s + 1⟩)) ∧
    (2 ^ 64 ≤ s + 1 → (PseudoRandom.mk s).generateUnit = .error .arithOverflow) := by
  constructor
  · intro hs
    obtain ⟨e1, e2, e3⟩ := ofRat_fin (((s + 1 : ℕ) : ℤ) : ℚ) 64 (by norm_num) (by positivity)
      (by exact_mod_cast hs.le)
    obtain ⟨x, hx⟩ := rne64_isInt ((s + 1 : ℕ) : ℤ)
    rw [hx] at e1 e2 e3
    have hx0 : 0 ≤ x := by exact_mod_cast e2
    have hx1 : x ≤ 2 ^ 64 := by exact_mod_cast e3
    obtain ⟨a, ha, ha0, ha1⟩ := mul_whole x 15485863 64 24 (by norm_num) hx0 (by norm_num) hx1 (by norm_num)
    obtain ⟨b, hb, hb0, hb1⟩ := mul_whole a a 88 88 (by norm_num) ha0 ha0 ha1 ha1
    obtain ⟨c, hc, hc0, hc1⟩ := mul_whole b a 176 88 (by norm_num) hb0 ha0 hb1 ha1
    have hl1 : (FloatOps.lit 15485863 : F64) = .fin ((15485863 : ℤ) : ℚ) := by
      have := lit_nat 15485863 (by norm_num)
      push_cast at this ⊢
      exact this
    have hl2 : (FloatOps.lit 2038074743 : F64) = .fin ((2038074743 : ℕ) : ℚ) := by
      have := lit_nat 2038074743 (by norm_num)
      push_cast at this ⊢
      exact this
    have hr : (c % (2038074743 : ℕ)).toNat < 2038074743 := by
      have := Int.emod_lt_of_pos c (show (0 : ℤ) < ((2038074743 : ℕ) : ℤ) by norm_num)
      omega
    refine ⟨(c % (2038074743 : ℕ)).toNat, _, hr, rfl, rne64_nonneg _ (by positivity), ?_, ?_⟩
    · obtain ⟨_, h2, _⟩ := rne64_quotient (c % (2038074743 : ℕ)).toNat 2038074743 (by omega) (by norm_num) (by norm_num)
      rw [Nat.div_eq_of_lt hr] at h2
      simpa using h2
    · unfold PseudoRandom.generateUnit
      dsimp only
      rw [if_pos hs]
      have e1' : (FloatOps.ofInt ((s + 1 : ℕ) : ℤ) : F64) = .fin x := e1
      rw [e1', hl1, hl2, ha, hb, hc, rem_whole c 2038074743 hc0 (by norm_num)]
      rw [div_fin _ _ (by norm_num)]
      rw [ofRat_quotient _ 2038074743 (by omega) (by norm_num) (by norm_num)]
      push_cast
      rfl
  · intro hs
    unfold PseudoRandom.generateUnit
    exact if_neg (show ¬ (s + 1 < 2 ^ 64) by omega)

/-- C42: `n` calls from seed `s` succeed exactly if the seed does not overflow. Then the `i`-th number is the one that a
generator freshly seeded with `s + i` returns first, and the seed is `s + n` afterwards; equal seeds give equal sequences. -/
theorem units_spec (n : ℕ) : ∀ (s : ℕ), s < 2 ^ 64 →
    ((∃ r, (PseudoRandom.mk s).units n = .ok r) ↔ s + n < 2 ^ 64) ∧
    ∀ us g, (PseudoRandom.mk s).units n = .ok (us, g) → us.length = n ∧ g = ⟨s + n⟩ ∧
      ∀ i (hi : i < us.length), (PseudoRandom.mk (s + i)).generateUnit = .ok (us[i], ⟨s + i + 1⟩) := by
  induction n with
  | zero =>
    intro s hs
    refine ⟨⟨fun _ => by omega, fun _ => ⟨_, rfl⟩⟩, ?_⟩
    intro us g h
    cases h
    exact ⟨rfl, rfl, fun i hi => absurd hi (by simp)⟩
  | succ n ih =>
    intro s hs
    by_cases h1 : s + 1 < 2 ^ 64
    · obtain ⟨r, u, _, _, _, _, hu⟩ := (generateUnit_spec s).1 h1
      obtain ⟨i1, i2⟩ := ih (s + 1) h1
      have hun : (PseudoRandom.mk s).units (n + 1) =
          (do let (us, g'') ← (PseudoRandom.mk (s + 1)).units n; return (.fin u :: us, g'')) := by
        conv_lhs => unfold PseudoRandom.units
        rw [hu]
        rfl
      cases hr : (PseudoRandom.mk (s + 1)).units n with
      | error e =>
        rw [hun, hr]
        rw [hr] at i1
        refine ⟨⟨(fun ⟨_, h⟩ => by cases h), (fun h => ?_)⟩, fun us g h => by cases h⟩
        obtain ⟨_, h⟩ := i1.mpr (by omega)
        cases h
      | ok p =>
        obtain ⟨us', g'⟩ := p
        obtain ⟨j1, j2, j3⟩ := i2 us' g' hr
        rw [hun, hr]
        refine ⟨⟨fun _ => ?_, fun _ => ⟨_, rfl⟩⟩, ?_⟩
        · have := i1.mp ⟨_, hr⟩
          omega
        · intro us g h
          cases h
          refine ⟨by simp [j1], by rw [j2]; congr 1; omega, ?_⟩
          intro i hi
          cases i with
          | zero => exact hu
          | succ i =>
            have := j3 i (by simpa using hi)
            rw [show s + 1 + i = s + (i + 1) by omega] at this
            rw [this]
            rfl
    · have herr := (generateUnit_spec s).2 (by omega)
      have hun : (PseudoRandom.mk s).units (n + 1) = .error .arithOverflow := by
        unfold PseudoRandom.units
        rw [herr]
        rfl
      rw [hun]
      refine ⟨⟨(fun ⟨_, h⟩ => by cases h), (fun h => by omega)⟩, fun us g h => by cases h⟩

/-! ### Intervals -/

theorem rep64_multiple (a : ℚ) (h : Rep64 a) : ∃ z : ℤ, a = z * (2 : ℚ) ^ (-1074 : ℤ) := by
  obtain ⟨m, e, _, he, rfl⟩ := h
  refine ⟨m * 2 ^ (e + 1074).toNat, ?_⟩
  push_cast
  rw [mul_assoc, ← zpow_natCast (2 : ℚ), ← zpow_add₀ (by norm_num), Int.toNat_of_nonneg (by omega)]
  congr 2
  ring

/-- The difference of two doubles either is a double or is at least `2^-1021`. -/
theorem difference_cases (a b : ℚ) (ha : Rep64 a) (hb : Rep64 b) (hab : a ≤ b) : Rep64 (b - a) ∨ 1 / 2 ^ 1021 ≤ b - a := by
  obtain ⟨x, rfl⟩ := rep64_multiple a ha
  obtain ⟨y, rfl⟩ := rep64_multiple b hb
  have hp : (0 : ℚ) < (2 : ℚ) ^ (-1074 : ℤ) := zpow_pos (by norm_num) _
  have hxy : x ≤ y := by
    have := le_of_mul_le_mul_right hab hp
    exact_mod_cast this
  have hd : (y : ℚ) * (2 : ℚ) ^ (-1074 : ℤ) - x * (2 : ℚ) ^ (-1074 : ℤ) = ((y - x : ℤ) : ℚ) * (2 : ℚ) ^ (-1074 : ℤ) := by
    push_cast; ring
  rw [hd]
  rcases le_or_gt (y - x) (2 ^ 53) with h | h
  · exact Or.inl ⟨y - x, -1074, by rw [abs_of_nonneg (by omega)]; exact h, le_rfl, rfl⟩
  · right
    have h' : ((2 ^ 53 : ℤ) : ℚ) ≤ ((y - x : ℤ) : ℚ) := by exact_mod_cast h.le
    calc (1 : ℚ) / 2 ^ 1021 = ((2 ^ 53 : ℤ) : ℚ) * (2 : ℚ) ^ (-1074 : ℤ) := by
          rw [zpow_neg, show (2 : ℚ) ^ (1074 : ℤ) = 2 ^ (1021 + 53) from zpow_natCast 2 (1021 + 53), pow_add, mul_inv,
            show ((2 ^ 53 : ℤ) : ℚ) = 2 ^ 53 by norm_num]
          field_simp
      _ ≤ _ := mul_le_mul_of_nonneg_right h' hp.le

/-- Scaling the rounded length of an interval by a number at most `1 - 2^-31` never exceeds the exact length. -/
theorem scaled_length (a b q : ℚ) (ha : Rep64 a) (hb : Rep64 b) (hab : a ≤ b) (hq0 : 0 ≤ q) (hq : q ≤ 1 - 1 / 2 ^ 31) :
    0 ≤ rne64 (q * rne64 (b - a)) ∧ rne64 (q * rne64 (b - a)) ≤ b - a := by
  have hd0 : 0 ≤ rne64 (b - a) := rne64_nonneg _ (by linarith)
  refine ⟨rne64_nonneg _ (mul_nonneg hq0 hd0), ?_⟩
  rcases difference_cases a b ha hb hab with h | h
  · rw [rne64_rep _ h]
    exact rne64_le_of_le _ _ h (by nlinarith)
  · have hpos : (0 : ℚ) < b - a := lt_of_lt_of_le (by positivity) h
    have hlarge : (1 : ℚ) / 2 ^ 1075 ≤ 1 / 2 ^ 53 * (b - a) := by
      calc (1 : ℚ) / 2 ^ 1075 ≤ 1 / 2 ^ 53 * (1 / 2 ^ 1021) := by
            rw [one_div_mul_one_div_rev, ← pow_add]
            apply one_div_le_one_div_of_le (by positivity)
            exact pow_le_pow_right₀ (by norm_num) (by norm_num)
        _ ≤ _ := by gcongr
    have hd : rne64 (b - a) ≤ (1 + 1 / 2 ^ 53) * (b - a) := by
      rcases rne64_err (b - a) with h' | h'
      · rw [abs_of_pos hpos] at h'
        have := (abs_le.mp h').2
        linarith
      · have := (abs_le.mp h').2
        linarith
    generalize rne64 (b - a) = d at *
    have hqd0 : 0 ≤ q * d := mul_nonneg hq0 hd0
    have hqd : q * d ≤ (1 - 1 / 2 ^ 31) * ((1 + 1 / 2 ^ 53) * (b - a)) :=
      mul_le_mul hq hd hd0 (by norm_num)
    have hqd' : q * d ≤ (1 + 1 / 2 ^ 53) * (b - a) := hqd.trans (by nlinarith)
    have herr : rne64 (q * d) ≤ q * d + 1 / 2 ^ 52 * (b - a) := by
      rcases rne64_err (q * d) with h' | h'
      · rw [abs_of_nonneg hqd0] at h'
        have := (abs_le.mp h').2
        nlinarith
      · have := (abs_le.mp h').2
        nlinarith
    nlinarith

/-- C42: for finite doubles `a ≤ b` whose difference does not overflow, `generate` returns a double `v` with `a ≤ v ≤ b`, in
IEEE double arithmetic, and moves to the next seed. -/
theorem generate_range (s : ℕ) (hs : s + 1 < 2 ^ 64) (a b : ℚ) (ha : Rep64 a) (hb : Rep64 b) (hab : a ≤ b)
    (ha2 : |a| < 2 ^ 1024) (hb2 : |b| < 2 ^ 1024) (hd : rne64 (b - a) < 2 ^ 1024) :
    ∃ v : ℚ, (PseudoRandom.mk s).generate (.fin a) (.fin b) = .ok (.fin v, ⟨s + 1⟩) ∧ Rep64 v ∧ a ≤ v ∧ v ≤ b := by
  obtain ⟨r, u, hr, hu, hu0, _, hg⟩ := (generateUnit_spec s).1 hs
  have hu1 : u ≤ 1 - 1 / 2 ^ 31 := by
    rw [hu]
    apply rne64_le_of_le
    · exact ⟨2 ^ 31 - 1, -31, by norm_num, by norm_num, by norm_num⟩
    · have : (r : ℚ) ≤ 2038074742 := by exact_mod_cast (by omega : r ≤ 2038074742)
      rw [div_le_iff₀ (by norm_num)]
      norm_num
      linarith
  obtain ⟨p0, p1⟩ := scaled_length a b u ha hb hab hu0 hu1
  have hd0 : 0 ≤ rne64 (b - a) := rne64_nonneg _ (by linarith)
  have hsub : F64.sub (.fin b) (.fin a) = .fin (rne64 (b - a)) := by
    show F64.ofRat (b + -a) = _
    rw [← sub_eq_add_neg]
    unfold F64.ofRat
    dsimp only
    rw [if_neg (by rw [not_le, abs_of_nonneg hd0]; exact hd)]
  have hmul : F64.mul (.fin u) (.fin (rne64 (b - a))) = .fin (rne64 (u * rne64 (b - a))) := by
    show F64.ofRat _ = _
    unfold F64.ofRat
    dsimp only
    rw [if_neg]
    rw [not_le, abs_of_nonneg p0]
    have h1 : rne64 (u * rne64 (b - a)) ≤ rne64 (b - a) := by
      apply rne64_le_of_le _ _ (rep64_rne64 _)
      nlinarith
    exact lt_of_le_of_lt h1 hd
  have hv1 : a ≤ rne64 (rne64 (u * rne64 (b - a)) + a) := le_rne64_of_le _ _ ha (by linarith)
  have hv2 : rne64 (rne64 (u * rne64 (b - a)) + a) ≤ b := rne64_le_of_le _ _ hb (by linarith)
  have hadd : F64.add (.fin (rne64 (u * rne64 (b - a)))) (.fin a) = .fin (rne64 (rne64 (u * rne64 (b - a)) + a)) := by
    show F64.ofRat _ = _
    unfold F64.ofRat
    dsimp only
    rw [if_neg]
    rw [not_le, abs_lt]
    have := (abs_lt.mp ha2).1
    have := (abs_lt.mp hb2).2
    constructor <;> linarith
  refine ⟨_, ?_, rep64_rne64 _, hv1, hv2⟩
  unfold PseudoRandom.generate
  rw [hg]
  show Except.ok (F64.add (F64.mul _ (F64.sub _ _)) _, _) = _
  rw [hsub, hmul, hadd]

/-- C42 in exact arithmetic: a unit in `[0,1)` maps into `[a,b)`. -/
theorem unit_maps_into_interval (u a b : ℝ) (h0 : 0 ≤ u) (h1 : u < 1) (hab : a < b) : a ≤ u * (b - a) + a ∧ u * (b - a) + a < b := by
  constructor <;> nlinarith

/-- Evaluating the rounding of a number whose binade is known. -/
theorem rne64_eval (x : ℚ) (m : ℤ) (e : ℤ) (he : -1074 ≤ e) (h1 : 2 ^ 52 * (2 : ℚ) ^ e ≤ x) (h2 : x < 2 ^ 53 * (2 : ℚ) ^ e)
    (h3 : |x / (2 : ℚ) ^ e - m| < 1 / 2) : rne64 x = m * (2 : ℚ) ^ e := by
  have hp : (0 : ℚ) < (2 : ℚ) ^ e := zpow_pos (by norm_num) _
  have hx : 0 < x := lt_of_lt_of_le (by positivity) h1
  have hlog : Int.log 2 |x| = e + 52 := by
    rw [abs_of_pos hx]
    apply le_antisymm
    · rw [← Int.lt_add_one_iff, ← Int.lt_zpow_iff_log_lt (by norm_num) hx]
      refine lt_of_lt_of_le h2 (le_of_eq ?_)
      rw [show e + 52 + 1 = 53 + e by ring]
      push_cast
      rw [zpow_add₀ (by norm_num)]
      norm_num
    · rw [← Int.zpow_le_iff_le_log (by norm_num) hx]
      refine le_trans (le_of_eq ?_) h1
      push_cast
      rw [add_comm, zpow_add₀ (by norm_num)]
      norm_num
  have hu : ulpExp x = e := by
    unfold ulpExp
    rw [hlog]
    omega
  unfold rne64
  rw [if_neg hx.ne', hu]
  congr 2
  have hr := abs_le.mp (rneInt_err (x / (2 : ℚ) ^ e))
  have h3' := abs_lt.mp h3
  have l1 : ((rneInt (x / (2 : ℚ) ^ e) : ℤ) : ℚ) - m < 1 := by linarith
  have l2 : (-1 : ℚ) < ((rneInt (x / (2 : ℚ) ^ e) : ℤ) : ℚ) - m := by linarith
  have l1' : rneInt (x / (2 : ℚ) ^ e) - m < 1 := by exact_mod_cast l1
  have l2' : -1 < rneInt (x / (2 : ℚ) ^ e) - m := by exact_mod_cast l2
  omega

/-- The first number after seeding with 1. -/
theorem unit_of_seed_one : (PseudoRandom.mk 1).generateUnit = .ok (.fin (rne64 (1122423985 / 2038074743)), ⟨2⟩) := by
  have h1 : (FloatOps.ofInt (((1 : ℕ) + 1 : ℕ) : ℤ) : F64) = .fin ((2 : ℕ) : ℚ) := f64_ofNat 2 (by norm_num)
  have h2 : (FloatOps.lit 15485863 : F64) = .fin ((15485863 : ℕ) : ℚ) := by
    have := lit_nat 15485863 (by norm_num)
    push_cast at this ⊢
    exact this
  have h3 : (FloatOps.lit 2038074743 : F64) = .fin ((2038074743 : ℕ) : ℚ) := by
    have := lit_nat 2038074743 (by norm_num)
    push_cast at this ⊢
    exact this
  have h4 : F64.mul (.fin ((2 : ℕ) : ℚ)) (.fin ((15485863 : ℕ) : ℚ)) = .fin ((30971726 : ℕ) : ℚ) := by
    rw [← f64_ofNat 30971726 (by norm_num)]
    show F64.ofRat _ = F64.ofRat _
    norm_num
  have h5 : F64.mul (.fin ((30971726 : ℕ) : ℚ)) (.fin ((30971726 : ℕ) : ℚ)) = .fin ((959247811419076 : ℕ) : ℚ) := by
    rw [← f64_ofNat 959247811419076 (by norm_num)]
    show F64.ofRat _ = F64.ofRat _
    norm_num
  have hr : rne64 (((959247811419076 : ℕ) : ℚ) * ((30971726 : ℕ) : ℚ)) = ((29709560381371293106176 : ℤ) : ℚ) := by
    rw [rne64_eval _ 7083311171858619 22 (by norm_num) (by norm_num) (by norm_num) (by norm_num [abs_lt])]
    norm_num
  have h6 : F64.mul (.fin ((959247811419076 : ℕ) : ℚ)) (.fin ((30971726 : ℕ) : ℚ)) = .fin ((29709560381371293106176 : ℤ) : ℚ) := by
    rw [← hr]
    exact (ofRat_fin _ 100 (by norm_num) (by norm_num) (by norm_num)).1
  unfold PseudoRandom.generateUnit
  dsimp only
  rw [if_pos (by norm_num), h1, h2, h3, h4, h5, h6, rem_whole _ 2038074743 (by norm_num) (by norm_num), div_fin _ _ (by norm_num),
    show ((29709560381371293106176 : ℤ) % ((2038074743 : ℕ) : ℤ)).toNat = 1122423985 by norm_num; rfl,
    ofRat_quotient _ 2038074743 (by norm_num) (by norm_num) (by norm_num)]
  norm_num

/-- C42, the upper bound is reached in double arithmetic: between the doubles `2^60` and `2^60 + 256`, the generator seeded with 1
returns the upper one. -/
theorem generate_reaches_upper : (PseudoRandom.mk 1).generate (.fin (2 ^ 60)) (.fin (2 ^ 60 + 256)) = .ok (.fin (2 ^ 60 + 256), ⟨2⟩) := by
  have l1 : (33 / 64 : ℚ) ≤ rne64 (1122423985 / 2038074743) :=
    le_rne64_of_le _ _ ⟨33, -6, by norm_num, by norm_num, by norm_num⟩ (by norm_num)
  have l2 : rne64 (1122423985 / 2038074743) ≤ (48 / 64 : ℚ) :=
    rne64_le_of_le _ _ ⟨48, -6, by norm_num, by norm_num, by norm_num⟩ (by norm_num)
  unfold PseudoRandom.generate
  rw [unit_of_seed_one]
  generalize rne64 (1122423985 / 2038074743) = u at *
  have hs : F64.sub (.fin (2 ^ 60 + 256)) (.fin (2 ^ 60)) = .fin 256 := by
    show F64.ofRat (2 ^ 60 + 256 + -(2 ^ 60)) = _
    rw [show (2 ^ 60 + 256 + -(2 ^ 60) : ℚ) = 256 by norm_num, (ofRat_fin 256 8 (by norm_num) (by norm_num) (by norm_num)).1,
      rne64_rep _ ⟨256, 0, by norm_num, by norm_num, by norm_num⟩]
  have hm : F64.mul (.fin u) (.fin 256) = .fin (rne64 (u * 256)) :=
    (ofRat_fin _ 8 (by norm_num) (by linarith) (by linarith)).1
  have m1 : (132 : ℚ) ≤ rne64 (u * 256) := le_rne64_of_le _ _ ⟨132, 0, by norm_num, by norm_num, by norm_num⟩ (by linarith)
  have m2 : rne64 (u * 256) ≤ (192 : ℚ) := rne64_le_of_le _ _ ⟨192, 0, by norm_num, by norm_num, by norm_num⟩ (by linarith)
  generalize rne64 (u * 256) = p at *
  have ha : F64.add (.fin p) (.fin (2 ^ 60)) = .fin (2 ^ 60 + 256) := by
    show F64.ofRat _ = _
    rw [(ofRat_fin _ 61 (by norm_num) (by linarith) (by norm_num; linarith)).1]
    congr 1
    rw [rne64_eval _ (2 ^ 52 + 1) 8 (by norm_num) (by norm_num; linarith) (by norm_num; linarith) (by
      rw [abs_lt]; norm_num; constructor <;> linarith)]
    norm_num
  show Except.ok (F64.add (F64.mul _ (F64.sub _ _)) _, _) = _
  rw [hs, hm, ha]

/-- C42: the interval of the repository's test, for every seed. -/
example (s : ℕ) (hs : s + 1 < 2 ^ 64) : ∃ v : ℚ,
    (PseudoRandom.mk s).generate (.fin (-2)) (.fin 5) = .ok (.fin v, ⟨s + 1⟩) ∧ -2 ≤ v ∧ v ≤ 5 := by
  have h7 : rne64 (5 - -2) = 7 := by
    rw [show (5 - -2 : ℚ) = 7 by norm_num]
    exact rne64_rep _ ⟨7, 0, by norm_num, by norm_num, by norm_num⟩
  have hbig : (8 : ℚ) ≤ 2 ^ 1024 := by
    calc (8 : ℚ) = 2 ^ 3 := by norm_num
      _ ≤ 2 ^ 1024 := pow_le_pow_right₀ (by norm_num) (by norm_num)
  obtain ⟨v, h1, _, h2, h3⟩ := generate_range s hs (-2) 5 ⟨-2, 0, by norm_num, by norm_num, by norm_num⟩
    ⟨5, 0, by norm_num, by norm_num, by norm_num⟩ (by norm_num)
    (lt_of_lt_of_le (by rw [abs_of_neg (by norm_num)]; norm_num) hbig) (lt_of_lt_of_le (by rw [abs_of_pos (by norm_num)]; norm_num) hbig)
    (lt_of_lt_of_le (by rw [h7]; norm_num) hbig)
  exact ⟨v, h1, h2, h3⟩

end Sia
