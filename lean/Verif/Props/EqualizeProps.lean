import Verif.Lemmas.Float32
import Mathlib.Data.List.GetD
import Verif.Props.BrightnessProps
import Verif.Props.TransplantProps

/-! C83: histogram equalisation in single precision, as the program runs it. -/
namespace Sia

/-- The number a level is rounded down from. -/
def levelValue (n total : Nat) : ℚ := min 255 (rne32 (255 * rne32 (rne32 n / rne32 total)))

theorem levelValue_range (n total : Nat) : 0 ≤ levelValue n total ∧ levelValue n total ≤ 255 := by
  unfold levelValue
  refine ⟨le_min (by norm_num) (rne32_nonneg _ ?_), min_le_left _ _⟩
  refine mul_nonneg (by norm_num) (rne32_nonneg _ (div_nonneg ?_ ?_)) <;> exact rne32_nonneg _ (by positivity)

theorem equalizeLevel_toNat (n total : Nat) : ((equalizeLevel n total).toNat : ℤ) = ⌊levelValue n total⌋ := by
  obtain ⟨h1, h2⟩ := levelValue_range n total
  have h3 : 0 ≤ ⌊levelValue n total⌋ := Int.floor_nonneg.2 h1
  have h4 : ⌊levelValue n total⌋ ≤ 255 := by
    have : (⌊levelValue n total⌋ : ℚ) ≤ 255 := (Int.floor_le _).trans h2
    exact_mod_cast this
  unfold equalizeLevel
  change ((UInt8.ofNat ⌊levelValue n total⌋.toNat).toNat : ℤ) = _
  rw [UInt8.toNat_ofNat', Nat.mod_eq_of_lt (by omega), Int.toNat_of_nonneg h3]

theorem levelValue_mono {n m : Nat} (total : Nat) (h : n ≤ m) : levelValue n total ≤ levelValue m total := by
  unfold levelValue
  refine min_le_min_left _ (rne32_mono (mul_le_mul_of_nonneg_left (rne32_mono ?_) (by norm_num)))
  exact div_le_div_of_nonneg_right (rne32_mono (by exact_mod_cast h)) (rne32_nonneg _ (by positivity))

theorem equalizeLevel_mono {n m : Nat} (total : Nat) (h : n ≤ m) : equalizeLevel n total ≤ equalizeLevel m total := by
  rw [UInt8.le_iff_toNat_le]
  have h1 := equalizeLevel_toNat n total
  have h2 := equalizeLevel_toNat m total
  have h3 := Int.floor_le_floor (levelValue_mono total h)
  omega

theorem rne32_pos_of_one_le (n : Nat) (h : 1 ≤ n) : 0 < rne32 n := by
  have h1 : rne32 ((1 : Nat) : ℚ) = ((1 : Nat) : ℚ) := rne32_nat 1 (by norm_num)
  have h2 : rne32 ((1 : Nat) : ℚ) ≤ rne32 n := rne32_mono (by exact_mod_cast h)
  rw [h1] at h2
  have : (0 : ℚ) < ((1 : Nat) : ℚ) := by norm_num
  linarith

theorem equalizeLevel_top (total : Nat) (h : 1 ≤ total) : equalizeLevel total total = 255 := by
  apply UInt8.toNat_inj.mp
  have h1 := equalizeLevel_toNat total total
  have h2 : levelValue total total = 255 := by
    unfold levelValue
    rw [div_self (rne32_pos_of_one_le total h).ne']
    have e1 : rne32 1 = 1 := by simpa using rne32_nat 1 (by norm_num)
    have e2 : rne32 255 = 255 := by simpa using rne32_nat 255 (by norm_num)
    rw [e1, mul_one, e2, min_self]
  rw [h2] at h1
  have : ⌊(255 : ℚ)⌋ = 255 := by simpa using Int.floor_intCast (R := ℚ) 255
  rw [this] at h1
  have e : (255 : UInt8).toNat = 255 := rfl
  omega

/-- The four roundings together. -/
theorem levelValue_close (n total : Nat) (h1 : 1 ≤ n) (h2 : n ≤ total) (h3 : total < 2 ^ 32) :
    |levelValue n total - 255 * n / total| ≤ 1 / 2 ^ 13 := by
  have hn : (1 : ℚ) ≤ n := by exact_mod_cast h1
  have ht : (1 : ℚ) ≤ total := by exact_mod_cast h1.trans h2
  have hnt : (n : ℚ) ≤ total := by exact_mod_cast h2
  have htm : (total : ℚ) ≤ 2 ^ 32 := by exact_mod_cast h3.le
  set N := (n : ℚ) with hN
  set T := (total : ℚ) with hT
  have a1 := rne32_rel N (by rw [abs_of_pos (by linarith)]; refine le_trans ?_ hn; norm_num)
  have a2 := rne32_rel T (by rw [abs_of_pos (by linarith)]; refine le_trans ?_ ht; norm_num)
  rw [abs_of_pos (by linarith : 0 < N)] at a1
  rw [abs_of_pos (by linarith : 0 < T)] at a2
  rw [abs_le] at a1 a2
  set A := rne32 N with hA
  set B := rne32 T with hB
  have hA0 : 0 < A := by have := rne32_pos_of_one_le n h1; exact this
  have hB0 : 0 < B := by have := rne32_pos_of_one_le total (h1.trans h2); exact this
  have hBm : B ≤ 2 ^ 33 := by
    have : 1 / 2 ^ 24 * T ≤ T := by
      have : (1 : ℚ) / 2 ^ 24 ≤ 1 := by norm_num
      nlinarith
    have e : (2 : ℚ) ^ 33 = 2 * 2 ^ 32 := by norm_num
    rw [e]
    linarith
  have hA1 : 1 ≤ A := by
    have e1 : rne32 ((1 : Nat) : ℚ) = ((1 : Nat) : ℚ) := rne32_nat 1 (by norm_num)
    have e2 : rne32 ((1 : Nat) : ℚ) ≤ A := rne32_mono (by rw [hN]; exact_mod_cast h1)
    rw [e1] at e2
    simpa using e2
  have hq0 : 1 / 2 ^ 33 ≤ A / B := by
    rw [div_le_div_iff₀ (by positivity) hB0]
    linarith
  have hqpos : 0 < A / B := div_pos hA0 hB0
  have a3 := rne32_rel (A / B) (by rw [abs_of_pos hqpos]; refine le_trans ?_ hq0; norm_num)
  rw [abs_of_pos hqpos, abs_le] at a3
  set Q := rne32 (A / B) with hQ
  have hQ0 : 1 / 2 ^ 34 ≤ Q := by
    have : (1 : ℚ) / 2 ^ 34 ≤ A / B - 1 / 2 ^ 24 * (A / B) := by
      have e : A / B - 1 / 2 ^ 24 * (A / B) = (1 - 1 / 2 ^ 24) * (A / B) := by ring
      rw [e]
      refine le_trans ?_ (mul_le_mul_of_nonneg_left hq0 (by norm_num))
      norm_num
    linarith
  have a4 := rne32_rel (255 * Q) (by
    rw [abs_of_pos (by have : (0 : ℚ) < 1 / 2 ^ 34 := by positivity
                       linarith)]
    refine le_trans ?_ (mul_le_mul_of_nonneg_left hQ0 (by norm_num))
    norm_num)
  have hQp : 0 < Q := lt_of_lt_of_le (by positivity) hQ0
  rw [abs_of_pos (by linarith : 0 < 255 * Q), abs_le] at a4
  set Y := rne32 (255 * Q) with hY
  -- the share lies in (0, 1]
  set x := N / T with hx
  have hx1 : x ≤ 1 := by rw [hx, div_le_one (by linarith)]; exact hnt
  have hx0 : 0 < x := div_pos (by linarith) (by linarith)
  have hN' : N = x * T := by rw [hx]; field_simp
  have hAB1 : A / B ≤ x * ((1 + 1 / 2 ^ 24) / (1 - 1 / 2 ^ 24)) := by
    rw [div_le_iff₀ hB0]
    have e1 : A ≤ x * T * (1 + 1 / 2 ^ 24) := by rw [← hN']; linarith
    have e2 : (1 - 1 / 2 ^ 24) * T ≤ B := by linarith
    calc A ≤ x * T * (1 + 1 / 2 ^ 24) := e1
      _ = x * ((1 + 1 / 2 ^ 24) / (1 - 1 / 2 ^ 24)) * ((1 - 1 / 2 ^ 24) * T) := by norm_num; ring
      _ ≤ x * ((1 + 1 / 2 ^ 24) / (1 - 1 / 2 ^ 24)) * B := mul_le_mul_of_nonneg_left e2 (by norm_num; linarith)
  have hAB2 : x * ((1 - 1 / 2 ^ 24) / (1 + 1 / 2 ^ 24)) ≤ A / B := by
    rw [le_div_iff₀ hB0]
    have e1 : x * T * (1 - 1 / 2 ^ 24) ≤ A := by rw [← hN']; linarith
    have e2 : B ≤ (1 + 1 / 2 ^ 24) * T := by linarith
    calc x * ((1 - 1 / 2 ^ 24) / (1 + 1 / 2 ^ 24)) * B ≤ x * ((1 - 1 / 2 ^ 24) / (1 + 1 / 2 ^ 24)) * ((1 + 1 / 2 ^ 24) * T) :=
          mul_le_mul_of_nonneg_left e2 (by norm_num; linarith)
      _ = x * T * (1 - 1 / 2 ^ 24) := by norm_num; ring
      _ ≤ A := e1
  have e : 255 * N / T = 255 * x := by rw [hx]; ring
  rw [e]
  have hmain : |Y - 255 * x| ≤ 1 / 2 ^ 13 := by
    rw [abs_le]
    norm_num at *
    constructor <;> linarith
  change |min 255 Y - 255 * x| ≤ _
  rw [abs_le] at hmain ⊢
  constructor
  · rcases le_total 255 Y with h | h
    · rw [min_eq_left h]
      have : (0 : ℚ) ≤ 1 / 2 ^ 13 := by norm_num
      linarith
    · rw [min_eq_right h]; exact hmain.1
  · exact le_trans (sub_le_sub_right (min_le_right _ _) _) hmain.2

theorem equalizeSingle_length (raw : List UInt8) : (equalizeSingle raw).length = raw.length := List.length_map _

theorem equalizeSingle_getElem (raw : List UInt8) (i : Nat) (hi : i < raw.length) :
    (equalizeSingle raw)[i]'(by rw [equalizeSingle_length]; exact hi) = equalizeLevel (cumulative raw raw[i]) raw.length := by
  unfold equalizeSingle
  rw [List.getElem_map]

/-- C83: in single precision each sample becomes the share of the samples that do not exceed it, times 255, with an error of at most `2^-13`,
rounded down. -/
theorem equalizeSingle_formula (raw : List UInt8) (hlen : raw.length < 2 ^ 32) (i : Nat) (hi : i < raw.length) :
    ∃ h : i < (equalizeSingle raw).length, ∃ y : ℚ, |y - 255 * (raw.countP fun w => decide (w ≤ raw[i])) / raw.length| ≤ 1 / 2 ^ 13 ∧
      ((equalizeSingle raw)[i].toNat : ℤ) = ⌊y⌋ := by
  refine ⟨by rw [equalizeSingle_length]; exact hi, levelValue (cumulative raw raw[i]) raw.length, ?_, ?_⟩
  · refine levelValue_close _ _ ?_ (cumulative_le _ _) hlen
    unfold cumulative
    exact List.countP_pos_iff.2 ⟨raw[i], List.getElem_mem hi, by simp⟩
  · rw [equalizeSingle_getElem raw i hi]
    exact equalizeLevel_toNat _ _

/-- C83: hence it differs from the documented formula by at most one level. -/
theorem equalizeSingle_near (raw : List UInt8) (hlen : raw.length < 2 ^ 32) (i : Nat) (hi : i < raw.length) :
    |(((equalizeSingle raw).getD i 0).toNat : ℤ) - ((equalizeExact raw).getD i 0).toNat| ≤ 1 := by
  obtain ⟨h1, y, hy, hf⟩ := equalizeSingle_formula raw hlen i hi
  obtain ⟨h2, e1, e2, -, -⟩ := equalizeExact_spec raw i hi
  rw [List.getD_eq_getElem _ _ h1, List.getD_eq_getElem _ _ h2, hf]
  set x := 255 * ((raw.countP fun w => decide (w ≤ raw[i]) : Nat) : ℚ) / (raw.length : ℚ) with hx
  have f1 := Int.floor_le y
  have f2 := Int.lt_floor_add_one y
  rw [abs_le] at hy
  have g : (1 : ℚ) / 2 ^ 13 < 1 := by norm_num
  have k1 : (⌊y⌋ : ℚ) < (((equalizeExact raw)[i].toNat : ℤ) : ℚ) + 2 := by push_cast; linarith
  have k2 : (((equalizeExact raw)[i].toNat : ℤ) : ℚ) < (⌊y⌋ : ℚ) + 2 := by push_cast; linarith
  have k1' : ⌊y⌋ < ((equalizeExact raw)[i].toNat : ℤ) + 2 := by exact_mod_cast k1
  have k2' : ((equalizeExact raw)[i].toNat : ℤ) < ⌊y⌋ + 2 := by exact_mod_cast k2
  rw [abs_le]
  constructor <;> omega

/-- C83: the order of samples is kept, and the brightest sample becomes 255. -/
theorem equalizeSingle_order (raw : List UInt8) (i j : Nat) (hi : i < raw.length) (hj : j < raw.length) :
    (raw[i] ≤ raw[j] → (equalizeSingle raw).getD i 0 ≤ (equalizeSingle raw).getD j 0) ∧
    ((∀ w ∈ raw, w ≤ raw[i]) → (equalizeSingle raw).getD i 0 = 255) := by
  rw [List.getD_eq_getElem _ _ (by rw [equalizeSingle_length]; exact hi), List.getD_eq_getElem _ _ (by rw [equalizeSingle_length]; exact hj),
    equalizeSingle_getElem raw i hi, equalizeSingle_getElem raw j hj]
  refine ⟨fun h => equalizeLevel_mono _ (cumulative_mono raw _ _ h), fun h => ?_⟩
  have : cumulative raw raw[i] = raw.length := by
    unfold cumulative
    rw [List.countP_eq_length]
    intro w hw
    simpa using h w hw
  rw [this]
  exact equalizeLevel_top _ (by omega)

/-- An increasing change of the samples does not change how many samples are at most as bright. -/
theorem cumulative_map (raw : List UInt8) (p : UInt8 → UInt8) (h : ∀ v ∈ raw, ∀ w ∈ raw, v < w → p v < p w) (v : UInt8) (hv : v ∈ raw) :
    cumulative (raw.map p) (p v) = cumulative raw v := by
  unfold cumulative
  rw [List.countP_map]
  apply List.countP_congr
  intro w hw
  simp only [Function.comp, decide_eq_true_eq]
  constructor
  · intro hle
    by_contra hlt
    have h1 : p v < p w := h v hv w hw (UInt8.not_le.mp hlt)
    exact absurd hle (UInt8.not_le.mpr h1)
  · intro hle
    rcases UInt8.lt_or_eq_of_le hle with hlt | rfl
    · exact UInt8.le_of_lt (h w hw v hv hlt)
    · exact UInt8.le_refl _

/-- C83: only the order of the samples matters. -/
theorem equalizeSingle_orderOnly (raw : List UInt8) (p : UInt8 → UInt8) (h : ∀ v ∈ raw, ∀ w ∈ raw, v < w → p v < p w) :
    equalizeSingle (raw.map p) = equalizeSingle raw := by
  unfold equalizeSingle
  rw [List.map_map]
  apply List.map_congr_left
  intro v hv
  simp only [Function.comp, List.length_map, cumulative_map raw p h v hv]

/-- C83: equalising an equalised picture changes nothing. -/
theorem equalizeSingle_idempotent (raw : List UInt8) : equalizeSingle (equalizeSingle raw) = equalizeSingle raw := by
  set f : UInt8 → UInt8 := fun v => equalizeLevel (cumulative raw v) raw.length with hf
  have hmono : ∀ v w, v ≤ w → f v ≤ f w := fun v w h => equalizeLevel_mono _ (cumulative_mono raw v w h)
  have e : equalizeSingle raw = raw.map f := rfl
  rw [e]
  conv_lhs => unfold equalizeSingle
  rw [List.map_map]
  apply List.map_congr_left
  intro v hv
  simp only [Function.comp, List.length_map]
  -- the brightest sample that becomes at most as bright as `v`
  obtain ⟨w, hw, hwv, hmax⟩ : ∃ w ∈ raw, f w ≤ f v ∧ ∀ x ∈ raw, f x ≤ f v → x ≤ w := by
    obtain ⟨w, hw, hm⟩ := Finset.exists_max_image (raw.toFinset.filter fun x => f x ≤ f v) (fun x => x.toNat) ⟨v, by simp [hv]⟩
    rw [Finset.mem_filter, List.mem_toFinset] at hw
    exact ⟨w, hw.1, hw.2, fun x hx h => UInt8.le_iff_toNat_le.2 (hm x (Finset.mem_filter.2 ⟨List.mem_toFinset.2 hx, h⟩))⟩
  have hc : cumulative (raw.map f) (f v) = cumulative raw w := by
    unfold cumulative
    rw [List.countP_map]
    apply List.countP_congr
    intro x hx
    simp only [Function.comp, decide_eq_true_eq]
    exact ⟨hmax x hx, fun h => UInt8.le_trans (hmono _ _ h) hwv⟩
  rw [hc]
  exact UInt8.le_antisymm hwv (hmono _ _ (hmax v hv (UInt8.le_refl _)))

theorem cumulative_getD (raw : List UInt8) (v : UInt8) :
    cumulative raw v = ((List.range raw.length).countP fun j => decide ((raw.getD j 0).toNat ≤ v.toNat)) := by
  have e : raw = (List.range raw.length).map fun j => raw.getD j 0 := by
    apply List.ext_getElem (by simp)
    intro i h1 h2
    rw [List.getElem_map, List.getElem_range, List.getD_eq_getElem _ _ h1]
  unfold cumulative
  conv_lhs => rw [e]
  rw [List.countP_map]
  apply List.countP_congr
  intro j _
  simp only [Function.comp, decide_eq_true_eq, UInt8.le_iff_toNat_le]

/-- How the number of samples of at most a given sample changes when no sample moves by more than `T`. -/
theorem cumulative_moved (raw raw' : List UInt8) (T w : Nat) (hl : raw'.length = raw.length)
    (hT : ∀ j < raw.length, (raw.getD j 0).toNat ≤ (raw'.getD j 0).toNat + T ∧ (raw'.getD j 0).toNat ≤ (raw.getD j 0).toNat + T)
    (hw : ∀ lo, raw.countP (fun v => decide (lo ≤ v.toNat ∧ v.toNat < lo + 2 * T)) ≤ w) (i : Nat) (hi : i < raw.length) :
    cumulative raw' (raw'.getD i 0) ≤ cumulative raw (raw.getD i 0) + w ∧
    cumulative raw (raw.getD i 0) ≤ cumulative raw' (raw'.getD i 0) + w := by
  have hw' : ∀ lo, (List.range raw.length).countP (fun j => decide (lo ≤ (raw.getD j 0).toNat ∧ (raw.getD j 0).toNat < lo + 2 * T)) ≤ w := by
    intro lo
    refine le_trans (le_of_eq ?_) (hw lo)
    have e : raw = (List.range raw.length).map fun j => raw.getD j 0 := by
      apply List.ext_getElem (by simp)
      intro i h1 h2
      rw [List.getElem_map, List.getElem_range, List.getD_eq_getElem _ _ h1]
    conv_rhs => rw [e]
    rw [List.countP_map]
    rfl
  have split : ∀ (l : List Nat) (p q r : Nat → Bool), (∀ j ∈ l, p j = true → q j = true ∨ r j = true) →
      l.countP p ≤ l.countP q + l.countP r := by
    intro l p q r
    induction l with
    | nil => intro _; simp
    | cons x xs ih =>
      intro h
      have h1 := ih fun j hj => h j (by simp [hj])
      have h2 := h x (by simp)
      simp only [List.countP_cons]
      cases hp : p x <;> cases hq : q x <;> cases hr : r x <;> simp_all <;> omega
  rw [cumulative_getD, cumulative_getD, hl]
  obtain ⟨t1, t2⟩ := hT i hi
  constructor
  · refine (split _ _ _ _ ?_).trans (Nat.add_le_add_left (hw' ((raw.getD i 0).toNat + 1)) _)
    intro j hj h
    obtain ⟨s1, s2⟩ := hT j (List.mem_range.mp hj)
    simp only [decide_eq_true_eq] at h ⊢
    omega
  · refine (split _ _ _ _ ?_).trans (Nat.add_le_add_left (hw' ((raw.getD i 0).toNat + 1 - 2 * T)) _)
    intro j hj h
    obtain ⟨s1, s2⟩ := hT j (List.mem_range.mp hj)
    simp only [decide_eq_true_eq] at h ⊢
    omega

/-- C83: equalisation is stable. If no sample moves by more than `T` and no `2 T` consecutive grey levels hold more than the share `q` of
the samples, then no equalised sample moves by more than `255 q + 1` (and `2^-12` for the rounding). -/
theorem equalizeSingle_stable (raw raw' : List UInt8) (T : Nat) (q : ℝ) (hl : raw'.length = raw.length) (hlen : raw.length < 2 ^ 32)
    (hT : ∀ j < raw.length, (raw.getD j 0).toNat ≤ (raw'.getD j 0).toNat + T ∧ (raw'.getD j 0).toNat ≤ (raw.getD j 0).toNat + T)
    (hq : ∀ lo, (raw.countP (fun v => decide (lo ≤ v.toNat ∧ v.toNat < lo + 2 * T)) : ℝ) ≤ q * raw.length) (i : Nat)
    (hi : i < raw.length) :
    |(((equalizeSingle raw).getD i 0).toNat : ℝ) - ((equalizeSingle raw').getD i 0).toNat| ≤ 255 * q + 1 + 1 / 2 ^ 12 := by
  have hN : (0 : ℝ) < raw.length := by exact_mod_cast (by omega : 0 < raw.length)
  have hq0 : 0 ≤ q := by
    have h0 := hq 0
    by_contra hc
    push Not at hc
    have h1 : q * raw.length < 0 := mul_neg_of_neg_of_pos hc hN
    have h2 : (0 : ℝ) ≤ (raw.countP (fun v => decide (0 ≤ v.toNat ∧ v.toNat < 0 + 2 * T)) : ℝ) := by positivity
    linarith
  set w := ⌊q * raw.length⌋₊ with hw
  have hwq : (w : ℝ) ≤ q * raw.length := Nat.floor_le (by positivity)
  obtain ⟨a1, a2⟩ := cumulative_moved raw raw' T w hl hT (fun lo => Nat.le_floor (hq lo)) i hi
  have pos : ∀ (r : List UInt8), i < r.length → 1 ≤ cumulative r (r.getD i 0) := by
    intro r hr
    rw [List.getD_eq_getElem _ _ hr]
    unfold cumulative
    exact List.countP_pos_iff.2 ⟨r[i], List.getElem_mem hr, by simp⟩
  have c1 := levelValue_close _ _ (pos raw hi) (cumulative_le raw _) hlen
  have c2 := levelValue_close _ _ (pos raw' (by omega)) (cumulative_le raw' _) (by omega)
  have l1 : (((equalizeSingle raw).getD i 0).toNat : ℤ) = ⌊levelValue (cumulative raw (raw.getD i 0)) raw.length⌋ := by
    rw [List.getD_eq_getElem _ _ (by rw [equalizeSingle_length]; exact hi), equalizeSingle_getElem raw i hi, equalizeLevel_toNat,
      List.getD_eq_getElem _ _ hi]
  have l2 : (((equalizeSingle raw').getD i 0).toNat : ℤ) = ⌊levelValue (cumulative raw' (raw'.getD i 0)) raw'.length⌋ := by
    rw [List.getD_eq_getElem _ _ (by rw [equalizeSingle_length]; omega), equalizeSingle_getElem raw' i (by omega), equalizeLevel_toNat,
      List.getD_eq_getElem _ _ (by omega)]
  rw [hl] at c2 l2
  set y1 := levelValue (cumulative raw (raw.getD i 0)) raw.length
  set y2 := levelValue (cumulative raw' (raw'.getD i 0)) raw.length
  set n1 := cumulative raw (raw.getD i 0)
  set n2 := cumulative raw' (raw'.getD i 0)
  have l1' : (((equalizeSingle raw).getD i 0).toNat : ℝ) = ((⌊y1⌋ : ℤ) : ℝ) := by rw [← l1]; push_cast; rfl
  have l2' : (((equalizeSingle raw').getD i 0).toNat : ℝ) = ((⌊y2⌋ : ℤ) : ℝ) := by rw [← l2]; push_cast; rfl
  rw [l1', l2']
  have f1 : ((⌊y1⌋ : ℤ) : ℝ) ≤ (y1 : ℝ) := by exact_mod_cast Int.floor_le y1
  have f2 : ((⌊y2⌋ : ℤ) : ℝ) ≤ (y2 : ℝ) := by exact_mod_cast Int.floor_le y2
  have f3 : (y1 : ℝ) < ((⌊y1⌋ : ℤ) : ℝ) + 1 := by exact_mod_cast Int.lt_floor_add_one y1
  have f4 : (y2 : ℝ) < ((⌊y2⌋ : ℤ) : ℝ) + 1 := by exact_mod_cast Int.lt_floor_add_one y2
  have c1' : |(y1 : ℝ) - 255 * n1 / raw.length| ≤ 1 / 2 ^ 13 := by
    have h := (Rat.cast_le (K := ℝ)).2 c1
    push_cast at h
    exact h
  have c2' : |(y2 : ℝ) - 255 * n2 / raw.length| ≤ 1 / 2 ^ 13 := by
    have h := (Rat.cast_le (K := ℝ)).2 c2
    push_cast at h
    exact h
  rw [abs_le] at c1' c2'
  have b1 : (n2 : ℝ) ≤ n1 + q * raw.length := by
    have : (n2 : ℝ) ≤ n1 + w := by exact_mod_cast a1
    linarith
  have b2 : (n1 : ℝ) ≤ n2 + q * raw.length := by
    have : (n1 : ℝ) ≤ n2 + w := by exact_mod_cast a2
    linarith
  have d1 : 255 * (n2 : ℝ) / raw.length ≤ 255 * n1 / raw.length + 255 * q := by
    rw [div_add' _ _ _ hN.ne', div_le_div_iff_of_pos_right hN]
    nlinarith
  have d2 : 255 * (n1 : ℝ) / raw.length ≤ 255 * n2 / raw.length + 255 * q := by
    rw [div_add' _ _ _ hN.ne', div_le_div_iff_of_pos_right hN]
    nlinarith
  have e : (1 : ℝ) / 2 ^ 12 = 1 / 2 ^ 13 + 1 / 2 ^ 13 := by norm_num
  rw [abs_le, e]
  constructor <;> linarith

/-- C83: a level one above the documented formula: 972549 of 1000000 samples (a channel of side 1000) are at most as bright. -/
example : equalizeLevel 972549 1000000 = 248 ∧ 255 * 972549 / 1000000 = 247 := by decide +kernel

end Sia
