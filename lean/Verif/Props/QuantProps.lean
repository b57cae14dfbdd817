import Verif.Lemmas.QuantLemmas
import Verif.Spec.QuantSpec

/-! C01, C03, C04, C05: three-bit quantization. -/
namespace Sia
open FloatOps

/-- The cell of a real feature. -/
theorem quantizeOne_real_eq (step f : ℝ) (hs : 0 < step) (h : |f| ≤ 2 ^ 62 * step) : quantizeOne step f = ⌊f / step⌋ := by
  rw [quantizeOne_real]
  have h1 : |f / step| ≤ 2 ^ 62 := by rw [abs_div, abs_of_pos hs, div_le_iff₀ hs]; exact h
  obtain ⟨ha, hb⟩ := abs_le.mp h1
  have h2 : -2 ^ 62 ≤ ⌊f / step⌋ := Int.le_floor.mpr (by push_cast; linarith)
  have h3 : ⌊f / step⌋ ≤ 2 ^ 62 := by
    have : (⌊f / step⌋ : ℝ) ≤ ((2 ^ 62 : ℤ) : ℝ) := le_trans (Int.floor_le _) (by push_cast; linarith)
    exact_mod_cast this
  unfold clampZ i64Min i64Max
  rw [if_neg (by omega), if_neg (by omega)]

private theorem not_min (step f : ℝ) (hs : 0 < step) (h : |f| ≤ 2 ^ 62 * step) : quantizeOne step f ≠ i64Min := by
  rw [quantizeOne_real_eq step f hs h]
  have h1 : |f / step| ≤ 2 ^ 62 := by rw [abs_div, abs_of_pos hs, div_le_iff₀ hs]; exact h
  have h2 : -2 ^ 62 ≤ ⌊f / step⌋ := Int.le_floor.mpr (by push_cast; linarith [(abs_le.mp h1).1])
  unfold i64Min; omega

private theorem cell_bounds (step f : ℝ) (hs : 0 < step) :
    (⌊f / step⌋ : ℝ) * step ≤ f ∧ f < ((⌊f / step⌋ : ℝ) + 1) * step := by
  constructor
  · have := Int.floor_le (f / step)
    rwa [le_div_iff₀ hs] at this
  · have := Int.lt_floor_add_one (f / step)
    rwa [div_lt_iff₀ hs] at this

theorem cell_unique (step f : ℝ) (hs : 0 < step) (q : ℤ) (h1 : (q : ℝ) * step ≤ f)
    (h2 : f < ((q : ℝ) + 1) * step) : ⌊f / step⌋ = q := by
  rw [Int.floor_eq_iff]
  constructor
  · rwa [le_div_iff₀ hs]
  · rwa [div_lt_iff₀ hs]

/-! ### C04 -/

/-- C04 specification of one feature: its cell and its three bits. -/
structure QuantSpec (step f : ℝ) (q : ℤ) (bits : List Bool) : Prop where
  cell_lower : (q : ℝ) * step ≤ f
  cell_upper : f < ((q : ℝ) + 1) * step
  bits_eq : bits = [decide (2 ≤ (q - 1) % 4), decide ((q - 1) % 2 = 1), decide ((q : ℝ) * step + step / 2 ≤ f)]

/-- C04: `three_bit_quantization` returns, in order, the cell of each feature and the three bits of each feature. -/
theorem quantization_contract (step : ℝ) (hs : 0 < step) (fs : List ℝ) (hr : ∀ f ∈ fs, |f| ≤ 2 ^ 62 * step) :
    ∃ q p, threeBitQuantization fs step = .ok (q, p) ∧ q.length = fs.length ∧ p.length = 3 * fs.length ∧
      ∀ i (hi : i < fs.length) (hq : i < q.length), QuantSpec step fs[i] q[i] ((p.drop (3 * i)).take 3) := by
  refine ⟨_, _, threeBitQuantization_ok fs step (fun f hf => not_min step f hs (hr f hf)), by simp, ?_, ?_⟩
  · induction fs with
    | nil => rfl
    | cons f fs ih =>
      rw [List.flatMap_cons, List.length_append, ih (fun f hf => hr f (by simp [hf]))]
      simp [bits3]; ring
  · intro i hi hq
    have hb : ((fs.flatMap (bits3 step)).drop (3 * i)).take 3 = bits3 step fs[i] := by
      clear hq hr
      induction fs generalizing i with
      | nil => simp at hi
      | cons f fs ih =>
        rw [List.flatMap_cons]
        cases i with
        | zero => simp [bits3]
        | succ i =>
          rw [show 3 * (i + 1) = 3 * i + (bits3 step f).length by simp [bits3]; ring]
          rw [← List.drop_drop, List.drop_drop, Nat.add_comm, ← List.drop_drop, List.drop_left]
          simpa using ih i (by simpa using hi)
    have hfr := hr fs[i] (List.getElem_mem hi)
    have he := quantizeOne_real_eq step fs[i] hs hfr
    obtain ⟨c1, c2⟩ := cell_bounds step fs[i] hs
    simp only [List.getElem_map]
    refine ⟨by rw [he]; exact c1, by rw [he]; exact c2, ?_⟩
    rw [hb]
    unfold bits3
    rw [(twoBits_spec _).1, (twoBits_spec _).2, upperHalf_real]
    congr 4
    apply propext
    rw [mul_add, mul_comm step (quantizeOne step fs[i] : ℝ)]
    constructor <;> intro h <;> linarith

example : ∃ step : ℝ, 0 < step ∧ ∀ f ∈ ([1.2, -7.5, 0] : List ℝ), |f| ≤ 2 ^ 62 * step :=
  ⟨1, by norm_num, by intro f hf; simp at hf; rcases hf with rfl | rfl | rfl <;> norm_num [abs_le]⟩

/-! ### C01 -/

/-- One feature: the restored value lies in the cell of the clean value. -/
theorem restored_cell (step f g : ℝ) (hs : 0 < step) (hr : |f| ≤ 2 ^ 61 * step) (hn : |g - f| ≤ step) :
    quantizeOne step (restored step (bits3 step f) g) = quantizeOne step f := by
  have h2s : (2 : ℝ) ^ 61 * step + 2 * step ≤ 2 ^ 62 * step := by nlinarith
  obtain ⟨n1, n2⟩ := abs_le.mp hn
  obtain ⟨r1, r2⟩ := abs_le.mp hr
  have hf : |f| ≤ 2 ^ 62 * step := by linarith
  have hg : |g| ≤ 2 ^ 62 * step := abs_le.mpr ⟨by linarith, by linarith⟩
  have hgp : |g + step| ≤ 2 ^ 62 * step := abs_le.mpr ⟨by linarith, by linarith⟩
  have hgm : |g - step| ≤ 2 ^ 62 * step := abs_le.mpr ⟨by linarith, by linarith⟩
  have eqf := quantizeOne_real_eq step f hs hf
  have eqg := quantizeOne_real_eq step g hs hg
  set q := ⌊f / step⌋ with hq
  set r := ⌊g / step⌋ with hrr
  obtain ⟨f1, f2⟩ := cell_bounds step f hs
  obtain ⟨g1, g2⟩ := cell_bounds step g hs
  rw [← hq] at f1 f2
  rw [← hrr] at g1 g2
  have hrq1 : r ≤ q + 1 := by
    by_contra h
    push Not at h
    have : ((q + 2 : ℤ) : ℝ) ≤ r := by exact_mod_cast (by omega : q + 2 ≤ r)
    push_cast at this
    nlinarith
  have hrq2 : q - 1 ≤ r := by
    by_contra h
    push Not at h
    have : (r : ℝ) ≤ ((q - 2 : ℤ) : ℝ) := by exact_mod_cast (by omega : r ≤ q - 2)
    push_cast at this
    nlinarith
  unfold restored bits3
  dsimp only
  rw [eqf, eqg, restoreOne_cells step g q r _ _ hrq1 hrq2, upperHalf_real, upperHalf_real]
  have hcases : r = q - 1 ∨ r = q ∨ r = q + 1 := by omega
  rcases hcases with hc | hc | hc
  · have hcR : (r : ℝ) = q - 1 := by rw [hc]; push_cast; ring
    have hcond : r = q - 1 ∧ (decide (step * ((q : ℝ) + 1 / 2) ≤ f) = false ∨
        decide (step * ((r : ℝ) + 1 / 2) ≤ g) = true) := by
      refine ⟨hc, ?_⟩
      by_cases h : step * ((q : ℝ) + 1 / 2) ≤ f
      · right; rw [decide_eq_true_iff, hcR]; nlinarith
      · left; simpa using h
    rw [if_pos hcond]
    show quantizeOne step (g + step) = q
    rw [quantizeOne_real_eq step _ hs hgp]
    apply cell_unique step _ hs <;> rw [hcR] at g1 g2 <;> nlinarith
  · rw [if_neg (by omega), if_neg (by omega), eqg, hc]
  · have hcR : (r : ℝ) = q + 1 := by rw [hc]; push_cast; ring
    have hcond : r = q + 1 ∧ (decide (step * ((q : ℝ) + 1 / 2) ≤ f) = true ∨
        decide (step * ((r : ℝ) + 1 / 2) ≤ g) = false) := by
      refine ⟨hc, ?_⟩
      by_cases h : step * ((q : ℝ) + 1 / 2) ≤ f
      · left; simpa using h
      · right; rw [decide_eq_false_iff_not, hcR]; intro h'; apply h; nlinarith
    rw [if_neg (by omega), if_pos hcond]
    show quantizeOne step (g - step) = q
    rw [quantizeOne_real_eq step _ hs hgm]
    apply cell_unique step _ hs <;> rw [hcR] at g1 g2 <;> nlinarith

theorem chunks3_bits3 {F : Type} [FloatOps F] (fs : List F) (step : F) :
    chunks 3 (fs.flatMap (bits3 step)) = fs.map (bits3 step) := chunks3_flatMap_bits3 fs step

/-- C01: in real arithmetic, noise of at most one step on every feature is undone exactly. -/
theorem dequantization_undoes_noise (step : ℝ) (hs : 0 < step) (fs gs : List ℝ)
    (hr : ∀ f ∈ fs, |f| ≤ 2 ^ 61 * step) (hn : List.Forall₂ (fun f g => |g - f| ≤ step) fs gs) :
    ∃ q p, threeBitQuantization fs step = .ok (q, p) ∧ threeBitDequantization gs p step = .ok q := by
  have hlen := hn.length_eq
  have hf62 : ∀ f ∈ fs, |f| ≤ 2 ^ 62 * step := fun f hf => le_trans (hr f hf) (by nlinarith)
  have hg62 : ∀ g ∈ gs, |g| ≤ 2 ^ 62 * step := by
    intro g hg
    obtain ⟨i, hi, rfl⟩ := List.getElem_of_mem hg
    have h1 := hn.get (by omega) hi
    have h2 := hr fs[i] (List.getElem_mem (by omega))
    simp only [List.get_eq_getElem] at h1
    have : |gs[i]| ≤ |gs[i] - fs[i]| + |fs[i]| := by
      have := abs_add_le (gs[i] - fs[i]) fs[i]; simpa using this
    nlinarith
  refine ⟨_, _, threeBitQuantization_ok fs step (fun f hf => not_min step f hs (hf62 f hf)), ?_⟩
  have hpl : (fs.flatMap (bits3 step)).length = 3 * fs.length := by
    clear hn hr hlen hf62
    induction fs with
    | nil => rfl
    | cons f fs ih => rw [List.flatMap_cons, List.length_append, ih]; simp [bits3]; ring
  rw [threeBitDequantization_ok gs _ step (fun g hg => not_min step g hs (hg62 g hg)) (by rw [hpl]; omega)
    (by rw [hpl]; omega), chunks3_bits3]
  congr 1
  clear hg62 hpl hlen hf62
  induction hn with
  | nil => rfl
  | cons h _ ih =>
    simp only [List.map_cons, List.zipWith_cons_cons, List.cons.injEq]
    exact ⟨restored_cell step _ _ hs (hr _ (by simp)) h, ih (fun f hf => hr f (by simp [hf]))⟩

/-- Non-trivial instance: three features, two of which change cell. -/
example : ∃ q p, threeBitQuantization [1.2, -7.5, 0] (1 : ℝ) = .ok (q, p) ∧
    threeBitDequantization [0.2, -6.5, 0.9] p (1 : ℝ) = .ok q :=
  dequantization_undoes_noise 1 (by norm_num) _ _
    (by intro f hf; simp at hf; rcases hf with rfl | rfl | rfl <;> norm_num [abs_le])
    (by refine .cons ?_ (.cons ?_ (.cons ?_ .nil)) <;> norm_num [abs_le])

/-! ### C03 -/

/-- Quantize then dequantize one feature. -/
theorem one_feature (step f g : ℝ) (hs : 0 < step) (hf : |f| ≤ 2 ^ 62 * step) (hg : |g| ≤ 2 ^ 62 * step) :
    threeBitQuantization [f] step = .ok ([quantizeOne step f], bits3 step f) ∧
    threeBitDequantization [g] (bits3 step f) step = .ok [quantizeOne step (restored step (bits3 step f) g)] := by
  have h1 := threeBitQuantization_ok [f] step (by simpa using not_min step f hs hf)
  have h2 := threeBitDequantization_ok [g] (bits3 step f) step (by simpa using not_min step g hs hg) (by simp [bits3])
    (by simp [bits3])
  refine ⟨by simpa using h1, ?_⟩
  rw [h2, chunks_short (bits3 step f) (by simp [bits3]) (by simp [bits3])]
  rfl

/-- C03: noise slightly above one step upwards can be restored to a wrong cell. -/
theorem tolerance_tight_up (step ε : ℝ) (hs : 0 < step) (hε : 0 < ε) :
    ∃ f g q p, |g - f| ≤ (1 + ε) * step ∧ f < g ∧ threeBitQuantization [f] step = .ok ([q], p) ∧
      threeBitDequantization [g] p step = .ok [q + 1] := by
  set e := min ε (1 / 4) with he
  have he0 : 0 < e := lt_min hε (by norm_num)
  have he1 : e ≤ 1 / 4 := min_le_right _ _
  have heε : e ≤ ε := min_le_left _ _
  have hf : |(1 / 2 - e / 2) * step| ≤ 2 ^ 62 * step := by
    rw [abs_le]; constructor <;> nlinarith
  have hg : |(3 / 2 + e / 2) * step| ≤ 2 ^ 62 * step := by
    rw [abs_le]; constructor <;> nlinarith
  obtain ⟨h1, h2⟩ := one_feature step _ _ hs hf hg
  refine ⟨(1 / 2 - e / 2) * step, (3 / 2 + e / 2) * step, 0, bits3 step ((1 / 2 - e / 2) * step), ?_, by nlinarith, ?_, ?_⟩
  · rw [abs_le]; constructor <;> nlinarith
  · rw [h1, quantizeOne_real_eq step _ hs hf, cell_unique step _ hs 0 (by push_cast; nlinarith) (by push_cast; nlinarith)]
  · rw [h2]
    have eqf : quantizeOne step ((1 / 2 - e / 2) * step) = 0 := by
      rw [quantizeOne_real_eq step _ hs hf, cell_unique step _ hs 0 (by push_cast; nlinarith) (by push_cast; nlinarith)]
    have eqg : quantizeOne step ((3 / 2 + e / 2) * step) = 1 := by
      rw [quantizeOne_real_eq step _ hs hg, cell_unique step _ hs 1 (by push_cast; nlinarith) (by push_cast; nlinarith)]
    have hres : restored step (bits3 step ((1 / 2 - e / 2) * step)) ((3 / 2 + e / 2) * step) =
        (3 / 2 + e / 2) * step := by
      unfold restored bits3
      dsimp only
      rw [eqf, eqg, restoreOne_cells step _ 0 1 _ _ (by omega) (by omega), upperHalf_real, upperHalf_real]
      rw [if_neg (by omega), if_neg]
      rintro ⟨_, h⟩
      rcases h with h | h
      · rw [decide_eq_true_iff] at h; push_cast at h; nlinarith
      · rw [decide_eq_false_iff_not] at h; apply h; push_cast; nlinarith
    rw [hres, eqg]; rfl

/-- C03: and downwards. -/
theorem tolerance_tight_down (step ε : ℝ) (hs : 0 < step) (hε : 0 < ε) :
    ∃ f g q p, |g - f| ≤ (1 + ε) * step ∧ g < f ∧ threeBitQuantization [f] step = .ok ([q], p) ∧
      threeBitDequantization [g] p step = .ok [q - 1] := by
  set e := min ε (1 / 4) with he
  have he0 : 0 < e := lt_min hε (by norm_num)
  have he1 : e ≤ 1 / 4 := min_le_right _ _
  have heε : e ≤ ε := min_le_left _ _
  have hf : |1 / 2 * step| ≤ 2 ^ 62 * step := by
    rw [abs_le]; constructor <;> nlinarith
  have hg : |(-1 / 2 - e) * step| ≤ 2 ^ 62 * step := by
    rw [abs_le]; constructor <;> nlinarith
  obtain ⟨h1, h2⟩ := one_feature step _ _ hs hf hg
  refine ⟨1 / 2 * step, (-1 / 2 - e) * step, 0, bits3 step (1 / 2 * step), ?_, by nlinarith, ?_, ?_⟩
  · rw [abs_le]; constructor <;> nlinarith
  · rw [h1, quantizeOne_real_eq step _ hs hf, cell_unique step _ hs 0 (by push_cast; nlinarith) (by push_cast; nlinarith)]
  · rw [h2]
    have eqf : quantizeOne step (1 / 2 * step) = 0 := by
      rw [quantizeOne_real_eq step _ hs hf, cell_unique step _ hs 0 (by push_cast; nlinarith) (by push_cast; nlinarith)]
    have eqg : quantizeOne step ((-1 / 2 - e) * step) = -1 := by
      rw [quantizeOne_real_eq step _ hs hg, cell_unique step _ hs (-1) (by push_cast; nlinarith) (by push_cast; nlinarith)]
    have hres : restored step (bits3 step (1 / 2 * step)) ((-1 / 2 - e) * step) = (-1 / 2 - e) * step := by
      unfold restored bits3
      dsimp only
      rw [eqf, eqg, restoreOne_cells step _ 0 (-1) _ _ (by omega) (by omega), upperHalf_real, upperHalf_real]
      rw [if_neg, if_neg (by omega)]
      rintro ⟨_, h⟩
      rcases h with h | h
      · rw [decide_eq_false_iff_not] at h; apply h; push_cast; nlinarith
      · rw [decide_eq_true_iff] at h; push_cast at h; nlinarith
    rw [hres, eqg]; rfl

/-! ### C05 -/

theorem featuresInRange_iff {F : Type} [FloatOps F] (fs : List F) (step : F) :
    FeaturesInRange fs step ↔ i64Min ∉ quantize fs step := by
  have e : i64Min = -9223372036854775808 ∧ i64Max = 9223372036854775807 := by decide
  unfold FeaturesInRange quantize quantizeOne
  rw [e.1, e.2]
  simp only [List.mem_map, not_exists, not_and, ne_eq]

/-- C05: dequantization succeeds exactly if the perturbation vector is a whole number of triples describing no more
features than are given; the result has one integer per triple. Holds for every float type; features in cell
`i64::MIN` (below `-2^63` steps) are excluded. -/
theorem dequantization_succeeds_iff {F : Type} [FloatOps F] (gs : List F) (p : List Bool) (step : F)
    (h : FeaturesInRange gs step) :
    ((∃ r, threeBitDequantization gs p step = .ok r) ↔ 3 ∣ p.length ∧ p.length / 3 ≤ gs.length) ∧
    ∀ r, threeBitDequantization gs p step = .ok r → r.length = p.length / 3 := by
  rw [featuresInRange_iff] at h
  have h' : ∀ g ∈ gs, quantizeOne step g ≠ i64Min := by
    intro g hg e; apply h; unfold quantize; rw [← e]; exact List.mem_map_of_mem hg
  have hiff : (∃ r, threeBitDequantization gs p step = .ok r) ↔ 3 ∣ p.length ∧ p.length / 3 ≤ gs.length := by
    constructor
    · rintro ⟨r, hr⟩
      by_contra hb
      have : ¬ 3 ∣ p.length ∨ gs.length < p.length / 3 := by
        by_cases h3 : 3 ∣ p.length
        · right; by_contra hh; exact hb ⟨h3, by omega⟩
        · left; exact h3
      obtain ⟨e, he⟩ := threeBitDequantization_error gs p step h' this
      rw [he] at hr; simp at hr
    · rintro ⟨h1, h2⟩
      exact ⟨_, threeBitDequantization_ok gs p step h' h1 h2⟩
  refine ⟨hiff, fun r hr => ?_⟩
  obtain ⟨h1, h2⟩ := hiff.mp ⟨r, hr⟩
  rw [threeBitDequantization_ok gs p step h' h1 h2] at hr
  cases hr
  rw [List.length_map, List.length_zipWith, chunks_length (by omega)]
  omega

/-- C05: features beyond those described by the perturbation vector are ignored. -/
theorem dequantization_ignores_rest {F : Type} [FloatOps F] (gs rest : List F) (p : List Bool) (step : F)
    (h : FeaturesInRange (gs ++ rest) step) (h3 : 3 ∣ p.length) (hl : p.length / 3 ≤ gs.length) :
    threeBitDequantization (gs ++ rest) p step = threeBitDequantization gs p step := by
  rw [featuresInRange_iff] at h
  have h' : ∀ g ∈ gs ++ rest, quantizeOne step g ≠ i64Min := by
    intro g hg e; apply h; unfold quantize; rw [← e]; exact List.mem_map_of_mem hg
  rw [threeBitDequantization_ok _ p step h' h3 (by simp; omega),
    threeBitDequantization_ok gs p step (fun g hg => h' g (by simp [hg])) h3 hl]
  congr 2
  have hcl : (chunks 3 p).length ≤ gs.length := by rw [chunks_length (by omega)]; omega
  clear h h' h3 hl
  generalize chunks 3 p = ts at *
  induction ts generalizing gs with
  | nil => simp
  | cons t ts ih =>
    cases gs with
    | nil => simp at hcl
    | cons g gs => simp [ih gs (by simpa using hcl)]

/-- C05: a feature in cell `i64::MIN` makes quantization and dequantization abort (subtraction overflow). -/
theorem quantization_min_aborts {F : Type} [FloatOps F] (gs : List F) (p : List Bool) (step : F)
    (h : ¬ FeaturesInRange gs step) :
    (∃ e, threeBitQuantization gs step = .error e) ∧ ∃ e, threeBitDequantization gs p step = .error e := by
  rw [featuresInRange_iff, not_not] at h
  unfold quantize at h
  simp only [List.mem_map] at h
  obtain ⟨e, he⟩ := threeBitQuantization_error gs step h
  exact ⟨⟨e, he⟩, e, by unfold threeBitDequantization; rw [he]; rfl⟩

/-- The hypothesis of C05 holds for ordinary features. -/
example : FeaturesInRange ([1, -5] : List ℝ) 1 := by
  rw [featuresInRange_iff]
  intro h
  unfold quantize at h
  simp only [List.mem_map] at h
  obtain ⟨f, hf, h⟩ := h
  refine not_min 1 f (by norm_num) ?_ h
  simp at hf; rcases hf with rfl | rfl <;> norm_num

end Sia
