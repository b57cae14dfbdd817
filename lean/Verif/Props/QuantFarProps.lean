import Verif.Props.QuantFloatProps

/-! C84: what three-bit quantization notices: a feature that moved by more than one and a half steps never returns to its cell. -/
namespace Sia
open FloatOps LawfulFloat

section
variable {F : Type} [FloatOps F] [LawfulFloat F]

/-- The computed cell of a value is its cell, up to rounding. -/
theorem quantizeOne_near (step f : F) (hs : GoodDepth step) (hf : fin f) (K : ℝ) (hK : K ≤ 2 ^ 45) (hx : |val f / val step| ≤ K) :
    (quantizeOne step f : ℝ) - u F * (K + 1) ≤ val f / val step ∧
      val f / val step ≤ (quantizeOne step f : ℝ) + 1 + u F * (K + 1) := by
  have hS := hs.pos
  have hu := u_nonneg (F := F)
  have hK0 : 0 ≤ K := (abs_nonneg _).trans hx
  obtain ⟨dfin, derr⟩ := div_spec f step hf hs.fin hS.ne' (le_trans hx (by norm_num at hK ⊢; linarith))
  obtain ⟨ffin, fval⟩ := floor_spec _ dfin
  have hw : omega ≤ 1 := by unfold omega; norm_num
  have he : |val (div f step) - val f / val step| ≤ u F * (K + 1) :=
    derr.trans (mul_le_mul_of_nonneg_left (by linarith) hu)
  have huK := u_mul_le (F := F) (K + 1) (by linarith) (by norm_num at hK ⊢; linarith)
  obtain ⟨e1, e2⟩ := abs_le.mp he
  obtain ⟨x1, x2⟩ := abs_le.mp hx
  have hq : quantizeOne step f = ⌊val (div f step)⌋ := by
    unfold quantizeOne
    rw [truncSat_spec _ _ _ ffin, fval, truncZ_intCast]
    have h2 : -2 ^ 46 ≤ ⌊val (div f step)⌋ := Int.le_floor.mpr (by push_cast; norm_num at hK ⊢; linarith)
    have h3 : ⌊val (div f step)⌋ ≤ 2 ^ 46 := by
      have : (⌊val (div f step)⌋ : ℝ) ≤ ((2 ^ 46 : ℤ) : ℝ) := le_trans (Int.floor_le _) (by push_cast; norm_num at hK ⊢; linarith)
      exact_mod_cast this
    unfold clampZ i64Min i64Max
    rw [if_neg (by omega), if_neg (by omega)]
  rw [hq]
  have h1 := Int.floor_le (val (div f step))
  have h2 := Int.lt_floor_add_one (val (div f step))
  constructor <;> linarith

/-- The half bit tells the half of the cell, up to rounding. -/
theorem upperHalf_near (step f : F) (hs : GoodDepth step) (hf : fin f) (K : ℝ) (hK0 : 0 ≤ K) (hK : K ≤ 2 ^ 45)
    (q : ℤ) (hq : |(q : ℝ)| ≤ K + 1) :
    (upperHalf step f q = true → (q : ℝ) + 1 / 2 - u F * (3 * K + 6) ≤ val f / val step) ∧
      (upperHalf step f q = false → val f / val step ≤ (q : ℝ) + 1 / 2 + u F * (3 * K + 6)) := by
  have hS := hs.pos
  have hu := u_nonneg (F := F)
  have h0 : 0 ≤ u F * (3 * K + 6) := mul_nonneg hu (by linarith)
  by_cases h : u F * (3 * K + 6) ≤ |val f / val step - (q + 1 / 2)|
  · rw [upperHalf_float step f hs hf K hK0 hK q hq h]
    have e : val step * ((q : ℝ) + 1 / 2) ≤ val f ↔ (q : ℝ) + 1 / 2 ≤ val f / val step := by
      rw [le_div_iff₀ hS, mul_comm]
    constructor
    · intro h'
      have := e.mp (of_decide_eq_true h')
      linarith
    · intro h'
      have := mt e.mpr (of_decide_eq_false h')
      push Not at this
      linarith
  · push Not at h
    obtain ⟨h1, h2⟩ := abs_lt.mp h
    exact ⟨fun _ => by linarith, fun _ => by linarith⟩

/-- What the decision can be, and when. -/
theorem restoreOne_cases (step g : F) (q r : Int) (hq hr : Bool) :
    (restoreOne step g (twoBitsFromInteger (modFour (q - 1))).1 (twoBitsFromInteger (modFour (q - 1))).2 hq
        (twoBitsFromInteger (modFour (r - 1))).1 (twoBitsFromInteger (modFour (r - 1))).2 hr = add g step ∧
      r % 4 = (q - 1) % 4 ∧ (hq = false ∨ hr = true)) ∨
    (restoreOne step g (twoBitsFromInteger (modFour (q - 1))).1 (twoBitsFromInteger (modFour (q - 1))).2 hq
        (twoBitsFromInteger (modFour (r - 1))).1 (twoBitsFromInteger (modFour (r - 1))).2 hr = sub g step ∧
      r % 4 = (q + 1) % 4 ∧ (hq = true ∨ hr = false)) ∨
    restoreOne step g (twoBitsFromInteger (modFour (q - 1))).1 (twoBitsFromInteger (modFour (q - 1))).2 hq
        (twoBitsFromInteger (modFour (r - 1))).1 (twoBitsFromInteger (modFour (r - 1))).2 hr = g := by
  unfold restoreOne
  rw [integerFromTwoBits_bits, integerFromTwoBits_bits]
  dsimp only
  by_cases h1 : (r - 1) % 4 = ((q - 1) % 4 - 1) % 4
  · rw [if_pos h1]
    have e : r % 4 = (q - 1) % 4 := by omega
    cases hq <;> cases hr <;> simp [e]
  · rw [if_neg h1]
    by_cases h2 : (r - 1) % 4 = ((q - 1) % 4 + 1) % 4
    · rw [if_pos h2]
      have e : r % 4 = (q + 1) % 4 := by omega
      cases hq <;> cases hr <;> simp [e]
    · rw [if_neg h2]
      right; right
      simp

/-- The distance, in steps, beyond which a move is always noticed, for values of at most `K` steps: one and a half, and the rounding
errors (none in exact arithmetic). -/
noncomputable def noticedFrom (F : Type) [FloatOps F] [LawfulFloat F] (K : ℝ) : ℝ := 3 / 2 + u F * (8 * K + 30)

/-- C84: if the restored value of a feature is in the cell of the original, the feature moved by at most one and a half steps. -/
theorem restored_cell_far (step f g : F) (hs : GoodDepth step) (hf : fin f) (hg : fin g) (K : ℝ) (hK : K ≤ 2 ^ 40)
    (hfK : |val f| ≤ K * val step) (hgK : |val g| ≤ K * val step)
    (h : quantizeOne step (restored step (bits3 step f) g) = quantizeOne step f) :
    |val g - val f| ≤ noticedFrom F K * val step := by
  have hS := hs.pos
  have hu := u_nonneg (F := F)
  have hxf : |val f / val step| ≤ K := by rw [abs_div, abs_of_pos hS, div_le_iff₀ hS]; exact hfK
  have hxg : |val g / val step| ≤ K := by rw [abs_div, abs_of_pos hS, div_le_iff₀ hS]; exact hgK
  have hK0 : 0 ≤ K := (abs_nonneg _).trans hxf
  have hwS := hs.omega_le
  have big : (K + 1) * val step ≤ 2 ^ 200 := by
    calc (K + 1) * val step ≤ 2 ^ 50 * 2 ^ 100 :=
          mul_le_mul (by norm_num at hK ⊢; linarith) hs.upper hS.le (by positivity)
      _ ≤ _ := by norm_num
  obtain ⟨f1, f2⟩ := quantizeOne_near step f hs hf K (by norm_num at hK ⊢; linarith) hxf
  obtain ⟨g1, g2⟩ := quantizeOne_near step g hs hg K (by norm_num at hK ⊢; linarith) hxg
  set q := quantizeOne step f with hq
  set r := quantizeOne step g with hr
  have hsmall : u F * (3 * K + 12) ≤ 1 / 4 := by
    have := u_mul_le (F := F) (4 * (3 * K + 12)) (by linarith) (by norm_num at hK ⊢; linarith)
    nlinarith
  have hKu : 0 ≤ u F * K := mul_nonneg hu hK0
  have hqK : |(q : ℝ)| ≤ K + 1 + 1 := by
    obtain ⟨a, b⟩ := abs_le.mp hxf
    rw [abs_le]
    constructor <;> nlinarith
  have hrK : |(r : ℝ)| ≤ K + 1 + 1 := by
    obtain ⟨a, b⟩ := abs_le.mp hxg
    rw [abs_le]
    constructor <;> nlinarith
  obtain ⟨uf1, uf2⟩ := upperHalf_near step f hs hf (K + 1) (by linarith) (by norm_num at hK ⊢; linarith) q hqK
  obtain ⟨ug1, ug2⟩ := upperHalf_near step g hs hg (K + 1) (by linarith) (by norm_num at hK ⊢; linarith) r hrK
  have hplus : fin (add g step) ∧ |val (add g step) / val step - (val g / val step + 1)| ≤ u F * (K + 2) ∧
      |val (add g step) / val step| ≤ K + 2 := by
    have hb : |val g + val step| ≤ (K + 1) * val step := by
      have := abs_add_le (val g) (val step); rw [abs_of_pos hS] at this; linarith
    obtain ⟨h1, h2⟩ := add_spec g step hg hs.fin (hb.trans big)
    have e : |val (add g step) / val step - (val g / val step + 1)| ≤ u F * (K + 2) := by
      rw [show val (add g step) / val step - (val g / val step + 1) = (val (add g step) - (val g + val step)) / val step by field_simp,
        abs_div, abs_of_pos hS, div_le_iff₀ hS, mul_assoc]
      exact h2.trans (mul_le_mul_of_nonneg_left (by nlinarith) hu)
    refine ⟨h1, e, ?_⟩
    have := abs_add_le (val (add g step) / val step - (val g / val step + 1)) (val g / val step + 1)
    rw [sub_add_cancel] at this
    have h3 := abs_add_le (val g / val step) 1
    rw [abs_one] at h3
    nlinarith
  have hminus : fin (sub g step) ∧ |val (sub g step) / val step - (val g / val step - 1)| ≤ u F * (K + 2) ∧
      |val (sub g step) / val step| ≤ K + 2 := by
    have hb : |val g - val step| ≤ (K + 1) * val step := by
      have := abs_sub (val g) (val step); rw [abs_of_pos hS] at this; linarith
    obtain ⟨h1, h2⟩ := sub_spec g step hg hs.fin (hb.trans big)
    have e : |val (sub g step) / val step - (val g / val step - 1)| ≤ u F * (K + 2) := by
      rw [show val (sub g step) / val step - (val g / val step - 1) = (val (sub g step) - (val g - val step)) / val step by field_simp,
        abs_div, abs_of_pos hS, div_le_iff₀ hS, mul_assoc]
      exact h2.trans (mul_le_mul_of_nonneg_left (by nlinarith) hu)
    refine ⟨h1, e, ?_⟩
    have := abs_add_le (val (sub g step) / val step - (val g / val step - 1)) (val g / val step - 1)
    rw [sub_add_cancel] at this
    have h3 := abs_sub (val g / val step) 1
    rw [abs_one] at h3
    nlinarith
  have goal : |val g / val step - val f / val step| ≤ noticedFrom F K := by
    unfold restored bits3 at h
    dsimp only at h
    rw [← hq, ← hr] at h
    unfold noticedFrom
    rcases restoreOne_cases step g q r (upperHalf step f q) (upperHalf step g r) with ⟨e, hm, hb⟩ | ⟨e, hm, hb⟩ | e
    · rw [e] at h
      obtain ⟨p1, p2, p3⟩ := hplus
      obtain ⟨a1, a2⟩ := quantizeOne_near step _ hs p1 (K + 2) (by norm_num at hK ⊢; linarith) p3
      rw [h] at a1 a2
      obtain ⟨p4, p5⟩ := abs_le.mp p2
      have hrq : r = q - 1 := by
        have b1 : (r : ℝ) < ((q + 1 : ℤ) : ℝ) := by push_cast; linarith
        have b2 : ((q - 3 : ℤ) : ℝ) < (r : ℝ) := by push_cast; linarith
        have b1' : r < q + 1 := by exact_mod_cast b1
        have b2' : q - 3 < r := by exact_mod_cast b2
        omega
      have hrR : (r : ℝ) = q - 1 := by rw [hrq]; push_cast; ring
      rw [hrR] at ug1
      rw [abs_le]
      rcases hb with hb | hb
      · have := uf2 hb
        constructor <;> linarith
      · have := ug1 hb
        constructor <;> linarith
    · rw [e] at h
      obtain ⟨p1, p2, p3⟩ := hminus
      obtain ⟨a1, a2⟩ := quantizeOne_near step _ hs p1 (K + 2) (by norm_num at hK ⊢; linarith) p3
      rw [h] at a1 a2
      obtain ⟨p4, p5⟩ := abs_le.mp p2
      have hrq : r = q + 1 := by
        have b1 : (r : ℝ) < ((q + 3 : ℤ) : ℝ) := by push_cast; linarith
        have b2 : ((q - 1 : ℤ) : ℝ) < (r : ℝ) := by push_cast; linarith
        have b1' : r < q + 3 := by exact_mod_cast b1
        have b2' : q - 1 < r := by exact_mod_cast b2
        omega
      have hrR : (r : ℝ) = q + 1 := by rw [hrq]; push_cast; ring
      rw [hrR] at ug2
      rw [abs_le]
      rcases hb with hb | hb
      · have := uf1 hb
        constructor <;> linarith
      · have := ug2 hb
        constructor <;> linarith
    · rw [e, ← hr] at h
      rw [h] at g1 g2
      rw [abs_le]
      constructor <;> linarith
  rw [← sub_div, abs_div, abs_of_pos hS, div_le_iff₀ hS] at goal
  exact goal

/-- C84: dequantization of moved features returns the original cells only if no feature moved by more than one and a half steps. -/
theorem dequantization_notices (step : F) (hs : GoodDepth step) (K : ℝ) (hK : K ≤ 2 ^ 40) (fs gs : List F)
    (hf : ∀ f ∈ fs, fin f ∧ |val f| ≤ K * val step) (hg : ∀ g ∈ gs, fin g ∧ |val g| ≤ K * val step)
    (q : List Int) (p : List Bool) (hq : threeBitQuantization fs step = .ok (q, p))
    (hd : threeBitDequantization gs p step = .ok q) :
    fs.length ≤ gs.length ∧ ∀ i (hi : i < fs.length) (hi' : i < gs.length), |val gs[i] - val fs[i]| ≤ noticedFrom F K * val step := by
  have hmf : ∀ f ∈ fs, quantizeOne step f ≠ i64Min := by
    intro f hf' e
    obtain ⟨e', he⟩ := threeBitQuantization_error fs step ⟨f, hf', e⟩
    rw [he] at hq
    cases hq
  have hmg : ∀ g ∈ gs, quantizeOne step g ≠ i64Min := by
    intro g hg' e
    obtain ⟨e', he⟩ := threeBitQuantization_error gs step ⟨g, hg', e⟩
    unfold threeBitDequantization at hd
    rw [he] at hd
    cases hd
  rw [threeBitQuantization_ok fs step hmf] at hq
  cases hq
  have hpl : (fs.flatMap (bits3 step)).length = 3 * fs.length := by
    clear hf hmf hd
    induction fs with
    | nil => rfl
    | cons f fs ih => rw [List.flatMap_cons, List.length_append, ih]; simp [bits3]; ring
  have hlen : fs.length ≤ gs.length := by
    by_contra hh
    obtain ⟨e, he⟩ := threeBitDequantization_error gs (fs.flatMap (bits3 step)) step hmg (Or.inr (by rw [hpl]; omega))
    rw [he] at hd
    cases hd
  refine ⟨hlen, fun i hi hi' => ?_⟩
  rw [threeBitDequantization_ok gs _ step hmg (by rw [hpl]; omega) (by rw [hpl]; omega), chunks3_bits3] at hd
  have h1 := congrArg (fun l : List Int => l[i]?) (Except.ok.inj hd)
  rw [List.getElem?_eq_getElem (by simp; omega), List.getElem?_eq_getElem (by simpa using hi)] at h1
  have h2 := Option.some.inj h1
  rw [List.getElem_map, List.getElem_zipWith, List.getElem_map, List.getElem_map] at h2
  exact restored_cell_far step fs[i] gs[i] hs (hf _ (List.getElem_mem hi)).1 (hg _ (List.getElem_mem hi')).1 K hK
    (hf _ (List.getElem_mem hi)).2 (hg _ (List.getElem_mem hi')).2 h2

end

/-- C84: in exact arithmetic the bound is one and a half steps ... -/
theorem noticedFrom_real (K : ℝ) : noticedFrom ℝ K = 3 / 2 := by
  unfold noticedFrom
  have : u ℝ = 0 := rfl
  rw [this]
  ring

/-- ... and in double precision it is not much more, for features of at most `2^32` steps. -/
theorem noticedFrom_double : noticedFrom F64 (2 ^ 32) ≤ 3 / 2 + 1 / 2 ^ 17 := by
  unfold noticedFrom
  show _ + (1 : ℝ) / 2 ^ 53 * _ ≤ _
  norm_num

/-- C84: the bound cannot be lowered: a move of a little less than one and a half steps can be undone. -/
theorem noticing_tight (step ε : ℝ) (hs : 0 < step) (hε : 0 < ε) :
    ∃ f g q p, (3 / 2 - ε) * step ≤ |g - f| ∧ threeBitQuantization [f] step = .ok ([q], p) ∧
      threeBitDequantization [g] p step = .ok [q] := by
  set e := min ε (1 / 4) with he
  have he0 : 0 < e := lt_min hε (by norm_num)
  have he1 : e ≤ 1 / 4 := min_le_right _ _
  have heε : e ≤ ε := min_le_left _ _
  have hf : |(3 / 2 - e) * step| ≤ 2 ^ 62 * step := by
    rw [abs_le]; constructor <;> nlinarith
  have hg : |(0 : ℝ)| ≤ 2 ^ 62 * step := by rw [abs_zero]; positivity
  have hg1 : |(0 : ℝ) + step| ≤ 2 ^ 62 * step := by rw [zero_add, abs_of_pos hs]; nlinarith
  obtain ⟨h1, h2⟩ := one_feature step _ _ hs hf hg
  have eqf : quantizeOne step ((3 / 2 - e) * step) = 1 := by
    rw [quantizeOne_real_eq step _ hs hf, cell_unique step _ hs 1 (by push_cast; nlinarith) (by push_cast; nlinarith)]
  have eqg : quantizeOne step (0 : ℝ) = 0 := by
    rw [quantizeOne_real_eq step _ hs hg, cell_unique step _ hs 0 (by push_cast; nlinarith) (by push_cast; nlinarith)]
  refine ⟨(3 / 2 - e) * step, 0, 1, bits3 step ((3 / 2 - e) * step), ?_, ?_, ?_⟩
  · rw [zero_sub, abs_neg, abs_of_nonneg (by nlinarith)]
    exact mul_le_mul_of_nonneg_right (by linarith) hs.le
  · rw [h1, eqf]
  · rw [h2]
    have hres : restored step (bits3 step ((3 / 2 - e) * step)) 0 = 0 + step := by
      unfold restored bits3
      dsimp only
      rw [eqf, eqg, restoreOne_cells step _ 1 0 _ _ (by omega) (by omega), upperHalf_real, upperHalf_real]
      rw [if_pos]
      · rfl
      · refine ⟨by omega, Or.inl ?_⟩
        rw [decide_eq_false_iff_not]
        push_cast
        nlinarith
    rw [hres, quantizeOne_real_eq step _ hs hg1, cell_unique step _ hs 1 (by push_cast; nlinarith) (by push_cast; nlinarith)]

/-- A non-trivial case: of two features, one moved by two steps; whatever the dequantization returns, it is not the original cells. -/
example : ∀ q p, threeBitQuantization [1.2, -7.5] (1 : ℝ) = .ok (q, p) → threeBitDequantization [1.4, -5.5] p (1 : ℝ) ≠ .ok q := by
  intro q p hq hd
  have hs : GoodDepth (1 : ℝ) := ⟨trivial, by show (1 : ℝ) / 2 ^ 100 ≤ 1; norm_num, by show (1 : ℝ) ≤ 2 ^ 100; norm_num⟩
  have hb : ∀ x : ℝ, |x| ≤ 8 → LawfulFloat.fin x ∧ |val x| ≤ 8 * val (1 : ℝ) := fun x hx => ⟨trivial, by
    show |x| ≤ 8 * 1
    linarith⟩
  have h := (dequantization_notices (1 : ℝ) hs 8 (by norm_num) [1.2, -7.5] [1.4, -5.5]
    (fun f hf => by simp at hf; rcases hf with rfl | rfl <;> exact hb _ (by norm_num [abs_le]))
    (fun g hg => by simp at hg; rcases hg with rfl | rfl <;> exact hb _ (by norm_num [abs_le])) q p hq hd).2 1 (by simp) (by simp)
  rw [noticedFrom_real] at h
  have h' : |(-5.5 : ℝ) - -7.5| ≤ 3 / 2 * 1 := h
  norm_num at h'

end Sia
