import Verif.Model.Quantization
import Verif.Model.FloatReal
import Verif.Lemmas.Lists

/-! List-level behaviour of the quantizer, for any float type. -/
namespace Sia
open FloatOps

theorem integerFromTwoBits_bits (z : Int) :
    (integerFromTwoBits (twoBitsFromInteger (modFour z)).1 (twoBitsFromInteger (modFour z)).2 : Int) = z % 4 := by
  have h : z % 4 = 0 ∨ z % 4 = 1 ∨ z % 4 = 2 ∨ z % 4 = 3 := by omega
  unfold modFour
  dsimp only
  rcases h with h | h | h | h <;> rw [h] <;> decide

theorem twoBits_spec (z : Int) :
    (twoBitsFromInteger (modFour z)).1 = decide (2 ≤ z % 4) ∧ (twoBitsFromInteger (modFour z)).2 = decide (z % 2 = 1) := by
  have h : z % 4 = 0 ∨ z % 4 = 1 ∨ z % 4 = 2 ∨ z % 4 = 3 := by omega
  have h2 : z % 2 = (z % 4) % 2 := by omega
  unfold modFour
  dsimp only
  rw [h2]
  rcases h with h | h | h | h <;> rw [h] <;> decide

section
variable {F : Type} [FloatOps F]

/-- The upper-half bit of a feature in cell `q`. -/
def upperHalf (step f : F) (q : Int) : Bool := ge f (mul step (add (ofInt q) (lit (1 / 2))))

/-- The three bits of a feature whose cell is not `i64::MIN`. -/
def bits3 (step f : F) : List Bool :=
  [(twoBitsFromInteger (modFour (quantizeOne step f - 1))).1, (twoBitsFromInteger (modFour (quantizeOne step f - 1))).2,
    upperHalf step f (quantizeOne step f)]

theorem featureBits_ok (step f : F) (h : quantizeOne step f ≠ i64Min) :
    featureBits step f (quantizeOne step f) = .ok (bits3 step f) := by
  unfold featureBits bits3 upperHalf
  rw [if_neg h]

theorem threeBitQuantization_ok (fs : List F) (step : F) (h : ∀ f ∈ fs, quantizeOne step f ≠ i64Min) :
    threeBitQuantization fs step = .ok (fs.map (quantizeOne step), fs.flatMap (bits3 step)) := by
  unfold threeBitQuantization quantize
  have hz : fs.zip (fs.map (quantizeOne step)) = fs.map fun f => (f, quantizeOne step f) := by
    induction fs with
    | nil => rfl
    | cons f fs ih => simp [ih (fun f hf => h f (by simp [hf]))]
  dsimp only
  rw [hz, mapM_except_ok (g := fun p => bits3 step p.1)]
  · simp [bind, Except.bind, pure, Except.pure, List.flatMap_def, Function.comp_def]
  · intro p hp
    simp only [List.mem_map] at hp
    obtain ⟨f, hf, rfl⟩ := hp
    exact featureBits_ok step f (h f hf)

theorem threeBitQuantization_error (fs : List F) (step : F) (h : ∃ f ∈ fs, quantizeOne step f = i64Min) :
    ∃ e, threeBitQuantization fs step = .error e := by
  unfold threeBitQuantization quantize
  have hz : fs.zip (fs.map (quantizeOne step)) = fs.map fun f => (f, quantizeOne step f) := by
    clear h
    induction fs with
    | nil => rfl
    | cons f fs ih => simp [ih]
  dsimp only
  rw [hz]
  cases hm : (fs.map fun f => (f, quantizeOne step f)).mapM fun (x : F × Int) => featureBits step x.1 x.2 with
  | error e => exact ⟨e, rfl⟩
  | ok r =>
    exfalso
    obtain ⟨f, hf, hq⟩ := h
    obtain ⟨b, hb⟩ := (mapM_except_isOk _).mp ⟨r, hm⟩ (f, quantizeOne step f) (List.mem_map_of_mem hf)
    simp [featureBits, hq] at hb

/-- The value restored from a noised feature and three stored bits. -/
def restored (step : F) (bits : List Bool) (g : F) : F :=
  match bits with
  | [g1, g2, g3] => restoreOne step g g1 g2 g3 (twoBitsFromInteger (modFour (quantizeOne step g - 1))).1
      (twoBitsFromInteger (modFour (quantizeOne step g - 1))).2 (upperHalf step g (quantizeOne step g))
  | _ => g

theorem chunks3_flatMap_bits3 (gs : List F) (step : F) : chunks 3 (gs.flatMap (bits3 step)) = gs.map (bits3 step) := by
  have := chunks_flatten_of_full (by omega : 0 < 3) (gs.map (bits3 step)) [] (by simp [bits3])
  simpa [List.flatMap_def] using this

theorem restoreLoop_ok (step : F) : ∀ (ts : List (List Bool)) (gs : List F), (∀ t ∈ ts, t.length = 3) →
    ts.length ≤ gs.length →
    restoreLoop step ts (gs.map (bits3 step)) gs = .ok (List.zipWith (restored step) ts gs) := by
  intro ts
  induction ts with
  | nil => intro gs _ _; simp [restoreLoop]
  | cons t ts ih =>
    intro gs ht hl
    cases gs with
    | nil => simp at hl
    | cons g gs =>
      have h3 := ht t (by simp)
      match t, h3 with
      | [g1, g2, g3], _ =>
        simp only [List.map_cons, bits3, restoreLoop]
        have := ih gs (fun t ht' => ht t (by simp [ht'])) (by simpa using hl)
        rw [this]
        rfl

theorem restoreLoop_error (step : F) : ∀ (ts : List (List Bool)) (gs : List F),
    (¬ (∀ t ∈ ts, t.length = 3) ∨ gs.length < ts.length) →
    ∃ e, restoreLoop step ts (gs.map (bits3 step)) gs = .error e := by
  intro ts
  induction ts with
  | nil => intro gs h; simp at h
  | cons t ts ih =>
    intro gs h
    cases gs with
    | nil => exact ⟨_, rfl⟩
    | cons g gs =>
      by_cases h3 : t.length = 3
      · match t, h3 with
        | [g1, g2, g3], _ =>
          have : ¬ (∀ t ∈ ts, t.length = 3) ∨ gs.length < ts.length := by
            rcases h with h | h
            · left; intro hh; apply h; intro t ht
              rcases List.mem_cons.mp ht with rfl | ht
              · rfl
              · exact hh t ht
            · right; simpa using h
          obtain ⟨e, he⟩ := ih gs this
          refine ⟨e, ?_⟩
          simp only [List.map_cons, bits3, restoreLoop]
          rw [he]; rfl
      · refine ⟨.unwrapNone, ?_⟩
        simp only [List.map_cons, bits3]
        unfold restoreLoop
        match t, h3 with
        | [], _ => rfl
        | [_], _ => rfl
        | [_, _], _ => rfl
        | _ :: _ :: _ :: _ :: _, _ => rfl

/-- Dequantization succeeds on a whole number of triples that are covered by the features. -/
theorem threeBitDequantization_ok (gs : List F) (p : List Bool) (step : F) (h : ∀ g ∈ gs, quantizeOne step g ≠ i64Min)
    (h3 : 3 ∣ p.length) (hl : p.length / 3 ≤ gs.length) :
    threeBitDequantization gs p step =
      .ok ((List.zipWith (restored step) (chunks 3 p) gs).map (quantizeOne step)) := by
  unfold threeBitDequantization
  rw [threeBitQuantization_ok gs step h]
  simp only [bind, Except.bind]
  rw [chunks3_flatMap_bits3, restoreLoop_ok step (chunks 3 p) gs (chunks_full (by omega) p h3)
    (by rw [chunks_length (by omega)]; omega)]
  rfl

theorem threeBitDequantization_error (gs : List F) (p : List Bool) (step : F)
    (h : ∀ g ∈ gs, quantizeOne step g ≠ i64Min) (hbad : ¬ 3 ∣ p.length ∨ gs.length < p.length / 3) :
    ∃ e, threeBitDequantization gs p step = .error e := by
  unfold threeBitDequantization
  rw [threeBitQuantization_ok gs step h]
  simp only [bind, Except.bind]
  rw [chunks3_flatMap_bits3]
  obtain ⟨e, he⟩ := restoreLoop_error step (chunks 3 p) gs (by
    rcases hbad with hb | hb
    · left; intro hh
      obtain ⟨cs, c, h1, _, h3, _⟩ := chunks_not_full (by omega) p hb
      have := hh c (by rw [h1]; simp)
      omega
    · right; rw [chunks_length (by omega)]; omega)
  exact ⟨e, by rw [he]⟩

/-- The integer part of the decision: from the given cell `q`, the calculated cell `r` (at most one apart) and the half
bits, what is added to the noised value. -/
theorem restoreOne_cells (step g : F) (q r : Int) (hq hr : Bool) (h1 : r ≤ q + 1) (h2 : q - 1 ≤ r) :
    restoreOne step g (twoBitsFromInteger (modFour (q - 1))).1 (twoBitsFromInteger (modFour (q - 1))).2 hq
      (twoBitsFromInteger (modFour (r - 1))).1 (twoBitsFromInteger (modFour (r - 1))).2 hr =
      if r = q - 1 ∧ (hq = false ∨ hr = true) then add g step
      else if r = q + 1 ∧ (hq = true ∨ hr = false) then sub g step
      else g := by
  unfold restoreOne
  rw [integerFromTwoBits_bits, integerFromTwoBits_bits]
  dsimp only
  have hcases : r = q - 1 ∨ r = q ∨ r = q + 1 := by omega
  rcases hcases with rfl | rfl | rfl
  · have ha : (q - 1 - 1) % 4 = ((q - 1) % 4 - 1) % 4 := by omega
    have e : ¬ q - 1 = q + 1 := by omega
    rw [if_pos ha]
    cases hq <;> cases hr <;> simp [e]
  · have h1 : ¬ (r - 1) % 4 = ((r - 1) % 4 - 1) % 4 := by omega
    have h2 : ¬ (r - 1) % 4 = ((r - 1) % 4 + 1) % 4 := by omega
    rw [if_neg h1, if_neg h2]
    have e1 : ¬ r = r - 1 := by omega
    simp [e1]
  · have h1 : ¬ (q + 1 - 1) % 4 = ((q - 1) % 4 - 1) % 4 := by omega
    have h2 : (q + 1 - 1) % 4 = ((q - 1) % 4 + 1) % 4 := by omega
    rw [if_neg h1, if_pos h2]
    have e1 : ¬ q + 1 = q - 1 := by omega
    cases hq <;> cases hr <;> simp [e1]

end

/-! ### Real arithmetic -/

theorem truncZ_intCast {K : Type} [Field K] [LinearOrder K] [IsStrictOrderedRing K] [FloorRing K] (z : ℤ) :
    truncZ (z : K) = z := by unfold truncZ; split <;> simp

theorem quantizeOne_real (step f : ℝ) : quantizeOne step f = clampZ i64Min i64Max ⌊f / step⌋ := by
  show clampZ _ _ (truncZ ((⌊f / step⌋ : ℤ) : ℝ)) = _
  rw [truncZ_intCast]

theorem upperHalf_real (step f : ℝ) (q : Int) : upperHalf step f q = decide (step * (q + 1 / 2) ≤ f) := by
  unfold upperHalf
  show (by classical exact decide (step * ((q : ℝ) + ((1 / 2 : ℚ) : ℝ)) ≤ f)) = _
  norm_num

end Sia
