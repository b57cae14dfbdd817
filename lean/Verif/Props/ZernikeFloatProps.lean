import Verif.Lemmas.MomentFloat

/-! C65: the features computed in double precision. -/
namespace Sia
open FloatOps LawfulFloat Finset

section
variable {F : Type} [FloatOps F] [LawfulFloat F] [IntExact F]

/-- C65, general form: for every picture of 2 to 16384 rows with at least one and at most as many columns, and every supported order
of at most 39, as long as the sum of the absolute coefficients of the radial polynomial is not too large, the machine's features are
the exact ones up to `(17/12 (10(n+1)·coefficients + N² + ..) + 2)` units in the last place of `255 (n+1) / π`. -/
theorem features_machine (M : Libm F) (hM : M.Lawful) (N a : ℕ) (image : Mat UInt8) (ha : 1 ≤ a) (ha2 : a ≤ 20) (hN : 2 ≤ N)
    (hN2 : N ≤ 2 ^ 14) (hrows : image.rows = N) (hcols : image.cols ≤ N) (hcols1 : 1 ≤ image.cols)
    (hcoef : ∀ k < a, (10 * ((2 * a - 1 : ℕ) : ℝ) + 10) *
        ((∑ i ∈ range ((2 * a - 1 - (2 * k + 1)) / 2 + 1),
          (2 * a - 1 - i).choose i * (2 * a - 1 - 2 * i).choose ((2 * a - 1 - (2 * k + 1)) / 2 - i) : ℕ) : ℝ) ≤ 2 ^ 38) :
    ∃ (fs : List F) (es : List ℝ), zernikeFeaturesF M image a = .ok fs ∧ calculateFeatures image .MomentsZernike a = .ok es ∧
      fs.length = a ∧ es.length = a ∧ ∀ k (hk : k < fs.length) (hk' : k < es.length), fin fs[k] ∧
      |val fs[k] - es[k]| ≤
        (17 / 12 * ((10 * ((2 * a - 1 : ℕ) : ℝ) + 10) *
          ((∑ i ∈ range ((2 * a - 1 - (2 * k + 1)) / 2 + 1),
            (2 * a - 1 - i).choose i * (2 * a - 1 - 2 * i).choose ((2 * a - 1 - (2 * k + 1)) / 2 - i) : ℕ) : ℝ) +
            14 * (2 * k + 1) + N * N + 11) + 2) * (1 / 2 ^ 52) * (2 * a / Real.pi * 255) := by
  have hcs : ∀ k, (∑ i ∈ range ((2 * a - 1 - (2 * k + 1)) / 2 + 1),
          (2 * a - 1 - i).choose i * (2 * a - 1 - 2 * i).choose ((2 * a - 1 - (2 * k + 1)) / 2 - i) : ℕ) =
      coefSum (2 * a - 1) (2 * k + 1) := fun k => rfl
  have hfeat : ∀ k < a, ∃ w z, zernikeMomentF M (2 * a - 1) (2 * k + 1) image = .ok w ∧
      zernikeMoment (2 * a - 1) (2 * k + 1) image = .ok z ∧ fin (M.hypot w.1 w.2) ∧
      |val (M.hypot w.1 w.2) - ‖z‖| ≤ featureError (2 * a - 1) (2 * k + 1) N := by
    intro k hk
    apply featureF_near M hM (2 * a - 1) (2 * k + 1) N image (by omega) (by omega) (by omega) _ hN hN2 hrows hcols hcols1
    have h := hcoef k hk
    rw [hcs] at h
    unfold entryError
    have hk' : (((2 * k + 1 : ℕ)) : ℝ) ≤ 40 := by exact_mod_cast (by omega : 2 * k + 1 ≤ 40)
    have : (2 : ℝ) ^ 38 + 14 * 40 + 4 ≤ 2 ^ 39 := by norm_num
    linarith
  have hord : orderByFeaturesAmount a = .ok (2 * a - 1) := by
    unfold orderByFeaturesAmount
    rw [if_neg (by omega)]
    congr 1
    omega
  have hidx := momentIndices_odd a ha
  rw [show 1 + 2 * (a - 1) = 2 * a - 1 by omega] at hidx
  obtain ⟨fs, hfs⟩ := (mapM_except_isOk (f := fun index => do
      let m ← zernikeMomentF M (2 * a - 1) index image
      return M.hypot m.1 m.2) ((List.range a).map fun k => 2 * k + 1)).mpr (by
    intro index hidx
    obtain ⟨k, hk, rfl⟩ := List.mem_map.mp hidx
    obtain ⟨w, z, hw, _⟩ := hfeat k (List.mem_range.mp hk)
    rw [hw]
    exact ⟨_, rfl⟩)
  obtain ⟨es, hes⟩ := (mapM_except_isOk (f := fun index => do
      let m ← zernikeMoment (2 * a - 1) index image
      return ‖m‖) ((List.range a).map fun k => 2 * k + 1)).mpr (by
    intro index hidx
    obtain ⟨k, hk, rfl⟩ := List.mem_map.mp hidx
    obtain ⟨w, z, _, hz, _⟩ := hfeat k (List.mem_range.mp hk)
    rw [hz]
    exact ⟨_, rfl⟩)
  have hlen : fs.length = a := by have := mapM_except_length _ _ hfs; simpa using this
  have hlen' : es.length = a := by have := mapM_except_length _ _ hes; simpa using this
  refine ⟨fs, es, ?_, ?_, hlen, hlen', ?_⟩
  · unfold zernikeFeaturesF
    rw [hord]
    simp only [bind, Except.bind] at hfs ⊢
    rw [hidx]
    exact hfs
  · unfold calculateFeatures zernikeFeatures
    dsimp only
    rw [hord]
    simp only [bind, Except.bind] at hes ⊢
    rw [hidx]
    exact hes
  · intro k hk hk'
    have hg := mapM_except_get _ _ hfs k (by simpa using (by omega : k < a)) hk
    have hg2 := mapM_except_get _ _ hes k (by simpa using (by omega : k < a)) hk'
    rw [List.getElem_map, List.getElem_range] at hg hg2
    obtain ⟨w, z, hw, hz, h1, h2⟩ := hfeat k (by omega)
    rw [hw] at hg
    rw [hz] at hg2
    have hg' := Except.ok.inj hg
    have hg2' := Except.ok.inj hg2
    rw [← hg', ← hg2']
    refine ⟨h1, h2.trans (le_of_eq ?_)⟩
    rw [hcs]
    unfold featureError momentError entryError ulp
    have : ((2 * a - 1 : ℕ) : ℝ) + 1 = 2 * a := by
      have : (2 * a - 1 : ℕ) + 1 = 2 * a := by omega
      exact_mod_cast this
    rw [this]
    push_cast
    ring

omit [LawfulFloat F] [IntExact F] in
/-- C65: whatever the mathematical library does, no features are computed when none are asked for or when the picture has more columns
than rows: the program aborts. -/
theorem features_machine_abort (M : Libm F) (image : Mat UInt8) (a : Nat)
    (h : a = 0 ∨ (1 ≤ image.rows ∧ image.rows < image.cols)) : ∃ e, zernikeFeaturesF M image a = .error e := by
  unfold zernikeFeaturesF orderByFeaturesAmount
  split_ifs with h0
  · exact ⟨_, rfl⟩
  · have hc : 1 ≤ image.rows ∧ image.rows < image.cols := by tauto
    simp only [bind, Except.bind]
    generalize hm : List.mapM (m := Except Panic) _ (momentIndices (1 + 2 * (a - 1))) = y
    cases y with
    | error e => exact ⟨e, rfl⟩
    | ok fs =>
      exfalso
      obtain ⟨b, hb⟩ := (mapM_except_isOk _).mp ⟨fs, hm⟩ 1 (by
        rw [momentIndices_odd a (by omega)]
        exact List.mem_map.mpr ⟨0, List.mem_range.mpr (by omega), rfl⟩)
      unfold zernikeMomentF at hb
      dsimp only at hb
      cases hmat : getZernikeMatrixF M (1 + 2 * (a - 1)) 1 image.rows with
      | error e => rw [hmat] at hb; simp [bind, Except.bind] at hb
      | ok matrix =>
        have hl : matrix.length = image.rows * image.rows := by
          have := mapM_except_length _ _ hmat
          simpa using this
        obtain ⟨p, hp⟩ : ∃ p, (p, image.rows * image.rows) ∈ image.toList.zipIdx := by
          have hlen : image.toList.length = image.rows * image.cols := by unfold Mat.toList; simp
          have hlt : image.rows * image.rows < image.toList.length := by
            rw [hlen]; exact Nat.mul_lt_mul_of_pos_left hc.2 (by omega)
          refine ⟨image.toList[image.rows * image.rows], ?_⟩
          rw [List.mk_mem_zipIdx_iff_getElem?]
          exact List.getElem?_eq_getElem hlt
        obtain ⟨e, he⟩ := foldlM_error (g := momentStepF matrix) (p, image.rows * image.rows) (by
            intro acc
            refine ⟨.unwrapNone, ?_⟩
            unfold momentStepF
            rw [List.getElem?_eq_none (by omega)]) image.toList.zipIdx hp (ofInt 0, ofInt 0)
        rw [hmat] at hb
        simp only [bind, Except.bind] at hb
        rw [he] at hb
        simp at hb

end

/-- The coefficient sums up to order 21. -/
theorem coefSum_le_21 : ∀ a < 12, ∀ k < a, coefSum (2 * a - 1) (2 * k + 1) ≤ 18474633 := by
  decide +kernel

/-- C65 for double precision: for every library accurate to one unit in the last place, every picture of 2 to 16384 rows with at
least one and at most as many columns, and 1 to 11 features (11 is what the command line uses), the machine computation and the exact
one both succeed, with lists of equal length that agree, entry by entry, to within 1/400. -/
theorem features_f64_landscape (M : Libm F64) (hM : M.Lawful) (a : ℕ) (image : Mat UInt8) (ha : 1 ≤ a) (ha2 : a ≤ 11)
    (hN : 2 ≤ image.rows) (hN2 : image.rows ≤ 2 ^ 14) (hcols : image.cols ≤ image.rows) (hcols1 : 1 ≤ image.cols) :
    ∃ (fs : List F64) (es : List ℝ), zernikeFeaturesF M image a = .ok fs ∧ calculateFeatures image .MomentsZernike a = .ok es ∧
      List.Forall₂ (fun f e => ∃ x : ℚ, f = .fin x ∧ |(x : ℝ) - e| ≤ 1 / 400) fs es := by
  have hn : ((2 * a - 1 : ℕ) : ℝ) ≤ 21 := by exact_mod_cast (by omega : 2 * a - 1 ≤ 21)
  have hcs : ∀ k < a, ((∑ i ∈ range ((2 * a - 1 - (2 * k + 1)) / 2 + 1),
          (2 * a - 1 - i).choose i * (2 * a - 1 - 2 * i).choose ((2 * a - 1 - (2 * k + 1)) / 2 - i) : ℕ) : ℝ) ≤ 18474633 := by
    intro k hk
    exact_mod_cast coefSum_le_21 a (by omega) k hk
  have hprod : ∀ k < a, (10 * ((2 * a - 1 : ℕ) : ℝ) + 10) * ((∑ i ∈ range ((2 * a - 1 - (2 * k + 1)) / 2 + 1),
          (2 * a - 1 - i).choose i * (2 * a - 1 - 2 * i).choose ((2 * a - 1 - (2 * k + 1)) / 2 - i) : ℕ) : ℝ) ≤ 220 * 18474633 := by
    intro k hk
    exact mul_le_mul (by linarith) (hcs k hk) (by positivity) (by norm_num)
  obtain ⟨fs, es, h1, h2, l1, l2, h3⟩ := features_machine M hM image.rows a image ha (by omega) hN hN2 rfl hcols hcols1
    (fun k hk => (hprod k hk).trans (by norm_num))
  refine ⟨fs, es, h1, h2, List.forall₂_iff_get.mpr ⟨by rw [l1, l2], fun k hk hk2 => ?_⟩⟩
  simp only [List.get_eq_getElem]
  obtain ⟨x, hx⟩ := (F64.isFin_iff _).mp (h3 k hk hk2).1
  have h4 := (h3 k hk hk2).2
  rw [hx] at h4
  refine ⟨x, hx, h4.trans ?_⟩
  have hk' : (k : ℝ) ≤ 10 := by exact_mod_cast (by omega : k ≤ 10)
  have hNN : (image.rows : ℝ) * image.rows ≤ 268435456 := by
    have : image.rows * image.rows ≤ 268435456 := (Nat.mul_le_mul hN2 hN2).trans (by norm_num)
    exact_mod_cast this
  have ha' : (a : ℝ) ≤ 11 := by exact_mod_cast ha2
  have hp := hprod k (by omega)
  have hpi : (3.14 : ℝ) < Real.pi := Real.pi_gt_d2
  have hq : 2 * (a : ℝ) / Real.pi * 255 ≤ 1787 := by
    rw [div_mul_eq_mul_div, div_le_iff₀ Real.pi_pos]
    norm_num at hpi
    linarith
  have hb : (17 / 12 * ((10 * ((2 * a - 1 : ℕ) : ℝ) + 10) *
          ((∑ i ∈ range ((2 * a - 1 - (2 * k + 1)) / 2 + 1),
            (2 * a - 1 - i).choose i * (2 * a - 1 - 2 * i).choose ((2 * a - 1 - (2 * k + 1)) / 2 - i) : ℕ) : ℝ) +
            14 * (2 * k + 1) + image.rows * image.rows + 11) + 2) ≤ 6138212000 := by linarith
  refine (mul_le_mul (mul_le_mul_of_nonneg_right hb (by norm_num)) hq (by positivity) (by norm_num)).trans ?_
  norm_num

/-- C65: every feature of a picture with at most as many columns as rows, in terms of the moments of the packed square picture. -/
theorem features_f64_packed (M : Libm F64) (hM : M.Lawful) (N P a : ℕ) (image : Mat UInt8) (ha : 1 ≤ a) (ha2 : a ≤ 11)
    (hN : 2 ≤ N) (hN2 : N ≤ 2 ^ 14) (hP : 1 ≤ P) (hc : P ≤ N) (hrows : image.rows = N) (hcols : image.cols = P) :
    ∃ fs : List F64, zernikeFeaturesF M image a = .ok fs ∧ fs.length = a ∧ ∀ k (hk : k < fs.length), ∃ x : ℚ, fs[k] = .fin x ∧
      |(x : ℝ) - (N : ℝ) / P * ‖specMoment N (packed N P (pixelReal image)) (2 * a - 1) (2 * k + 1)‖| ≤ 1 / 400 := by
  obtain ⟨fs, es, h1, h2, h3⟩ := features_f64_landscape M hM a image ha ha2 (by omega) (by omega) (by omega) (by omega)
  rw [features_packed N P image a ha hN hP hc hrows hcols] at h2
  cases h2
  have hl := h3.length_eq
  rw [List.length_map, List.length_range] at hl
  refine ⟨fs, h1, hl, fun k hk => ?_⟩
  have := List.Forall₂.get h3 (i := k) hk (by simpa using (by omega : k < a))
  simpa using this

/-- C65 for a square picture: every feature is within 1/400 of the modulus of the exact Zernike moment. -/
theorem features_f64_accurate (M : Libm F64) (hM : M.Lawful) (N a : ℕ) (image : Mat UInt8) (ha : 1 ≤ a) (ha2 : a ≤ 11) (hN : 2 ≤ N)
    (hN2 : N ≤ 2 ^ 14) (hsq : image.IsSquare N) :
    ∃ fs : List F64, zernikeFeaturesF M image a = .ok fs ∧ fs.length = a ∧ ∀ k (hk : k < fs.length), ∃ x : ℚ, fs[k] = .fin x ∧
      |(x : ℝ) - ‖specMoment N (pixelReal image) (2 * a - 1) (2 * k + 1)‖| ≤ 1 / 400 := by
  obtain ⟨fs, es, h1, h2, h3⟩ := features_f64_landscape M hM a image ha ha2 (by rw [hsq.1]; exact hN) (by rw [hsq.1]; exact hN2)
    (by rw [hsq.1, hsq.2]) (by rw [hsq.2]; omega)
  rw [features_square N image a ha hN hsq] at h2
  cases h2
  have hl := h3.length_eq
  rw [List.length_map, List.length_range] at hl
  refine ⟨fs, h1, hl, fun k hk => ?_⟩
  have := List.Forall₂.get h3 (i := k) hk (by simpa using (by omega : k < a))
  simpa using this

end Sia

namespace Sia
open FloatOps LawfulFloat

/-- C65: the same statement against the exact computation: there are two lists of equal length, entry by entry within 1/400. -/
theorem features_f64_vs_exact (M : Libm F64) (hM : M.Lawful) (N a : ℕ) (image : Mat UInt8) (ha : 1 ≤ a) (ha2 : a ≤ 11) (hN : 2 ≤ N)
    (hN2 : N ≤ 2 ^ 14) (hsq : image.IsSquare N) :
    ∃ (fs : List F64) (es : List ℝ), zernikeFeaturesF M image a = .ok fs ∧ calculateFeatures image .MomentsZernike a = .ok es ∧
      List.Forall₂ (fun f e => ∃ x : ℚ, f = .fin x ∧ |(x : ℝ) - e| ≤ 1 / 400) fs es := by
  obtain ⟨fs, h1, h2, h3⟩ := features_f64_accurate M hM N a image ha ha2 hN hN2 hsq
  refine ⟨fs, _, h1, features_square N image a ha hN hsq, ?_⟩
  rw [List.forall₂_iff_get]
  refine ⟨by simp [h2], ?_⟩
  intro i hi hi'
  have := h3 i hi
  simpa using this

/-- C65: no feature of an 8-bit image exceeds `510 a / π` by more than 1/400, or lies below -1/400. -/
theorem features_f64_range (M : Libm F64) (hM : M.Lawful) (N a : ℕ) (image : Mat UInt8) (ha : 1 ≤ a) (ha2 : a ≤ 11) (hN : 2 ≤ N)
    (hN2 : N ≤ 2 ^ 14) (hsq : image.IsSquare N) :
    ∃ fs : List F64, zernikeFeaturesF M image a = .ok fs ∧ fs.length = a ∧
      ∀ f ∈ fs, ∃ x : ℚ, f = .fin x ∧ -(1 / 400) ≤ (x : ℝ) ∧ (x : ℝ) ≤ 510 * a / Real.pi + 1 / 400 := by
  obtain ⟨fs, es, h1, h2, h3⟩ := features_f64_vs_exact M hM N a image ha ha2 hN hN2 hsq
  obtain ⟨es', he', hl⟩ := features_count image a ha (by rw [hsq.1]; exact hN) (by rw [hsq.1, hsq.2])
  rw [h2] at he'
  cases he'
  refine ⟨fs, h1, by rw [h3.length_eq, hl], ?_⟩
  have hb := features_bounded_255 N image a ha hN hsq es h2
  have hnn := features_bounded N image a ha hN hsq es h2
  intro f hf
  obtain ⟨i, hi, rfl⟩ := List.getElem_of_mem hf
  have hi' : i < es.length := by rw [← h3.length_eq]; exact hi
  obtain ⟨x, hx, he⟩ := List.Forall₂.get h3 (i := i) hi hi'
  have hm : es.get ⟨i, hi'⟩ ∈ es := List.get_mem _ _
  have hb' := abs_le.mp (hb _ hm)
  have h0 := (hnn _ hm).1
  have he' := abs_le.mp he
  exact ⟨x, hx, by linarith [he'.1], by linarith [he'.2, hb'.2]⟩

theorem forall2_through {α β γ δ : Type} {P : α → β → Prop} {Q : β → γ → Prop} {R : δ → γ → Prop} {S : α → δ → Prop} :
    ∀ {as : List α} {bs : List β} {cs : List γ} {ds : List δ}, List.Forall₂ P as bs → List.Forall₂ Q bs cs → List.Forall₂ R ds cs →
      (∀ a b c d, P a b → Q b c → R d c → S a d) → List.Forall₂ S as ds := by
  intro as bs cs ds h1
  induction h1 generalizing cs ds with
  | nil =>
    intro h2 h3 h
    cases h2
    cases h3
    exact .nil
  | cons hp _ ih =>
    intro h2 h3 h
    cases h2 with
    | cons hq h2' =>
      cases h3 with
      | cons hr h3' => exact .cons (h _ _ _ _ hp hq hr) (ih h2' h3' h)

/-- C65: the eight symmetries of the square change a computed feature by at most 1/200. -/
theorem features_f64_symmetric (M : Libm F64) (hM : M.Lawful) (N a : ℕ) (image image' : Mat UInt8) (ha : 1 ≤ a) (ha2 : a ≤ 11)
    (hN : 2 ≤ N) (hN2 : N ≤ 2 ^ 14) (hsq : image.IsSquare N) (hsq' : image'.IsSquare N) (swap flip1 flip2 : Bool)
    (h : ∀ i < N, ∀ j < N, image'.get i j =
      image.get (squareSymmetry N swap flip1 flip2 i j).1 (squareSymmetry N swap flip1 flip2 i j).2) :
    ∃ fs gs : List F64, zernikeFeaturesF M image a = .ok fs ∧ zernikeFeaturesF M image' a = .ok gs ∧
      List.Forall₂ (fun f g => ∃ x y : ℚ, f = .fin x ∧ g = .fin y ∧ |(y : ℝ) - x| ≤ 1 / 200) fs gs := by
  obtain ⟨fs, es, h1, h2, h3⟩ := features_f64_vs_exact M hM N a image ha ha2 hN hN2 hsq
  obtain ⟨gs, es', g1, g2, g3⟩ := features_f64_vs_exact M hM N a image' ha ha2 hN hN2 hsq'
  rw [features_symmetric N image image' a ha hN hsq hsq' swap flip1 flip2 h, h2] at g2
  cases g2
  refine ⟨fs, gs, h1, g1, forall2_through h3 (List.forall₂_same.mpr fun x _ => (rfl : x = x)) g3 ?_⟩
  rintro f e e' g ⟨x, hx, hxe⟩ rfl ⟨y, hy, hye⟩
  refine ⟨x, y, hx, hy, ?_⟩
  have a1 := abs_le.mp hxe
  have a2 := abs_le.mp hye
  rw [abs_le]
  constructor <;> linarith [a1.1, a1.2, a2.1, a2.2]

/-- C65: two images of equal size have computed features that differ by at most `2a/π` times their mean absolute pixel difference,
plus 1/200. -/
theorem features_f64_lipschitz (M : Libm F64) (hM : M.Lawful) (N a : ℕ) (image image' : Mat UInt8) (ha : 1 ≤ a) (ha2 : a ≤ 11)
    (hN : 2 ≤ N) (hN2 : N ≤ 2 ^ 14) (hsq : image.IsSquare N) (hsq' : image'.IsSquare N) :
    ∃ fs gs : List F64, zernikeFeaturesF M image a = .ok fs ∧ zernikeFeaturesF M image' a = .ok gs ∧
      List.Forall₂ (fun f g => ∃ x y : ℚ, f = .fin x ∧ g = .fin y ∧
        |(y : ℝ) - x| ≤ 2 * a / Real.pi * meanDifference N image image' + 1 / 200) fs gs := by
  obtain ⟨fs, es, h1, h2, h3⟩ := features_f64_vs_exact M hM N a image ha ha2 hN hN2 hsq
  obtain ⟨gs, es', g1, g2, g3⟩ := features_f64_vs_exact M hM N a image' ha ha2 hN hN2 hsq'
  refine ⟨fs, gs, h1, g1, forall2_through h3 (features_lipschitz N image image' a ha hN hsq hsq' es es' h2 g2) g3 ?_⟩
  rintro f e e' g ⟨x, hx, hxe⟩ hl ⟨y, hy, hye⟩
  refine ⟨x, y, hx, hy, ?_⟩
  have a1 := abs_le.mp hxe
  have a2 := abs_le.mp hye
  have a3 := abs_le.mp hl
  rw [abs_le]
  constructor <;> linarith [a1.1, a1.2, a2.1, a2.2, a3.1, a3.2]

/-- C65: every computed feature of a centrally symmetric image (for example a constant one) is at most 1/400. -/
theorem features_f64_central (M : Libm F64) (hM : M.Lawful) (N a : ℕ) (image : Mat UInt8) (ha : 1 ≤ a) (ha2 : a ≤ 11)
    (hN : 2 ≤ N) (hN2 : N ≤ 2 ^ 14) (hsq : image.IsSquare N)
    (h : ∀ i < N, ∀ j < N, image.get (N - 1 - i) (N - 1 - j) = image.get i j) :
    ∃ fs : List F64, zernikeFeaturesF M image a = .ok fs ∧ fs.length = a ∧ ∀ f ∈ fs, ∃ x : ℚ, f = .fin x ∧ |(x : ℝ)| ≤ 1 / 400 := by
  obtain ⟨fs, es, h1, h2, h3⟩ := features_f64_vs_exact M hM N a image ha ha2 hN hN2 hsq
  rw [features_central N image a ha hN hsq h] at h2
  cases h2
  have hl := h3.length_eq
  rw [List.length_replicate] at hl
  refine ⟨fs, h1, hl, ?_⟩
  intro f hf
  obtain ⟨i, hi, rfl⟩ := List.getElem_of_mem hf
  obtain ⟨x, hx, he⟩ := List.Forall₂.get h3 (i := i) hi (by simpa using (by omega : i < a))
  refine ⟨x, hx, ?_⟩
  simpa using he

end Sia
