import Verif.Lemmas.ZernikeLemmas

/-! C30–C35: Zernike features in exact arithmetic. -/
namespace Sia
open Finset

/-! ### C35 -/

/-- C35: factorial of a natural number. -/
theorem factorial_natural (n : Nat) : factorial (n : ℝ) = .ok (n.factorial : ℝ) := factorial_nat n

/-- C35: the recursion never ends on a negative integer: no recursion depth is enough. -/
theorem factorial_negative_diverges (k : Nat) :
    (∀ fuel, factorialFuel fuel (-((k : ℝ) + 1)) = none) ∧ factorial (-((k : ℝ) + 1)) = .error .stackOverflow := by
  have h : ∀ fuel, factorialFuel fuel (-((k : ℝ) + 1)) = none := by
    intro fuel
    have := factorialFuel_neg fuel (-((k : ℤ) + 1)) (by omega)
    push_cast at this
    exact this
  refine ⟨h, ?_⟩
  unfold factorial
  rw [dif_neg]
  rintro ⟨r, fuel, hr⟩
  rw [h fuel] at hr
  simp at hr

/-- C35: everywhere else the result is Gamma(1+x). -/
theorem factorial_non_integer (x : ℝ) (hx : ∀ z : ℤ, x ≠ z) : factorial x = .ok (Real.Gamma (1 + x)) := by
  apply factorial_of_fuel 1
  unfold factorialFuel
  rw [if_pos]
  intro h
  obtain ⟨z, hz⟩ := Int.fract_eq_zero_iff.mp h
  exact hx z hz.symm

example : factorial 4 = .ok 24 := by
  have := factorial_natural 4
  norm_num [Nat.factorial] at this
  exact this

/-! ### C34 -/

/-- C34: every pixel lies in the closed unit disc, the four corners on its boundary. -/
theorem toPolar_unit_disc (n i j : Nat) (hn : 2 ≤ n) (hi1 : 1 ≤ i) (hi : i ≤ n) (hj1 : 1 ≤ j) (hj : j ≤ n) :
    0 ≤ (toPolar i j n).1 ∧ (toPolar i j n).1 ≤ 1 ∧
      (((i = 1 ∨ i = n) ∧ (j = 1 ∨ j = n)) → (toPolar i j n).1 = 1) := by
  obtain ⟨i, rfl⟩ : ∃ k, i = k + 1 := ⟨i - 1, by omega⟩
  obtain ⟨j, rfl⟩ : ∃ k, j = k + 1 := ⟨j - 1, by omega⟩
  rw [toPolar_eq n i j hn]
  dsimp only
  have hn' : (1 : ℝ) < n := by exact_mod_cast hn
  have hpos : (0 : ℝ) < n - 1 := by linarith
  have hsq : Real.sqrt 2 * Real.sqrt 2 = 2 := Real.mul_self_sqrt (by norm_num)
  have hform : ‖pixelPoint n i j‖ ^ 2 = ((2 * (i : ℝ) - (n - 1)) ^ 2 + (2 * (j : ℝ) - (n - 1)) ^ 2) / (2 * (n - 1) ^ 2) := by
    rw [Complex.sq_norm, Complex.normSq_apply]
    unfold pixelPoint
    dsimp only
    rw [div_mul_div_comm, div_mul_div_comm, ← add_div]
    congr 1
    · ring
    · calc _ = (Real.sqrt 2 * Real.sqrt 2) * (n - 1) ^ 2 := by ring
        _ = _ := by rw [hsq]
  have hb : ∀ k : Nat, k + 1 ≤ n → (2 * (k : ℝ) - (n - 1)) ^ 2 ≤ (n - 1) ^ 2 := by
    intro k hk
    have h0 : (0 : ℝ) ≤ k := by positivity
    have h1 : (k : ℝ) + 1 ≤ n := by exact_mod_cast hk
    nlinarith
  refine ⟨norm_nonneg _, ?_, ?_⟩
  · have h1 := hb i hi
    have h2 := hb j hj
    have h3 : ‖pixelPoint n i j‖ ^ 2 ≤ 1 := by
      rw [hform, div_le_one (by positivity)]; linarith
    nlinarith [norm_nonneg (pixelPoint n i j)]
  · rintro ⟨h1, h2⟩
    have hc : ∀ k : Nat, (k + 1 = 1 ∨ k + 1 = n) → (2 * (k : ℝ) - (n - 1)) ^ 2 = (n - 1) ^ 2 := by
      rintro k (h | h)
      · have : k = 0 := by omega
        subst this; push_cast; ring
      · have : (k : ℝ) = n - 1 := by rw [← h]; push_cast; ring
        rw [this]; ring
    have h3 : ‖pixelPoint n i j‖ ^ 2 = 1 := by
      rw [hform, hc i h1, hc j h2]
      field_simp
      ring
    have := norm_nonneg (pixelPoint n i j)
    nlinarith

/-! ### C33 -/

/-- `Σ_k (-1)^k C(q,k) C(N-k,r) = C(N-q, r-q)`. -/
theorem alternating_choose (q : Nat) : ∀ N r : Nat, q ≤ N → q ≤ r →
    ∑ k ∈ range (q + 1), (-1 : ℤ) ^ k * (q.choose k : ℤ) * ((N - k).choose r : ℤ) = ((N - q).choose (r - q) : ℤ) := by
  induction q with
  | zero => intro N r _ _; simp
  | succ q ih =>
    intro N r hN hr
    have hpas : ∑ k ∈ range (q + 1 + 1), (-1 : ℤ) ^ k * ((q + 1).choose k : ℤ) * ((N - k).choose r : ℤ) =
        ∑ k ∈ range (q + 1), (-1 : ℤ) ^ k * (q.choose k : ℤ) * ((N - k).choose r : ℤ) -
        ∑ k ∈ range (q + 1), (-1 : ℤ) ^ k * (q.choose k : ℤ) * ((N - 1 - k).choose r : ℤ) := by
      rw [sum_range_succ', ← sub_eq_zero]
      have e1 : ∑ k ∈ range (q + 1), (-1 : ℤ) ^ k * (q.choose k : ℤ) * ((N - k).choose r : ℤ) =
          ∑ k ∈ range (q + 1), (-1 : ℤ) ^ (k + 1) * (q.choose (k + 1) : ℤ) * ((N - (k + 1)).choose r : ℤ) +
            (N.choose r : ℤ) := by
        have := sum_range_succ' (fun k => (-1 : ℤ) ^ k * (q.choose k : ℤ) * ((N - k).choose r : ℤ)) (q + 1)
        rw [sum_range_succ] at this
        simpa using this
      rw [e1]
      have e2 : ∀ k, N - 1 - k = N - (k + 1) := by intro k; omega
      simp only [e2]
      have e3 : ∀ k ∈ range (q + 1), (-1 : ℤ) ^ (k + 1) * ((q + 1).choose (k + 1) : ℤ) * ((N - (k + 1)).choose r : ℤ) =
          (-1 : ℤ) ^ (k + 1) * (q.choose (k + 1) : ℤ) * ((N - (k + 1)).choose r : ℤ) -
          (-1 : ℤ) ^ k * (q.choose k : ℤ) * ((N - (k + 1)).choose r : ℤ) := by
        intro k _
        rw [Nat.choose_succ_succ]
        push_cast
        ring
      rw [sum_congr rfl e3, sum_sub_distrib]
      simp only [pow_zero, Nat.choose_zero_right, Nat.cast_one, Nat.sub_zero, one_mul]
      ring
    rw [hpas, ih N r (by omega) (by omega), ih (N - 1) r (by omega) (by omega)]
    have e4 : N - q = (N - (q + 1)) + 1 := by omega
    have e5 : r - q = (r - (q + 1)) + 1 := by omega
    have e6 : N - 1 - q = N - (q + 1) := by omega
    rw [e4, e5, e6, Nat.choose_succ_succ]
    push_cast
    ring

/-- C33: the radial function of the code is the standard radial Zernike polynomial (whose coefficients are integers by
definition), for every order and every index of the same parity, and every radius. -/
theorem radial_is_zernike (n m : Nat) (r : ℝ) (hm : m ≤ n) (hp : n % 2 = m % 2) :
    radial n m r = .ok (zernikeRadial n m r) := radial_ok n m r hm (by omega)

/-- C33: value 1 at radius 1. -/
theorem zernikeRadial_one (n m : Nat) (hm : m ≤ n) (hp : n % 2 = m % 2) : zernikeRadial n m 1 = 1 := by
  unfold zernikeRadial
  simp only [one_pow, mul_one]
  suffices hz : ∑ k ∈ range ((n - m) / 2 + 1), ((-1 : ℤ) ^ k * ((n - k).choose k : ℤ) * ((n - 2 * k).choose ((n - m) / 2 - k) : ℤ)) = 1 by
    exact_mod_cast hz
  -- p = (n-m)/2, q = (n+m)/2
  have hq := alternating_choose ((n + m) / 2) n ((n + m) / 2) (by omega) le_rfl
  rw [Nat.sub_self, Nat.choose_zero_right, Nat.cast_one] at hq
  have hsub : range ((n - m) / 2 + 1) ⊆ range ((n + m) / 2 + 1) := by
    apply range_subset_range.mpr; omega
  refine Eq.trans ?_ hq
  rw [← sum_subset hsub]
  · apply sum_congr rfl
    intro k hk
    have hk' : k ≤ (n - m) / 2 := by have := mem_range.mp hk; omega
    rw [mul_assoc, mul_assoc]
    congr 1
    -- C(q,k) C(n-k,q) = C(n-k,k) C(n-2k,p-k)
    have h1 := Nat.choose_mul (n := n - k) (k := (n + m) / 2) (s := k) (by omega)
    have h2 : (n - k - k).choose ((n + m) / 2 - k) = (n - 2 * k).choose ((n - m) / 2 - k) := by
      rw [show n - k - k = n - 2 * k by omega, ← Nat.choose_symm (by omega)]
      congr 1
      omega
    rw [h2] at h1
    rw [mul_comm] at h1
    exact_mod_cast h1.symm
  · intro k hk1 hk2
    rw [mem_range] at hk1
    have hk' : (n - m) / 2 < k := by rw [mem_range] at hk2; omega
    rw [Nat.choose_eq_zero_of_lt (show n - k < (n + m) / 2 by omega)]
    simp

/-- C33: the polynomial has the parity of the order. -/
theorem zernikeRadial_parity (n m : Nat) (r : ℝ) : zernikeRadial n m (-r) = (-1) ^ n * zernikeRadial n m r := by
  unfold zernikeRadial
  rw [mul_sum]
  apply sum_congr rfl
  intro k hk
  have hk' : 2 * k ≤ n := by have := mem_range.mp hk; omega
  rw [neg_pow r, ← Nat.sub_add_cancel hk', pow_add, pow_mul, Nat.add_sub_cancel]
  norm_num
  ring

theorem zernikeRadial_zero (n m : Nat) (hm : m ≤ n) (h1 : 1 ≤ m) : zernikeRadial n m 0 = 0 := by
  unfold zernikeRadial
  apply sum_eq_zero
  intro k hk
  have hk' : k ≤ (n - m) / 2 := by have := mem_range.mp hk; omega
  rw [zero_pow (by omega), mul_zero]

/-- R_3^1 = 3 r^3 - 2 r. -/
example (r : ℝ) : radial 3 1 r = .ok (3 * r ^ 3 - 2 * r) := by
  rw [radial_is_zernike 3 1 r (by norm_num) (by norm_num)]
  congr 1
  unfold zernikeRadial
  simp [sum_range_succ, Nat.choose]
  ring

/-! ### moments -/

theorem sum_range_grid {M : Type} [AddCommMonoid M] (a N : Nat) (f : Nat → M) :
    ∑ k ∈ range (a * N), f k = ∑ i ∈ range a, ∑ j ∈ range N, f (i * N + j) := by
  induction a with
  | zero => simp
  | succ a ih => rw [Nat.succ_mul, sum_range_add, ih, sum_range_succ]

/-- The pixel values of an image as reals. -/
noncomputable def pixelReal (image : Mat UInt8) (i j : Nat) : ℝ := ((image.get i j).toNat : ℝ)

theorem getZernikeMatrix_length (n m N : Nat) (l : List ℂ) (h : getZernikeMatrix n m N = .ok l) : l.length = N * N := by
  have := mapM_except_length _ _ h
  simpa using this

/-- The moment of an image with at most as many columns as rows. -/
theorem moment_general (n m : Nat) (image : Mat UInt8) (hm : m ≤ n) (hp : n % 2 = m % 2) (hN : 2 ≤ image.rows)
    (hc : image.cols ≤ image.rows) :
    zernikeMoment n m image = .ok ((((((n : ℝ) + 1) / Real.pi : ℝ)) : ℂ) *
      (∑ k ∈ range (image.rows * image.cols), (starRingEnd ℂ) (zernikeV n m (pixelPoint image.rows (k / image.rows) (k % image.rows))) *
        (((image.get (k / image.cols) (k % image.cols)).toNat : ℕ) : ℂ)) / (((image.rows * image.cols : ℕ) : ℝ) : ℂ)) := by
  unfold zernikeMoment
  dsimp only
  have hmat : getZernikeMatrix n m image.rows = .ok ((List.range (image.rows * image.rows)).map fun i =>
      (starRingEnd ℂ) (zernikeV n m (pixelPoint image.rows (i / image.rows) (i % image.rows)))) :=
    mapM_except_ok _ (fun i _ => zernikeEntry_ok n m image.rows i hm (by omega) hN)
  rw [hmat]
  simp only [bind, Except.bind]
  have hlen : image.toList.length = image.rows * image.cols := by unfold Mat.toList; simp
  have hle : image.rows * image.cols ≤ image.rows * image.rows := Nat.mul_le_mul_left _ hc
  have := zipIdx_foldlM ((List.range (image.rows * image.rows)).map fun i =>
      (starRingEnd ℂ) (zernikeV n m (pixelPoint image.rows (i / image.rows) (i % image.rows)))) image.toList
      (by rw [hlen]; simpa using hle)
  rw [this]
  simp only [pure, Except.pure]
  congr 3
  rw [hlen]
  apply sum_congr rfl
  intro k hk
  have hk' := mem_range.mp hk
  congr 1
  · rw [List.getD_eq_getElem?_getD, List.getElem?_map, List.getElem?_range (by omega)]; rfl
  · unfold Mat.toList
    rw [List.getD_eq_getElem?_getD, List.getElem?_map, List.getElem?_range (by omega)]; rfl

/-- C30: the moment of a square image is the Zernike moment. -/
theorem moment_square (n m N : Nat) (image : Mat UInt8) (hm : m ≤ n) (hp : n % 2 = m % 2) (hN : 2 ≤ N)
    (hsq : image.IsSquare N) : zernikeMoment n m image = .ok (specMoment N (pixelReal image) n m) := by
  rw [moment_general n m image hm hp (by rw [hsq.1]; exact hN) (by rw [hsq.1, hsq.2]), hsq.1, hsq.2, sum_range_grid]
  congr 1
  unfold specMoment
  push_cast
  congr 2
  apply sum_congr rfl
  intro i _
  apply sum_congr rfl
  intro j hj
  have hj' := mem_range.mp hj
  have e1 : (i * N + j) / N = i := by
    rw [mul_comm, Nat.mul_add_div (by omega), Nat.div_eq_of_lt hj', add_zero]
  have e2 : (i * N + j) % N = j := by
    rw [mul_comm, Nat.mul_add_mod, Nat.mod_eq_of_lt hj']
  rw [e1, e2]
  unfold pixelReal
  push_cast
  ring

theorem momentIndices_odd (a : Nat) (ha : 1 ≤ a) : momentIndices (1 + 2 * (a - 1)) = (List.range a).map fun k => 2 * k + 1 := by
  unfold momentIndices
  dsimp only
  rw [if_pos (by omega), show (1 + 2 * (a - 1) + 2 - 1) / 2 = a by omega]
  apply List.map_congr_left
  intro k _
  omega

/-- C30: number of features, for every image with at least two rows and at most as many columns as rows. -/
theorem features_count (image : Mat UInt8) (a : Nat) (ha : 1 ≤ a) (hN : 2 ≤ image.rows) (hc : image.cols ≤ image.rows) :
    ∃ fs, calculateFeatures image .MomentsZernike a = .ok fs ∧ fs.length = a := by
  unfold calculateFeatures zernikeFeatures orderByFeaturesAmount
  simp only [if_neg (show ¬ a = 0 by omega), bind, Except.bind]
  obtain ⟨fs, hfs⟩ := (mapM_except_isOk (f := fun index => do
    let m ← zernikeMoment (1 + 2 * (a - 1)) index image
    return ‖m‖) (momentIndices (1 + 2 * (a - 1)))).mpr (by
      intro index hidx
      rw [momentIndices_odd a ha] at hidx
      obtain ⟨k, hk, rfl⟩ := List.mem_map.mp hidx
      have hk' := List.mem_range.mp hk
      rw [moment_general _ _ image (by omega) (by omega) hN hc]
      exact ⟨_, rfl⟩)
  refine ⟨fs, hfs, ?_⟩
  have := mapM_except_length _ _ hfs
  rw [this, momentIndices_odd a ha]
  simp

/-- C30: identity of the features of a square image: the moduli of the Zernike moments of order `2a-1` and index
`1, 3, .., 2a-1`. -/
theorem features_square (N : Nat) (image : Mat UInt8) (a : Nat) (ha : 1 ≤ a) (hN : 2 ≤ N) (hsq : image.IsSquare N) :
    calculateFeatures image .MomentsZernike a =
      .ok ((List.range a).map fun k => ‖specMoment N (pixelReal image) (2 * a - 1) (2 * k + 1)‖) := by
  unfold calculateFeatures zernikeFeatures orderByFeaturesAmount
  simp only [if_neg (show ¬ a = 0 by omega), bind, Except.bind]
  rw [momentIndices_odd a ha, mapM_except_ok (g := fun index => ‖specMoment N (pixelReal image) (2 * a - 1) index‖)]
  · rw [List.map_map]; rfl
  · intro index hidx
    obtain ⟨k, hk, rfl⟩ := List.mem_map.mp hidx
    have hk' := List.mem_range.mp hk
    rw [moment_square _ _ N image (by omega) (by omega) hN hsq]
    dsimp only [pure, Except.pure]
    rw [show 1 + 2 * (a - 1) = 2 * a - 1 by omega]

/-- The pixels of a picture with fewer columns than rows, at their places in the packed picture. -/
theorem packed_sum (n m N P : Nat) (hN : 0 < N) (hc : P ≤ N) (image : Mat UInt8) :
    ∑ k ∈ range (N * P), (starRingEnd ℂ) (zernikeV n m (pixelPoint N (k / N) (k % N))) * (((image.get (k / P) (k % P)).toNat : ℕ) : ℂ) =
      ∑ i ∈ range N, ∑ j ∈ range N, (packed N P (pixelReal image) i j : ℂ) * (starRingEnd ℂ) (zernikeV n m (pixelPoint N i j)) := by
  have h : ∑ i ∈ range N, ∑ j ∈ range N, (packed N P (pixelReal image) i j : ℂ) * (starRingEnd ℂ) (zernikeV n m (pixelPoint N i j)) =
      ∑ i ∈ range N, ∑ j ∈ range N, (fun k => (packed N P (pixelReal image) (k / N) (k % N) : ℂ) *
        (starRingEnd ℂ) (zernikeV n m (pixelPoint N (k / N) (k % N)))) (i * N + j) := by
    refine sum_congr rfl fun i _ => sum_congr rfl fun j hj => ?_
    have hj' := mem_range.mp hj
    have e1 : (i * N + j) / N = i := by rw [mul_comm, Nat.mul_add_div hN, Nat.div_eq_of_lt hj', add_zero]
    have e2 : (i * N + j) % N = j := by rw [mul_comm, Nat.mul_add_mod, Nat.mod_eq_of_lt hj']
    dsimp only
    rw [e1, e2]
  rw [h, ← sum_range_grid N N (fun k => (packed N P (pixelReal image) (k / N) (k % N) : ℂ) *
        (starRingEnd ℂ) (zernikeV n m (pixelPoint N (k / N) (k % N))))]
  have hle : N * P ≤ N * N := Nat.mul_le_mul_left _ hc
  rw [← Nat.add_sub_cancel' hle, sum_range_add]
  rw [sum_eq_zero (s := range (N * N - N * P)), add_zero]
  · refine sum_congr rfl fun k hk => ?_
    have hk' := mem_range.mp hk
    unfold packed
    rw [mul_comm (k / N), Nat.div_add_mod, if_pos hk', mul_comm]
    unfold pixelReal
    push_cast
    rfl
  · intro k _
    unfold packed
    rw [mul_comm ((N * P + k) / N), Nat.div_add_mod, if_neg (by omega)]
    simp

/-- C30: identity of the features of a picture with at most as many columns as rows: those of the packed square picture, times the
ratio of the sides. -/
theorem features_packed (N P : Nat) (image : Mat UInt8) (a : Nat) (ha : 1 ≤ a) (hN : 2 ≤ N) (hP : 1 ≤ P) (hc : P ≤ N)
    (hrows : image.rows = N) (hcols : image.cols = P) :
    calculateFeatures image .MomentsZernike a =
      .ok ((List.range a).map fun k => (N : ℝ) / P * ‖specMoment N (packed N P (pixelReal image)) (2 * a - 1) (2 * k + 1)‖) := by
  unfold calculateFeatures zernikeFeatures orderByFeaturesAmount
  simp only [if_neg (show ¬ a = 0 by omega), bind, Except.bind]
  rw [momentIndices_odd a ha, mapM_except_ok
    (g := fun index => (N : ℝ) / P * ‖specMoment N (packed N P (pixelReal image)) (2 * a - 1) index‖)]
  · rw [List.map_map]; rfl
  · intro index hidx
    obtain ⟨k, hk, rfl⟩ := List.mem_map.mp hidx
    have hk' := List.mem_range.mp hk
    rw [moment_general _ _ image (by omega) (by omega) (by rw [hrows]; exact hN) (by rw [hrows, hcols]; exact hc), hrows, hcols,
      packed_sum _ _ N P (by omega) hc, show 1 + 2 * (a - 1) = 2 * a - 1 by omega]
    dsimp only [pure, Except.pure]
    congr 1
    have hN0 : (N : ℝ) ≠ 0 := by exact_mod_cast (by omega : N ≠ 0)
    have hP0 : (P : ℝ) ≠ 0 := by exact_mod_cast (by omega : P ≠ 0)
    have e : ((N : ℝ) / P) = ‖(((N : ℝ) / P : ℝ) : ℂ)‖ := by
      rw [Complex.norm_real, Real.norm_eq_abs, abs_of_nonneg (by positivity)]
    rw [e, ← norm_mul]
    congr 1
    unfold specMoment
    have hNc : (N : ℂ) ≠ 0 := by exact_mod_cast (by omega : N ≠ 0)
    have hPc : (P : ℂ) ≠ 0 := by exact_mod_cast (by omega : P ≠ 0)
    push_cast
    field_simp

theorem foldlM_error {α M : Type} {g : M → α → Res M} (a : α) (h : ∀ acc, ∃ e, g acc a = .error e) :
    ∀ (l : List α), a ∈ l → ∀ acc, ∃ e, l.foldlM g acc = .error e := by
  intro l
  induction l with
  | nil => intro h; simp at h
  | cons b l ih =>
    intro hmem acc
    rw [List.foldlM_cons]
    rcases List.mem_cons.mp hmem with rfl | h'
    · obtain ⟨e, he⟩ := h acc
      exact ⟨e, by rw [he]; rfl⟩
    · cases hg : g acc b with
      | error e => exact ⟨e, rfl⟩
      | ok v => exact ih h' v

/-- C30: features_amount 0 aborts; an image with more columns than rows aborts; other feature types give no features. -/
theorem features_abort (image : Mat UInt8) (a : Nat)
    (h : a = 0 ∨ (1 ≤ image.rows ∧ image.rows < image.cols)) :
    ∃ e, calculateFeatures image .MomentsZernike a = .error e := by
  unfold calculateFeatures zernikeFeatures orderByFeaturesAmount
  dsimp only
  split_ifs with h0
  · exact ⟨_, rfl⟩
  · have hc : 1 ≤ image.rows ∧ image.rows < image.cols := by tauto
    simp only [bind, Except.bind]
    generalize hm : List.mapM (m := Except Panic) _ (momentIndices (1 + 2 * (a - 1))) = y
    cases y with
    | error e => exact ⟨e, rfl⟩
    | ok fs =>
      exfalso
      obtain ⟨b, hb⟩ := (mapM_except_isOk _).mp ⟨fs, hm⟩ 1 (by
        rw [momentIndices_odd a (by omega)]
        exact List.mem_map.mpr ⟨0, List.mem_range.mpr (by omega), rfl⟩)
      unfold zernikeMoment at hb
      dsimp only at hb
      cases hmat : getZernikeMatrix (1 + 2 * (a - 1)) 1 image.rows with
      | error e => rw [hmat] at hb; simp [bind, Except.bind] at hb
      | ok matrix =>
        have hl := getZernikeMatrix_length _ _ _ _ hmat
        obtain ⟨p, hp⟩ : ∃ p, (p, image.rows * image.rows) ∈ image.toList.zipIdx := by
          have hlen : image.toList.length = image.rows * image.cols := by unfold Mat.toList; simp
          have hlt : image.rows * image.rows < image.toList.length := by
            rw [hlen]; exact Nat.mul_lt_mul_of_pos_left hc.2 (by omega)
          refine ⟨image.toList[image.rows * image.rows], ?_⟩
          rw [List.mk_mem_zipIdx_iff_getElem?]
          exact List.getElem?_eq_getElem hlt
        obtain ⟨e, he⟩ := foldlM_error (g := momentStep matrix) (p, image.rows * image.rows) (by
            intro acc
            refine ⟨.unwrapNone, ?_⟩
            unfold momentStep
            rw [List.getElem?_eq_none (by omega)]) image.toList.zipIdx hp 0
        rw [hmat] at hb
        simp only [bind, Except.bind] at hb
        rw [he] at hb
        simp at hb

theorem features_other_types (image : Mat UInt8) (a : Nat) :
    calculateFeatures image .MomentsPseudoZernike a = .ok [] ∧ calculateFeatures image .CentralFiniteDifferences a = .ok [] :=
  ⟨rfl, rfl⟩

/-! ### C31, C32 -/

theorem zernikeV_eq (n m : Nat) (z : ℂ) (hz : z ≠ 0) : zernikeV n m z = (zernikeRadial n m ‖z‖ : ℂ) * (z / ‖z‖) ^ m := by
  unfold zernikeV
  congr 1
  have h1 : Complex.exp (Complex.arg z * Complex.I) = z / ‖z‖ := by
    rw [eq_div_iff (by simpa using hz), mul_comm]
    exact Complex.norm_mul_exp_arg_mul_I z
  rw [← h1, ← Complex.exp_nat_mul]
  congr 1
  ring

theorem zernikeV_zero (n m : Nat) (hm : m ≤ n) (h1 : 1 ≤ m) : zernikeV n m 0 = 0 := by
  unfold zernikeV
  rw [norm_zero, zernikeRadial_zero n m hm h1]
  simp

/-- Reflections. -/
theorem zernikeV_reflect (n m : Nat) (hm : m ≤ n) (h1 : 1 ≤ m) (w z : ℂ) (hw : ‖w‖ = 1) :
    zernikeV n m (w * (starRingEnd ℂ) z) = w ^ m * (starRingEnd ℂ) (zernikeV n m z) := by
  by_cases hz : z = 0
  · subst hz; simp [zernikeV_zero n m hm h1]
  · have hw0 : w ≠ 0 := by rintro rfl; simp at hw
    have hcz : (starRingEnd ℂ) z ≠ 0 := by simpa using hz
    rw [zernikeV_eq n m _ (mul_ne_zero hw0 hcz), zernikeV_eq n m z hz]
    rw [norm_mul, hw, one_mul, RCLike.norm_conj]
    simp only [map_mul, map_pow, map_div₀, Complex.conj_ofReal]
    rw [mul_div_assoc, mul_pow]
    ring

theorem specMoment_reflect (N : Nat) (pixel : Nat → Nat → ℝ) (n m : Nat) (hm : m ≤ n) (h1 : 1 ≤ m) (w : ℂ) (hw : ‖w‖ = 1)
    (pixel' : Nat → Nat → ℝ)
    (h : ∑ i ∈ range N, ∑ j ∈ range N, (pixel' i j : ℂ) * (starRingEnd ℂ) (zernikeV n m (pixelPoint N i j)) =
      ∑ i ∈ range N, ∑ j ∈ range N, (pixel i j : ℂ) * (starRingEnd ℂ) (zernikeV n m (w * (starRingEnd ℂ) (pixelPoint N i j)))) :
    ‖specMoment N pixel' n m‖ = ‖specMoment N pixel n m‖ := by
  unfold specMoment
  rw [h]
  have e : ∑ i ∈ range N, ∑ j ∈ range N, (pixel i j : ℂ) * (starRingEnd ℂ) (zernikeV n m (w * (starRingEnd ℂ) (pixelPoint N i j))) =
      (starRingEnd ℂ) (w ^ m * ∑ i ∈ range N, ∑ j ∈ range N, (pixel i j : ℂ) * (starRingEnd ℂ) (zernikeV n m (pixelPoint N i j))) := by
    rw [map_mul, map_sum, mul_sum]
    apply sum_congr rfl
    intro i _
    rw [map_sum, mul_sum]
    apply sum_congr rfl
    intro j _
    rw [zernikeV_reflect n m hm h1 w _ hw]
    simp only [map_mul, Complex.conj_ofReal, Complex.conj_conj]
    ring
  rw [e]
  simp only [norm_mul, norm_div, RCLike.norm_conj, norm_pow, hw, one_pow, one_mul]

theorem pixelPoint_flip1 (N i j : Nat) (hi : i < N) : pixelPoint N (N - 1 - i) j = -1 * (starRingEnd ℂ) (pixelPoint N i j) := by
  have e : ((N - 1 - i : ℕ) : ℝ) = (N : ℝ) - 1 - i := by
    rw [Nat.cast_sub (by omega), Nat.cast_sub (by omega)]; norm_num
  apply Complex.ext
  · simp only [pixelPoint, Complex.mul_re, Complex.neg_re, Complex.one_re, Complex.conj_re, Complex.neg_im, Complex.one_im, Complex.conj_im]
    rw [e]; ring
  · simp only [pixelPoint, Complex.mul_im, Complex.neg_re, Complex.one_re, Complex.conj_re, Complex.neg_im, Complex.one_im, Complex.conj_im]
    ring

theorem pixelPoint_flip2 (N i j : Nat) (hj : j < N) : pixelPoint N i (N - 1 - j) = 1 * (starRingEnd ℂ) (pixelPoint N i j) := by
  have e : ((N - 1 - j : ℕ) : ℝ) = (N : ℝ) - 1 - j := by
    rw [Nat.cast_sub (by omega), Nat.cast_sub (by omega)]; norm_num
  apply Complex.ext
  · simp only [pixelPoint, one_mul, Complex.conj_re]
  · simp only [pixelPoint, one_mul, Complex.conj_im]
    rw [e]; ring

theorem pixelPoint_swap (N i j : Nat) : pixelPoint N j i = Complex.I * (starRingEnd ℂ) (pixelPoint N i j) := by
  apply Complex.ext
  · simp [pixelPoint]
  · simp [pixelPoint]

theorem norm_flip1 (N : Nat) (pixel : Nat → Nat → ℝ) (n m : Nat) (hm : m ≤ n) (h1 : 1 ≤ m) :
    ‖specMoment N (fun i j => pixel (N - 1 - i) j) n m‖ = ‖specMoment N pixel n m‖ := by
  apply specMoment_reflect N pixel n m hm h1 (-1) (by simp)
  rw [← sum_range_reflect]
  apply sum_congr rfl
  intro i hi
  have hi' := mem_range.mp hi
  apply sum_congr rfl
  intro j _
  rw [← pixelPoint_flip1 N i j hi', show N - 1 - (N - 1 - i) = i by omega]

theorem norm_flip2 (N : Nat) (pixel : Nat → Nat → ℝ) (n m : Nat) (hm : m ≤ n) (h1 : 1 ≤ m) :
    ‖specMoment N (fun i j => pixel i (N - 1 - j)) n m‖ = ‖specMoment N pixel n m‖ := by
  apply specMoment_reflect N pixel n m hm h1 1 (by simp)
  apply sum_congr rfl
  intro i _
  rw [← sum_range_reflect]
  apply sum_congr rfl
  intro j hj
  have hj' := mem_range.mp hj
  rw [← pixelPoint_flip2 N i j hj', show N - 1 - (N - 1 - j) = j by omega]

theorem norm_swap (N : Nat) (pixel : Nat → Nat → ℝ) (n m : Nat) (hm : m ≤ n) (h1 : 1 ≤ m) :
    ‖specMoment N (fun i j => pixel j i) n m‖ = ‖specMoment N pixel n m‖ := by
  apply specMoment_reflect N pixel n m hm h1 Complex.I (by simp)
  rw [sum_comm]
  apply sum_congr rfl
  intro i _
  apply sum_congr rfl
  intro j _
  rw [pixelPoint_swap N i j]

theorem specMoment_congr (N : Nat) (p q : Nat → Nat → ℝ) (n m : Nat) (h : ∀ i < N, ∀ j < N, p i j = q i j) :
    specMoment N p n m = specMoment N q n m := by
  unfold specMoment
  congr 2
  apply sum_congr rfl
  intro i hi
  apply sum_congr rfl
  intro j hj
  rw [h i (mem_range.mp hi) j (mem_range.mp hj)]

/-- C31: the features of a square image are unchanged under all eight symmetries of the square. -/
theorem features_symmetric (N : Nat) (image image' : Mat UInt8) (a : Nat) (ha : 1 ≤ a) (hN : 2 ≤ N)
    (hsq : image.IsSquare N) (hsq' : image'.IsSquare N) (swap flip1 flip2 : Bool)
    (h : ∀ i < N, ∀ j < N, image'.get i j =
      image.get (squareSymmetry N swap flip1 flip2 i j).1 (squareSymmetry N swap flip1 flip2 i j).2) :
    calculateFeatures image' .MomentsZernike a = calculateFeatures image .MomentsZernike a := by
  rw [features_square N image a ha hN hsq, features_square N image' a ha hN hsq']
  congr 1
  apply List.map_congr_left
  intro k hk
  have hk' := List.mem_range.mp hk
  have hm : 2 * k + 1 ≤ 2 * a - 1 := by omega
  -- reflect, reflect, swap
  let p0 := pixelReal image
  let p2 : Nat → Nat → ℝ := if flip2 then fun i j => p0 i (N - 1 - j) else p0
  let p1 : Nat → Nat → ℝ := if flip1 then fun i j => p2 (N - 1 - i) j else p2
  let q : Nat → Nat → ℝ := if swap then fun i j => p1 j i else p1
  have e2 : ‖specMoment N p2 (2 * a - 1) (2 * k + 1)‖ = ‖specMoment N p0 (2 * a - 1) (2 * k + 1)‖ := by
    dsimp only [p2]; cases flip2
    · rfl
    · exact norm_flip2 N p0 _ _ hm (by omega)
  have e1 : ‖specMoment N p1 (2 * a - 1) (2 * k + 1)‖ = ‖specMoment N p2 (2 * a - 1) (2 * k + 1)‖ := by
    dsimp only [p1]; cases flip1
    · rfl
    · exact norm_flip1 N p2 _ _ hm (by omega)
  have e0 : ‖specMoment N q (2 * a - 1) (2 * k + 1)‖ = ‖specMoment N p1 (2 * a - 1) (2 * k + 1)‖ := by
    dsimp only [q]; cases swap
    · rfl
    · exact norm_swap N p1 _ _ hm (by omega)
  rw [← e2, ← e1, ← e0]
  congr 1
  apply specMoment_congr
  intro i hi j hj
  unfold pixelReal
  rw [h i hi j hj]
  dsimp only [q, p1, p2, p0, pixelReal, squareSymmetry]
  cases swap <;> cases flip1 <;> cases flip2 <;> rfl

/-- C32: all features of a centrally symmetric square image are zero. -/
theorem features_central (N : Nat) (image : Mat UInt8) (a : Nat) (ha : 1 ≤ a) (hN : 2 ≤ N) (hsq : image.IsSquare N)
    (h : ∀ i < N, ∀ j < N, image.get (N - 1 - i) (N - 1 - j) = image.get i j) :
    calculateFeatures image .MomentsZernike a = .ok (List.replicate a 0) := by
  rw [features_square N image a ha hN hsq]
  congr 1
  rw [List.eq_replicate_iff]
  refine ⟨by simp, ?_⟩
  intro b hb
  obtain ⟨k, hk, rfl⟩ := List.mem_map.mp hb
  have hk' := List.mem_range.mp hk
  have hm : 2 * k + 1 ≤ 2 * a - 1 := by omega
  rw [norm_eq_zero]
  unfold specMoment
  have hzero : ∑ i ∈ range N, ∑ j ∈ range N, (pixelReal image i j : ℂ) *
      (starRingEnd ℂ) (zernikeV (2 * a - 1) (2 * k + 1) (pixelPoint N i j)) = 0 := by
    have hneg : ∑ i ∈ range N, ∑ j ∈ range N, (pixelReal image i j : ℂ) *
        (starRingEnd ℂ) (zernikeV (2 * a - 1) (2 * k + 1) (pixelPoint N i j)) =
        -∑ i ∈ range N, ∑ j ∈ range N, (pixelReal image i j : ℂ) *
        (starRingEnd ℂ) (zernikeV (2 * a - 1) (2 * k + 1) (pixelPoint N i j)) := by
      conv_lhs => rw [← sum_range_reflect]
      rw [← sum_neg_distrib]
      apply sum_congr rfl
      intro i hi
      have hi' := mem_range.mp hi
      rw [← sum_range_reflect, ← sum_neg_distrib]
      apply sum_congr rfl
      intro j hj
      have hj' := mem_range.mp hj
      have hpt : zernikeV (2 * a - 1) (2 * k + 1) (pixelPoint N (N - 1 - i) (N - 1 - j)) =
          -zernikeV (2 * a - 1) (2 * k + 1) (pixelPoint N i j) := by
        rw [pixelPoint_flip2 N _ j hj', pixelPoint_flip1 N i j hi']
        rw [zernikeV_reflect _ _ hm (by omega) 1 _ (by simp), zernikeV_reflect _ _ hm (by omega) (-1) _ (by simp)]
        simp only [map_mul, map_pow, map_neg, map_one, Complex.conj_conj, one_pow, one_mul]
        rw [Odd.neg_one_pow ⟨k, rfl⟩]
        ring
      rw [hpt]
      unfold pixelReal
      rw [h i hi' j hj']
      simp
    exact self_eq_neg.mp hneg
  rw [hzero]
  simp

/-- C32: in particular all features of every constant image are zero, so all of them have the same quantized features. -/
theorem features_constant (N : Nat) (c : UInt8) (a : Nat) (ha : 1 ≤ a) (hN : 2 ≤ N) :
    calculateFeatures (⟨N, N, fun _ _ => c⟩ : Mat UInt8) .MomentsZernike a = .ok (List.replicate a 0) :=
  features_central N _ a ha hN ⟨rfl, rfl⟩ (by intros; rfl)

/-! ### Concrete cases -/

/-- A 2 x 2 image with one bright pixel. -/
def cornerImage : Mat UInt8 := ⟨2, 2, fun i j => if i = 0 ∧ j = 0 then 9 else 0⟩

/-- Its rotation by 90 degrees. -/
def cornerImage' : Mat UInt8 := ⟨2, 2, fun i j => if i = 1 ∧ j = 0 then 9 else 0⟩

/-- C30, C33, C34 on a concrete image: its only feature of order 1 is `(2/π) * 9 / 4`, in particular not zero. -/
theorem cornerImage_feature : calculateFeatures cornerImage .MomentsZernike 1 = .ok [2 / Real.pi * 9 / 4] := by
  rw [features_square 2 cornerImage 1 le_rfl le_rfl ⟨rfl, rfl⟩]
  have hp : ‖pixelPoint 2 0 0‖ = 1 := by
    have h := (toPolar_unit_disc 2 1 1 le_rfl le_rfl (by norm_num) le_rfl (by norm_num)).2.2 (by simp)
    rw [show ((1 : ℕ) : ℝ) = ((0 + 1 : ℕ) : ℝ) by simp] at h
    rw [toPolar_eq 2 0 0 le_rfl] at h
    exact h
  have hv : ‖zernikeV 1 1 (pixelPoint 2 0 0)‖ = 1 := by
    unfold zernikeV
    rw [norm_mul, hp, zernikeRadial_one 1 1 le_rfl rfl]
    have : (((1 : ℕ) : ℂ) * Complex.arg (pixelPoint 2 0 0) * Complex.I) = ((Complex.arg (pixelPoint 2 0 0) : ℝ) : ℂ) * Complex.I := by simp
    rw [this, Complex.norm_exp_ofReal_mul_I]
    simp
  congr 1
  simp only [List.range_one, List.map_cons, List.map_nil, List.cons.injEq, and_true]
  unfold specMoment pixelReal cornerImage
  norm_num [sum_range_succ]
  rw [hv, abs_of_pos Real.pi_pos, show UInt8.toNat 9 = 9 from rfl]
  push_cast
  ring

example : calculateFeatures cornerImage' .MomentsZernike 1 = calculateFeatures cornerImage .MomentsZernike 1 :=
  features_symmetric 2 cornerImage cornerImage' 1 le_rfl le_rfl ⟨rfl, rfl⟩ ⟨rfl, rfl⟩ true false true (by decide)

example : ∃ fs, calculateFeatures (⟨3, 2, fun i j => UInt8.ofNat (i + j)⟩ : Mat UInt8) .MomentsZernike 11 = .ok fs ∧ fs.length = 11 :=
  features_count _ 11 (by norm_num) (by norm_num) (by norm_num)

example : ∃ e, calculateFeatures (⟨2, 3, fun i j => UInt8.ofNat (i + j)⟩ : Mat UInt8) .MomentsZernike 11 = .error e :=
  features_abort _ 11 (Or.inr ⟨by norm_num, by norm_num⟩)

end Sia
