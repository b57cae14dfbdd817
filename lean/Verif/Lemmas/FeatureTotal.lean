import Verif.Props.FactorialFloatProps
import Verif.Props.ZernikeProps
import Verif.Lemmas.MomentFloat
import Verif.Spec.SpecialFloatSpec

/-! The feature computation in double precision always ends, whatever the mathematical library returns (C79). -/
namespace Sia
open FloatOps

theorem ofInt_nat64 (n : Nat) (h : n ≤ 2 ^ 53) : (ofInt (n : ℤ) : F64) = .fin (n : ℚ) := by
  show F64.ofRat ((n : ℤ) : ℚ) = _
  rw [ofRat_self (isDouble_nat n h)]
  simp

theorem sub_nat64 (a b : Nat) (h : b ≤ a) (ha : a ≤ 2 ^ 53) :
    FloatOps.sub (F64.fin (a : ℚ)) (F64.fin (b : ℚ)) = .fin ((a - b : ℕ) : ℚ) := by
  rw [sub64]
  have : (a : ℚ) - b = (((a - b : ℕ) : ℤ) : ℚ) := by rw [Nat.cast_sub h]; push_cast; rfl
  rw [this, ofRat_self (isDouble_nat _ (by omega))]
  simp

theorem add_nat64 (a b : Nat) (h : a + b ≤ 2 ^ 53) :
    FloatOps.add (F64.fin (a : ℚ)) (F64.fin (b : ℚ)) = .fin ((a + b : ℕ) : ℚ) := by
  show F64.ofRat ((a : ℚ) + b) = _
  have : (a : ℚ) + b = (((a + b : ℕ) : ℤ) : ℚ) := by push_cast; rfl
  rw [this, ofRat_self (isDouble_nat _ h)]
  simp

theorem half_nat64 (k : Nat) (h : k ≤ 2 ^ 53) :
    FloatOps.div (F64.fin ((2 * k : ℕ) : ℚ)) (ofInt 2) = .fin (k : ℚ) := by
  have e2 : (ofInt 2 : F64) = .fin 2 := ofInt_nat64 2 (by norm_num)
  rw [e2]
  have e : FloatOps.div (F64.fin ((2 * k : ℕ) : ℚ)) (F64.fin 2) = F64.ofRat (((2 * k : ℕ) : ℚ) / 2) := by
    show F64.div _ _ = _
    unfold F64.div
    dsimp only
    rw [if_neg (by norm_num)]
  rw [e]
  have : ((2 * k : ℕ) : ℚ) / 2 = ((k : ℤ) : ℚ) := by push_cast; ring
  rw [this, ofRat_self (isDouble_nat _ h)]
  simp

/-- The factor `r^(n-2s)` of a term. -/
noncomputable def zTerm (M : Libm F64) (n s : Nat) (r : F64) : F64 :=
  if isZeroF r && isZeroF (FloatOps.sub (ofInt (n : ℤ) : F64) (FloatOps.mul (ofInt 2) (ofInt (s : ℤ)))) then ofInt 1
  else M.powf r (ofInt ((n : ℤ) - 2 * s))

/-- The computed coefficient. -/
def zQuot (n m s : Nat) : F64 :=
  FloatOps.div (factF64 (n - s)) (FloatOps.mul (FloatOps.mul (factF64 s) (factF64 ((n + m) / 2 - s))) (factF64 ((n - m) / 2 - s)))

theorem zfF_total (M : Libm F64) (n m s : Nat) (r : F64) (hn : n ≤ 2 ^ 52) (hm : m ≤ n) (hp : n % 2 = m % 2)
    (hs : s ≤ (n - m) / 2) : zfF M n m s r = .ok (FloatOps.mul (zQuot n m s) (zTerm M n s r)) := by
  unfold zfF
  have eN := ofInt_nat64 n (by omega)
  have eM := ofInt_nat64 m (by omega)
  have eS := ofInt_nat64 s (by omega)
  have i1 : FloatOps.sub (ofInt (n : ℤ) : F64) (ofInt (s : ℤ)) = .fin ((n - s : ℕ) : ℚ) := by
    rw [eN, eS, sub_nat64 n s (by omega) (by omega)]
  have i2 : FloatOps.sub (FloatOps.div (FloatOps.add (ofInt (n : ℤ) : F64) (ofInt (m : ℤ))) (ofInt 2)) (ofInt (s : ℤ)) =
      .fin (((n + m) / 2 - s : ℕ) : ℚ) := by
    rw [eN, eM, eS, add_nat64 n m (by omega), show n + m = 2 * ((n + m) / 2) by omega, half_nat64 _ (by omega),
      sub_nat64 _ s (by omega) (by omega)]
    congr 3
    omega
  have i3 : FloatOps.sub (FloatOps.div (FloatOps.sub (ofInt (n : ℤ) : F64) (ofInt (m : ℤ))) (ofInt 2)) (ofInt (s : ℤ)) =
      .fin (((n - m) / 2 - s : ℕ) : ℚ) := by
    rw [eN, eM, eS, sub_nat64 n m hm (by omega), show n - m = 2 * ((n - m) / 2) by omega, half_nat64 _ (by omega),
      sub_nat64 _ s (by omega) (by omega)]
    congr 3
    omega
  rw [i1, i2, i3, eS, factorialF_nat M _ (by omega), factorialF_nat M _ (by omega), factorialF_nat M _ (by omega),
    factorialF_nat M _ (by omega)]
  unfold zQuot zTerm
  rw [← eS]
  rfl

/-- The terms of the radial function, summed in order. -/
noncomputable def radialSum (M : Libm F64) (n m : Nat) (r : F64) : Nat → F64
  | 0 => ofInt 0
  | t + 1 => FloatOps.add (radialSum M n m r t)
      (FloatOps.mul (M.powf (ofInt (-1)) (ofInt (t : ℤ))) (FloatOps.mul (zQuot n m t) (zTerm M n t r)))

theorem radialF_total (M : Libm F64) (n m : Nat) (r : F64) (hn : n ≤ 2 ^ 52) (hm : m ≤ n) (hp : n % 2 = m % 2) :
    radialF M n m r = .ok (radialSum M n m r ((n - m) / 2 + 1)) := by
  have hfold : ∀ t ≤ (n - m) / 2 + 1, (List.range t).foldlM (radialStepF M n m r) (ofInt 0) = .ok (radialSum M n m r t) := by
    intro t
    induction t with
    | zero => intro _; rfl
    | succ t ih =>
      intro ht
      rw [List.range_succ, List.foldlM_append, ih (by omega)]
      show (radialStepF M n m r _ t >>= fun s' => pure s') = _
      rw [bind_pure]
      unfold radialStepF
      rw [zfF_total M n m t r hn hm hp (by omega)]
      rfl
  unfold radialF
  have h : truncSat 0 (2 ^ 64 - 1) (FloatOps.floor (FloatOps.div (FloatOps.sub (ofInt (n : ℤ) : F64) (ofInt (m : ℤ))) (ofInt 2))) =
      (((n - m) / 2 : ℕ) : ℤ) := by
    rw [ofInt_nat64 n (by omega), ofInt_nat64 m (by omega), sub_nat64 n m hm (by omega), show n - m = 2 * ((n - m) / 2) by omega,
      half_nat64 _ (by omega)]
    show clampZ 0 (2 ^ 64 - 1) (truncZ ((⌊(((n - m) / 2 : ℕ) : ℚ)⌋ : ℤ) : ℚ)) = _
    rw [truncZ_int, Int.floor_natCast]
    unfold clampZ
    split_ifs <;> omega
  dsimp only
  rw [h, Int.toNat_natCast]
  exact hfold _ le_rfl

/-- The value of `v` for a given radial value. -/
noncomputable def zvValue (M : Libm F64) (m : Nat) (y theta : F64) : F64 × F64 :=
  (FloatOps.mul y (FloatOps.mul (M.exp (FloatOps.mul (FloatOps.mul (ofInt 0) (ofInt (m : ℤ))) theta))
      (M.cos (FloatOps.mul (FloatOps.mul (ofInt 1) (ofInt (m : ℤ))) theta))),
    FloatOps.mul y (FloatOps.mul (M.exp (FloatOps.mul (FloatOps.mul (ofInt 0) (ofInt (m : ℤ))) theta))
      (M.sin (FloatOps.mul (FloatOps.mul (ofInt 1) (ofInt (m : ℤ))) theta))))

/-- The polar coordinates of the pixel with number `i`. -/
def pixelPolar (M : Libm F64) (N i : Nat) : F64 × F64 :=
  toPolarF M (FloatOps.add (FloatOps.floor (FloatOps.div (ofInt (i : ℤ)) (ofInt (N : ℤ)))) (ofInt 1))
    (ofInt ((i % N + 1 : Nat) : ℤ)) N

/-- The matrix entry of the pixel with number `i`. -/
noncomputable def entryValue (M : Libm F64) (n m N i : Nat) : F64 × F64 :=
  let w := zvValue M m (radialSum M n m (pixelPolar M N i).1 ((n - m) / 2 + 1)) (pixelPolar M N i).2
  (w.1, FloatOps.sub (ofInt 0) w.2)

theorem zernikeEntryF_total (M : Libm F64) (n m N i : Nat) (hn : n ≤ 2 ^ 52) (hm : m ≤ n) (hp : n % 2 = m % 2) :
    zernikeEntryF M n m N i = .ok (entryValue M n m N i) := by
  unfold zernikeEntryF
  dsimp only
  unfold zvF
  rw [radialF_total M n m _ hn hm hp]
  rfl

theorem matrixF_total (M : Libm F64) (n m N : Nat) (hn : n ≤ 2 ^ 52) (hm : m ≤ n) (hp : n % 2 = m % 2) :
    getZernikeMatrixF M n m N = .ok ((List.range (N * N)).map (entryValue M n m N)) := by
  unfold getZernikeMatrixF
  exact mapM_except_ok _ (fun i _ => zernikeEntryF_total M n m N i hn hm hp)

/-- The products of entries and pixels, summed in order. -/
noncomputable def integralSum (e : Nat → F64 × F64) (px : Nat → UInt8) : Nat → F64 × F64
  | 0 => (ofInt 0, ofInt 0)
  | t + 1 => (FloatOps.add (integralSum e px t).1 (FloatOps.mul (e t).1 (ofInt ((px t).toNat : ℤ))),
      FloatOps.add (integralSum e px t).2 (FloatOps.mul (e t).2 (ofInt ((px t).toNat : ℤ))))

/-- The moment for a given integral. -/
def momentValue (n pixels : Nat) (s : F64 × F64) : F64 × F64 :=
  (FloatOps.div (FloatOps.mul (FloatOps.div (FloatOps.add (ofInt (n : ℤ)) (ofInt 1)) piF) s.1) (ofInt (pixels : ℤ)),
    FloatOps.div (FloatOps.mul (FloatOps.div (FloatOps.add (ofInt (n : ℤ)) (ofInt 1)) piF) s.2) (ofInt (pixels : ℤ)))

theorem res_ok_bind {α β : Type} (x : α) (f : α → Res β) : ((Except.ok x : Res α) >>= f) = f x := rfl

theorem momentF_total (M : Libm F64) (n m : Nat) (image : Mat UInt8) (hn : n ≤ 2 ^ 52) (hm : m ≤ n) (hp : n % 2 = m % 2)
    (hle : image.rows * image.cols ≤ image.rows * image.rows) :
    zernikeMomentF M n m image = .ok (momentValue n (image.rows * image.cols)
      (integralSum (entryValue M n m image.rows) (fun k => image.get (k / image.cols) (k % image.cols))
        (image.rows * image.cols))) := by
  have hfold : ∀ t ≤ image.rows * image.cols,
      ((List.range t).map fun k => (image.get (k / image.cols) (k % image.cols), k)).foldlM
        (momentStepF ((List.range (image.rows * image.rows)).map (entryValue M n m image.rows))) (ofInt 0, ofInt 0) =
      .ok (integralSum (entryValue M n m image.rows) (fun k => image.get (k / image.cols) (k % image.cols)) t) := by
    intro t
    induction t with
    | zero => intro _; rfl
    | succ t ih =>
      intro ht
      rw [List.range_succ, List.map_append, List.foldlM_append, ih (by omega)]
      show (momentStepF _ _ _ >>= fun s' => pure s') = _
      rw [bind_pure]
      unfold momentStepF
      dsimp only
      rw [List.getElem?_map, List.getElem?_range (by omega)]
      rfl
  unfold zernikeMomentF
  dsimp only
  rw [matrixF_total M n m _ hn hm hp, zipIdx_toList]
  rw [res_ok_bind, hfold _ le_rfl]
  rfl

/-- The features in terms of the sums above. -/
theorem featuresF_total (M : Libm F64) (image : Mat UInt8) (a : Nat) (ha : 1 ≤ a) (ha2 : a ≤ 2 ^ 51) (hc : image.cols ≤ image.rows) :
    zernikeFeaturesF M image a = .ok ((List.range a).map fun k =>
      let w := momentValue (2 * a - 1) (image.rows * image.cols)
        (integralSum (entryValue M (2 * a - 1) (2 * k + 1) image.rows) (fun k => image.get (k / image.cols) (k % image.cols))
          (image.rows * image.cols))
      M.hypot w.1 w.2) := by
  unfold zernikeFeaturesF orderByFeaturesAmount
  rw [if_neg (by omega)]
  show (momentIndices (1 + 2 * (a - 1))).mapM _ = _
  rw [momentIndices_odd a ha, show 1 + 2 * (a - 1) = 2 * a - 1 by omega, mapM_except_ok (g := fun index =>
    let w := momentValue (2 * a - 1) (image.rows * image.cols)
        (integralSum (entryValue M (2 * a - 1) index image.rows) (fun k => image.get (k / image.cols) (k % image.cols))
          (image.rows * image.cols))
    M.hypot w.1 w.2)]
  · rw [List.map_map]; rfl
  · intro index hidx
    obtain ⟨k, hk, rfl⟩ := List.mem_map.mp hidx
    have hk' := List.mem_range.mp hk
    rw [momentF_total M _ _ image (by omega) (by omega) (by omega) (Nat.mul_le_mul_left _ hc)]
    rfl

end Sia
