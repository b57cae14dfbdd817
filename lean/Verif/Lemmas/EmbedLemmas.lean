import Verif.Spec.EmbedSpec
import Verif.Lemmas.HaarError
import Verif.Lemmas.StegoLemmas
import Verif.Lemmas.FloatInstances
import Verif.Lemmas.QuantLemmas
import Verif.Props.EncodingProps
import Verif.Props.RecordProps
import Verif.Props.StegoProps

/-! Embedding and extraction: structure and error analysis. -/
namespace Sia
open FloatOps LawfulFloat

section
variable {F : Type} [FloatOps F]

/-- Wavelet coefficients of an image, as computed. -/
def coeffs (n L : Nat) (image : Mat UInt8) : Nat → Nat → F :=
  fwdN n n L (fun i j => pixelToFloat (image.get i j))

/-- Coefficients after writing a bit string into the low-low corner of side `n / 2^L`. -/
def written (n L : Nat) (image : Mat UInt8) (depth : F) (bits : List Bool) (i j : Nat) : F :=
  if i < n / 2 ^ L ∧ j < n / 2 ^ L ∧ i * (n / 2 ^ L) + j < bits.length
  then writeCell depth (bits.getD (i * (n / 2 ^ L) + j) false) (coeffs n L image i j) else coeffs n L image i j

/-- Image after the backward transform, before rounding. -/
def spatial (n L : Nat) (image : Mat UInt8) (depth : F) (bits : List Bool) : Nat → Nat → F :=
  bwdN n n L (written n L image depth bits)

theorem getDomainCapacity_eq (w h : Nat) : getDomainCapacity w h =
    if 9 ≤ w * h / 8 then .ok (w * h / 8) else .error .capacityBelowMinimum := by
  unfold getDomainCapacity getCapacity getCodeForEncode
  dsimp only
  by_cases h9 : 9 ≤ w * h / 8
  · rw [if_pos h9]
    split_ifs <;> first | rfl | omega
  · rw [if_neg h9, if_neg (by omega), if_neg (by omega), if_neg (by omega), if_neg (by omega), if_neg (by omega)]

theorem embed_forward (L : Ldpc) (image : Mat UInt8) (bytes : List UInt8) (depth : F) (levels n : Nat)
    (hsq : image.IsSquare n) (h1 : 1 ≤ levels) (hL : levels ≤ 30) (hd : 2 ^ levels ∣ n) :
    embed L image bytes depth levels = (do
      let capacity ← getDomainCapacity (n / 2 ^ levels) (n / 2 ^ levels)
      let serialized ← dataSerialize bytes
      let ll' ← write ⟨n / 2 ^ levels, n / 2 ^ levels, coeffs n levels image⟩ (encode L serialized capacity) depth
      return ⟨n, n, fun i j => floatToPixel (bwdN n n levels ll'.get i j)⟩) := by
  obtain ⟨hr, hc⟩ := hsq
  unfold embed
  have hf := dwt2d_forward (image.map (pixelToFloat (F := F))) levels h1 (by omega) (by simpa [Mat.map, hr] using hd)
    (by simpa [Mat.map, hc] using hd)
  rw [hf]
  simp only [bind, Except.bind, if_neg (show ¬ 31 ≤ levels by omega), pure, Except.pure]
  simp only [lowLow, Mat.map, hr, hc]
  have e : fwdN n n levels (fun i j => (pixelToFloat (image.get i j) : F)) = coeffs n levels image := rfl
  rw [e]
  cases getDomainCapacity (n / 2 ^ levels) (n / 2 ^ levels) with
  | error e => rfl
  | ok cap =>
    dsimp only
    cases dataSerialize bytes with
    | error e => rfl
    | ok s =>
      dsimp only
      cases write (⟨n / 2 ^ levels, n / 2 ^ levels, coeffs n levels image⟩ : Mat F) (encode L s cap) depth with
      | error e => rfl
      | ok ll =>
        dsimp only
        have hb := dwt2d_backward (⟨n, n, ll.get⟩ : Mat F) levels h1 (by omega) hd hd
        rw [hb]

theorem embed_ok (L : Ldpc) (image : Mat UInt8) (bytes : List UInt8) (depth : F) (levels n : Nat)
    (hsq : image.IsSquare n) (h1 : 1 ≤ levels) (hL : levels ≤ 30) (hd : 2 ^ levels ∣ n)
    (record : List UInt8) (hrec : dataSerialize bytes = .ok record)
    (h9 : 9 ≤ (n / 2 ^ levels) * (n / 2 ^ levels) / 8)
    (hfit : 8 * (encode L record ((n / 2 ^ levels) * (n / 2 ^ levels) / 8)).length ≤ (n / 2 ^ levels) * (n / 2 ^ levels)) :
    embed L image bytes depth levels = .ok ⟨n, n, fun i j => floatToPixel (spatial n levels image depth
      (bytesBits (encode L record ((n / 2 ^ levels) * (n / 2 ^ levels) / 8))) i j)⟩ := by
  rw [embed_forward L image bytes depth levels n hsq h1 hL hd, getDomainCapacity_eq, if_pos h9, hrec]
  simp only [bind, Except.bind]
  obtain ⟨m', e, _, _, hg⟩ := write_square (⟨n / 2 ^ levels, n / 2 ^ levels, coeffs n levels image⟩ : Mat F)
    (encode L record ((n / 2 ^ levels) * (n / 2 ^ levels) / 8)) depth (n / 2 ^ levels) rfl rfl hfit
  rw [e]
  have : m'.get = written n levels image depth (bytesBits (encode L record ((n / 2 ^ levels) * (n / 2 ^ levels) / 8))) := by
    funext i j
    rw [hg]
    unfold written
    simp
  simp only [this, pure, Except.pure]
  rfl

theorem extract_forward (L : Ldpc) (image : Mat UInt8) (depth : F) (levels n : Nat)
    (hsq : image.IsSquare n) (h1 : 1 ≤ levels) (hL : levels ≤ 30) (hd : 2 ^ levels ∣ n) :
    extract L image depth levels = (do
      let extracted ← read ⟨n / 2 ^ levels, n / 2 ^ levels, coeffs n levels image⟩ depth
      let capacity ← getDomainCapacity (n / 2 ^ levels) (n / 2 ^ levels)
      let decoded ← decode L extracted capacity
      dataDeserialize decoded) := by
  obtain ⟨hr, hc⟩ := hsq
  unfold extract
  have hf := dwt2d_forward (image.map (pixelToFloat (F := F))) levels h1 (by omega) (by simpa [Mat.map, hr] using hd)
    (by simpa [Mat.map, hc] using hd)
  rw [hf]
  simp only [bind, Except.bind, if_neg (show ¬ 31 ≤ levels by omega), pure, Except.pure]
  simp only [lowLow, Mat.map, hr, hc]
  rfl

/-- An embed that succeeds on a non-empty image had divisible dimensions, a sufficient level count, a serializable payload,
and room for the encoded record. -/
theorem embed_ok_only (L : Ldpc) (image out : Mat UInt8) (bytes : List UInt8) (depth : F) (levels : Nat)
    (hr : 0 < image.rows) (hc : 0 < image.cols) (h : embed L image bytes depth levels = .ok out) :
    1 ≤ levels ∧ levels ≤ 30 ∧ 2 ^ levels ∣ image.rows ∧ 2 ^ levels ∣ image.cols ∧ bytes.length ≤ 65535 ∧
    9 ≤ (image.rows / 2 ^ levels) * (image.cols / 2 ^ levels) / 8 ∧
    ∀ record, dataSerialize bytes = .ok record →
      8 * (encode L record ((image.rows / 2 ^ levels) * (image.cols / 2 ^ levels) / 8)).length ≤
        (image.rows / 2 ^ levels) * (image.cols / 2 ^ levels) := by
  unfold embed at h
  cases hf : dwt2d (image.map (pixelToFloat (F := F))) levels false with
  | error e => rw [hf] at h; simp [bind, Except.bind] at h
  | ok c =>
    obtain ⟨a1, a2, a3, a4⟩ := dwt2d_forward_dvd _ c levels (by simpa [Mat.map] using hr) (by simpa [Mat.map] using hc) hf
    rw [dwt2d_forward _ levels a1 a2 a3 a4] at h
    simp only [bind, Except.bind] at h
    by_cases h31 : 31 ≤ levels
    · simp [h31, throw, throwThe, MonadExceptOf.throw] at h
    · simp only [if_neg h31, pure, Except.pure] at h
      simp only [lowLow, Mat.map, getDomainCapacity_eq] at h
      split_ifs at h with h9
      dsimp only at h
      have hlen : bytes.length ≤ 65535 := by
        by_contra hbad
        rw [(data_serialize_spec bytes).2 (by omega)] at h
        simp at h
      refine ⟨a1, by omega, by simpa [Mat.map] using a3, by simpa [Mat.map] using a4, hlen, h9, ?_⟩
      intro record hrec
      rw [hrec] at h
      dsimp only at h
      by_contra hbig
      rw [write_too_long _ _ _ (by unfold getCapacity; dsimp only; omega)] at h
      simp at h
end

/-! ### Pixels -/

theorem clampZ_dist (z : ℤ) (b : ℝ) (h0 : 0 ≤ b) (h1 : b ≤ 255) : |((clampZ 0 255 z : ℤ) : ℝ) - b| ≤ |(z : ℝ) - b| := by
  unfold clampZ
  split_ifs with h h'
  · have : (z : ℝ) < 0 := by exact_mod_cast h
    rw [abs_of_nonpos (by push_cast; linarith), abs_of_nonpos (by linarith)]; push_cast; linarith
  · have : (255 : ℝ) < z := by exact_mod_cast h'
    rw [abs_of_nonneg (by push_cast; linarith), abs_of_nonneg (by linarith)]; push_cast; linarith
  · exact le_rfl

theorem clampZ_range (z : ℤ) : 0 ≤ clampZ 0 255 z ∧ clampZ 0 255 z ≤ 255 := by
  unfold clampZ; split_ifs <;> omega

section
variable {F : Type} [FloatOps F] [LawfulFloat F]

/-- The pixel written for a float value. -/
theorem floatToPixel_val (x : F) (hx : fin x) : ((floatToPixel x).toNat : ℤ) = clampZ 0 255 (roundAway (val x)) := by
  obtain ⟨rf, rv⟩ := round_spec x hx
  unfold floatToPixel
  rw [truncSat_spec _ _ _ rf, rv, truncZ_intCast]
  obtain ⟨h1, h2⟩ := clampZ_range (roundAway (val x))
  have h3 : ((clampZ 0 255 (roundAway (val x))).toNat : ℤ) = clampZ 0 255 (roundAway (val x)) := Int.toNat_of_nonneg h1
  have : (UInt8.ofNat (clampZ 0 255 (roundAway (val x))).toNat).toNat = (clampZ 0 255 (roundAway (val x))).toNat := by
    rw [UInt8.toNat_ofNat']; apply Nat.mod_eq_of_lt; omega
  rw [this, h3]

theorem floatToPixel_dist (x : F) (hx : fin x) (b e : ℝ) (h0 : 0 ≤ b) (h1 : b ≤ 255) (h : |val x - b| ≤ e) :
    |((floatToPixel x).toNat : ℝ) - b| ≤ 1 / 2 + e := by
  have hv := floatToPixel_val x hx
  have hv' : ((floatToPixel x).toNat : ℝ) = ((clampZ 0 255 (roundAway (val x)) : ℤ) : ℝ) := by exact_mod_cast hv
  rw [hv']
  refine le_trans (clampZ_dist _ b h0 h1) ?_
  have := abs_add_le ((roundAway (val x) : ℝ) - val x) (val x - b)
  rw [sub_add_sub_cancel] at this
  have := roundAway_err (val x)
  linarith

theorem pixelToFloat_spec (p : UInt8) : fin (pixelToFloat p : F) ∧ val (pixelToFloat p : F) = (p.toNat : ℝ) := by
  have := ofInt_spec (F := F) (p.toNat : ℤ) (by have := p.toNat_lt; rw [abs_of_nonneg (by omega)]; omega)
  unfold pixelToFloat
  exact_mod_cast this

/-! ### Error constants -/

/-- Error of the forward transform of an image. -/
noncomputable def errF (F : Type) [FloatOps F] [LawfulFloat F] (L : Nat) : ℝ := (3 / 2) ^ (2 * L) * (8 * (2 * L : ℕ) * u F * 255)
/-- Bound on the coefficients. -/
noncomputable def magF (L : Nat) : ℝ := (3 / 2) ^ (2 * L) * 255
/-- Error of the backward transform. -/
noncomputable def errB (F : Type) [FloatOps F] [LawfulFloat F] (L : Nat) (d : ℝ) : ℝ :=
  (3 / 2) ^ (2 * L) * (errF F L + 8 * (2 * L : ℕ) * u F * (magF L + d))

theorem embedSlack_nonneg (L : Nat) : 0 ≤ embedSlack F L := by
  have := u_nonneg (F := F); unfold embedSlack; positivity

theorem pow_facts (L : Nat) (hL : L ≤ 30) : (1 : ℝ) ≤ (3 / 2) ^ (2 * L) ∧ ((3 : ℝ) / 2) ^ (2 * L) ≤ 2 ^ 37 := by
  constructor
  · exact one_le_pow₀ (by norm_num)
  · refine le_trans (pow_le_pow_right₀ (by norm_num) (by omega : 2 * L ≤ 60)) (by norm_num)

theorem slack_bounds (L : Nat) (h1 : 1 ≤ L) (d : ℝ) (hd : 1 ≤ d) :
    2 * errF F L + 2 ^ L * errB F L d + u F * (5 * magF L + 20) * d ≤ embedSlack F L * d ∧
    2 ^ L * errB F L d + u F * (3 * magF L + 7) * d ≤ embedSlack F L * d := by
  have hu := u_nonneg (F := F)
  have hl : (1 : ℝ) ≤ L := by exact_mod_cast h1
  have ha : (1 : ℝ) ≤ (3 / 2) ^ (2 * L) := one_le_pow₀ (by norm_num)
  have hc : (1 : ℝ) ≤ 2 ^ L := one_le_pow₀ (by norm_num)
  have hX : ((81 : ℝ) / 8) ^ L = 2 ^ L * ((3 / 2) ^ (2 * L) * (3 / 2) ^ (2 * L)) := by
    rw [← pow_add, ← two_mul, ← mul_assoc, pow_mul, ← mul_pow]; norm_num
  unfold embedSlack errB errF magF
  rw [hX]
  push_cast
  set a := ((3 : ℝ) / 2) ^ (2 * L)
  set c := (2 : ℝ) ^ L
  set l := (L : ℝ)
  have hX1 : a ≤ c * (a * a) := by nlinarith [mul_nonneg (sub_nonneg.mpr ha) (sub_nonneg.mpr hc)]
  have hcaX : c * a ≤ c * (a * a) := by nlinarith
  have hX0 : 1 ≤ c * (a * a) := by linarith
  have hld : 1 ≤ l * d := by nlinarith
  set X := c * (a * a) with hXd
  have hXnn : 0 ≤ X := by linarith
  have t1 : 2 * (a * (8 * (2 * l) * u F * 255)) ≤ u F * (8160 * l * X * d) := by
    have : l * a ≤ l * X * d := by
      calc l * a ≤ l * X := by nlinarith
        _ ≤ l * X * d := le_mul_of_one_le_right (by positivity) hd
    nlinarith [mul_le_mul_of_nonneg_left this hu]
  have t2 : c * (a * (a * (8 * (2 * l) * u F * 255) + 8 * (2 * l) * u F * (a * 255 + d))) ≤ u F * (8176 * l * X * d) := by
    have e : c * (a * (a * (8 * (2 * l) * u F * 255) + 8 * (2 * l) * u F * (a * 255 + d))) =
        u F * (8160 * l * X + 16 * l * (c * a) * d) := by rw [hXd]; ring
    rw [e]
    apply mul_le_mul_of_nonneg_left _ hu
    have h1 : l * X ≤ l * X * d := le_mul_of_one_le_right (by positivity) hd
    have h2 : l * (c * a) * d ≤ l * X * d := by
      apply mul_le_mul_of_nonneg_right _ (by linarith)
      exact mul_le_mul_of_nonneg_left hcaX (by linarith)
    nlinarith
  have hXl : X ≤ l * X := le_mul_of_one_le_left hXnn hl
  have t3 : u F * (5 * (a * 255) + 20) * d ≤ u F * (1295 * l * X * d) := by
    rw [mul_assoc]
    apply mul_le_mul_of_nonneg_left _ hu
    rw [show 1295 * l * X * d = (1295 * (l * X)) * d by ring]
    apply mul_le_mul_of_nonneg_right _ (by linarith)
    linarith
  have t4 : u F * (3 * (a * 255) + 7) * d ≤ u F * (1295 * l * X * d) := by
    rw [mul_assoc]
    apply mul_le_mul_of_nonneg_left _ hu
    rw [show 1295 * l * X * d = (1295 * (l * X)) * d by ring]
    apply mul_le_mul_of_nonneg_right _ (by linarith)
    linarith
  have hpos : 0 ≤ u F * (l * X * d) := by positivity
  constructor
  · calc _ ≤ u F * (8160 * l * X * d) + u F * (8176 * l * X * d) + u F * (1295 * l * X * d) := by linarith
      _ ≤ u F * (2 ^ 15 * l * X) * d := by nlinarith
  · calc _ ≤ u F * (8176 * l * X * d) + u F * (1295 * l * X * d) := by linarith
      _ ≤ u F * (2 ^ 15 * l * X) * d := by nlinarith

/-! ### The embedding error analysis -/

/-- Pixels as reals. -/
def pix (image : Mat UInt8) (i j : Nat) : ℝ := ((image.get i j).toNat : ℝ)

theorem pix_range (image : Mat UInt8) (i j : Nat) : 0 ≤ pix image i j ∧ pix image i j ≤ 255 := by
  unfold pix
  refine ⟨by positivity, ?_⟩
  have := (image.get i j).toNat_lt
  exact_mod_cast (by omega : (image.get i j).toNat ≤ 255)

theorem coeffs_near (image : Mat UInt8) (n L : Nat) (hL : L ≤ 30) (hd : 2 ^ L ∣ n) :
    Near n n (errF F L) (magF L) (coeffs n L image : Nat → Nat → F) (fwdN n n L (pix image)) := by
  obtain ⟨_, p2⟩ := pow_facts L hL
  have n0 : Near n n 0 255 (fun i j => (pixelToFloat (image.get i j) : F)) (pix image) := by
    intro i _ j _
    obtain ⟨h1, h2⟩ := pixelToFloat_spec (F := F) (image.get i j)
    obtain ⟨h3, h4⟩ := pix_range image i j
    refine ⟨h1, ?_, ?_⟩
    · rw [h2]; simp [pix]
    · rw [h2, abs_of_nonneg (by positivity)]; exact h4
  have := fwdN_near n n L hd hd 0 255 le_rfl (by norm_num) (by norm_num at p2 ⊢; linarith) _ _ n0 L le_rfl
  refine this.mono ?_ le_rfl
  unfold errF; simp

/-- The change of the low-low coefficients made by writing. -/
noncomputable def change (n L : Nat) (image : Mat UInt8) (depth : F) (bits : List Bool) (i j : Nat) : ℝ :=
  if i < n / 2 ^ L ∧ j < n / 2 ^ L then val (written n L image depth bits i j) - val (coeffs n L image i j : F) else 0

theorem change_bound (image : Mat UInt8) (n L : Nat) (hL : L ≤ 30) (hdv : 2 ^ L ∣ n) (depth : F) (hd : GoodDepth depth)
    (hd1 : 1 ≤ val depth) (bits : List Bool) (i j : Nat) :
    |change n L image depth bits i j| ≤ (3 / 4 + u F * (3 * magF L + 7)) * val depth ∧
    |change n L image depth bits i j| ≤ val depth ∧
    (i < n → j < n → fin (written n L image depth bits i j)) := by
  obtain ⟨p1, p2⟩ := pow_facts L hL
  have hu := u_nonneg (F := F)
  have hmag0 : 0 ≤ magF L := by unfold magF; positivity
  have hmag : magF L ≤ 2 ^ 45 := by unfold magF; norm_num at p2 ⊢; linarith
  have hK := u_mul_le (F := F) (3 * magF L + 7) (by linarith) (by norm_num at hmag ⊢; linarith)
  have hb : 0 ≤ (3 / 4 + u F * (3 * magF L + 7)) * val depth := by positivity
  have key : |change n L image depth bits i j| ≤ (3 / 4 + u F * (3 * magF L + 7)) * val depth := by
    unfold change
    split_ifs with h
    · have hle : n / 2 ^ L ≤ n := Nat.div_le_self _ _
      obtain ⟨c1, _, c3⟩ := coeffs_near (F := F) image n L hL hdv i (by omega) j (by omega)
      unfold written
      split_ifs with h'
      · exact writeCell_dist depth _ hd _ c1 (magF L) hmag0 (by norm_num at hmag ⊢; linarith)
          (le_trans c3 (le_mul_of_one_le_right hmag0 hd1))
      · simpa using hb
    · simpa using hb
  refine ⟨key, le_trans key ?_, ?_⟩
  · nlinarith
  · intro hi hj
    obtain ⟨c1, _, c3⟩ := coeffs_near (F := F) image n L hL hdv i hi j hj
    unfold written
    split_ifs with h'
    · obtain ⟨_, _, _, hf, _⟩ := writeCell_spec depth _ hd (bits.getD (i * (n / 2 ^ L) + j) false) c1 (magF L) hmag0
        (by norm_num at hmag ⊢; linarith) (le_trans c3 (le_mul_of_one_le_right hmag0 hd1))
      exact hf
    · exact c1

/-- Target of the embedding: pixel plus the spread change. -/
noncomputable def target (n L : Nat) (image : Mat UInt8) (depth : F) (bits : List Bool) (i j : Nat) : ℝ :=
  pix image i j + change n L image depth bits (i / 2 ^ L) (j / 2 ^ L) / 2 ^ L

theorem target_eq (image : Mat UInt8) (n L : Nat) (hdv : 2 ^ L ∣ n) (depth : F) (bits : List Bool) :
    bwdN n n L (fun i j => fwdN n n L (pix image) i j + change n L image depth bits i j) =
      target n L image depth bits := by
  rw [bwdN_add n n L hdv hdv L le_rfl (fwdN n n L (pix image)) (change n L image depth bits) (by
    intro i j h; unfold change; rw [if_neg h]), bwdN_fwdN n n L hdv hdv _ L le_rfl]
  rfl

theorem written_near (image : Mat UInt8) (n L : Nat) (hL : L ≤ 30) (hdv : 2 ^ L ∣ n) (depth : F) (hd : GoodDepth depth)
    (hd1 : 1 ≤ val depth) (bits : List Bool) :
    Near n n (errF F L) (magF L + val depth) (written n L image depth bits)
      (fun i j => fwdN n n L (pix image) i j + change n L image depth bits i j) := by
  intro i hi j hj
  obtain ⟨_, b2, b3⟩ := change_bound image n L hL hdv depth hd hd1 bits i j
  obtain ⟨c1, c2, c3⟩ := coeffs_near (F := F) image n L hL hdv i hi j hj
  have e : val (written n L image depth bits i j) = val (coeffs n L image i j : F) + change n L image depth bits i j := by
    unfold change
    split_ifs with h
    · ring
    · unfold written
      rw [if_neg (by tauto)]; ring
  refine ⟨b3 hi hj, ?_, ?_⟩
  · rw [e]
    rwa [show val (coeffs n L image i j : F) + change n L image depth bits i j -
      (fwdN n n L (pix image) i j + change n L image depth bits i j) = val (coeffs n L image i j : F) - fwdN n n L (pix image) i j by ring]
  · rw [e]
    have := abs_add_le (val (coeffs n L image i j : F)) (change n L image depth bits i j)
    linarith

theorem spatial_near (image : Mat UInt8) (n L : Nat) (hL : L ≤ 30) (hdv : 2 ^ L ∣ n) (depth : F) (hd : GoodDepth depth)
    (hd1 : 1 ≤ val depth) (bits : List Bool) (i j : Nat) (hi : i < n) (hj : j < n) :
    fin (spatial n L image depth bits i j) ∧
    |val (spatial n L image depth bits i j) - target n L image depth bits i j| ≤ errB F L (val depth) := by
  obtain ⟨p1, p2⟩ := pow_facts L hL
  have hu := u_nonneg (F := F)
  have hmag0 : 0 ≤ magF L := by unfold magF; positivity
  have hmag : magF L ≤ 2 ^ 45 := by unfold magF; norm_num at p2 ⊢; linarith
  have hn := written_near image n L hL hdv depth hd hd1 bits
  have hb : ((3 : ℝ) / 2) ^ (2 * L) * (magF L + val depth) ≤ 2 ^ 150 := by
    calc ((3 : ℝ) / 2) ^ (2 * L) * (magF L + val depth) ≤ 2 ^ 37 * 2 ^ 101 :=
          mul_le_mul p2 (by have := hd.upper; norm_num at hmag this ⊢; linarith) (by linarith) (by norm_num)
      _ ≤ _ := by norm_num
  have h2 := bwdN_near n n L hdv hdv (errF F L) (magF L + val depth) (by unfold errF; positivity) (by linarith) hb _ _ hn
  rw [target_eq image n L hdv depth bits] at h2
  obtain ⟨a, b, _⟩ := h2 i hi j hj
  exact ⟨a, b⟩

/-! ### Reading one cell -/

open Finset in
theorem blockSum_bound (s : Nat) (m m' : Nat → Nat → ℝ) (p q : Nat) (c : ℝ)
    (h : ∀ a < s, ∀ b < s, |m (p * s + a) (q * s + b) - m' (p * s + a) (q * s + b)| ≤ c) :
    |blockSum s m p q - blockSum s m' p q| ≤ s * (s * c) := by
  unfold blockSum
  rw [← sum_sub_distrib]
  refine le_trans (abs_sum_le_sum_abs _ _) ?_
  have hrow : ∀ a ∈ range s, |∑ b ∈ range s, m (p * s + a) (q * s + b) - ∑ b ∈ range s, m' (p * s + a) (q * s + b)| ≤ s * c := by
    intro a ha
    rw [← sum_sub_distrib]
    refine le_trans (abs_sum_le_sum_abs _ _) ?_
    have := sum_le_sum (s := range s) (f := fun b => |m (p * s + a) (q * s + b) - m' (p * s + a) (q * s + b)|)
      (g := fun _ => c) (fun b hb => h a (mem_range.mp ha) b (mem_range.mp hb))
    simpa using this
  have := sum_le_sum hrow
  simpa using this

theorem block_index {n L p a : Nat} (hdv : 2 ^ L ∣ n) (hp : p < n / 2 ^ L) (ha : a < 2 ^ L) :
    p * 2 ^ L + a < n ∧ (p * 2 ^ L + a) / 2 ^ L = p := by
  constructor
  · have h1 : (p + 1) * 2 ^ L ≤ n / 2 ^ L * 2 ^ L := Nat.mul_le_mul_right _ hp
    rw [Nat.div_mul_cancel hdv, Nat.succ_mul] at h1
    omega
  · rw [mul_comm, Nat.mul_add_div (by positivity), Nat.div_eq_of_lt ha]; omega

/-- The coefficient of a cell, recomputed from any image that is within `t` of the marked image on the pixels of the cell's
block, is close to the written one. -/
theorem written_survives (image noisy : Mat UInt8) (n L : Nat) (h1 : 1 ≤ L) (hL : L ≤ 30) (hdv : 2 ^ L ∣ n) (depth : F)
    (hd : GoodDepth depth) (hd1 : 1 ≤ val depth) (bits : List Bool) (t : ℝ)
    (p q : Nat) (hp : p < n / 2 ^ L) (hq : q < n / 2 ^ L)
    (hpix : ∀ i j, i / 2 ^ L = p → j / 2 ^ L = q →
      (3 / 4 + embedSlack F L) * val depth / 2 ^ L ≤ pix image i j ∧
      pix image i j ≤ 255 - (3 / 4 + embedSlack F L) * val depth / 2 ^ L)
    (hnoise : ∀ i j, i / 2 ^ L = p → j / 2 ^ L = q →
      |pix noisy i j - ((floatToPixel (spatial n L image depth bits i j)).toNat : ℝ)| ≤ t) :
    |val (coeffs n L noisy p q : F) - val (written n L image depth bits p q)| ≤
      2 * errF F L + 2 ^ L * (t + 1 / 2) + 2 ^ L * errB F L (val depth) := by
  obtain ⟨p1, p2⟩ := pow_facts L hL
  have hu := u_nonneg (F := F)
  have hmag0 : 0 ≤ magF L := by unfold magF; positivity
  have hmag : magF L ≤ 2 ^ 45 := by unfold magF; norm_num at p2 ⊢; linarith
  obtain ⟨s1, s2⟩ := slack_bounds (F := F) L h1 (val depth) hd1
  have hD := hd.pos
  have h2L : (0 : ℝ) < 2 ^ L := by positivity
  have herrB : 0 ≤ errB F L (val depth) := by unfold errB errF; positivity
  have hle : n / 2 ^ L ≤ n := Nat.div_le_self _ _
  -- the block pixels
  have hblock : ∀ a < 2 ^ L, ∀ b < 2 ^ L,
      |pix noisy (p * 2 ^ L + a) (q * 2 ^ L + b) - target n L image depth bits (p * 2 ^ L + a) (q * 2 ^ L + b)| ≤
        t + (1 / 2 + errB F L (val depth)) := by
    intro a ha b hb
    obtain ⟨a1, a2⟩ := block_index hdv hp ha
    obtain ⟨b1, b2⟩ := block_index hdv hq hb
    obtain ⟨sf, se⟩ := spatial_near image n L hL hdv depth hd hd1 bits _ _ a1 b1
    obtain ⟨c1, _, _⟩ := change_bound image n L hL hdv depth hd hd1 bits p q
    obtain ⟨x1, x2⟩ := hpix _ _ a2 b2
    have hno := hnoise _ _ a2 b2
    have hm : |change n L image depth bits p q / 2 ^ L| ≤ (3 / 4 + embedSlack F L) * val depth / 2 ^ L := by
      rw [abs_div, abs_of_pos h2L]
      apply div_le_div_of_nonneg_right _ h2L.le
      have : 0 ≤ 2 ^ L * errB F L (val depth) := by positivity
      linarith
    have ht0 : 0 ≤ target n L image depth bits (p * 2 ^ L + a) (q * 2 ^ L + b) ∧
        target n L image depth bits (p * 2 ^ L + a) (q * 2 ^ L + b) ≤ 255 := by
      unfold target
      rw [a2, b2]
      obtain ⟨m1, m2⟩ := abs_le.mp hm
      constructor <;> linarith
    have hf := floatToPixel_dist _ sf _ _ ht0.1 ht0.2 se
    have := abs_add_le (pix noisy (p * 2 ^ L + a) (q * 2 ^ L + b) -
      ((floatToPixel (spatial n L image depth bits (p * 2 ^ L + a) (q * 2 ^ L + b))).toNat : ℝ))
      (((floatToPixel (spatial n L image depth bits (p * 2 ^ L + a) (q * 2 ^ L + b))).toNat : ℝ) -
        target n L image depth bits (p * 2 ^ L + a) (q * 2 ^ L + b))
    rw [sub_add_sub_cancel] at this
    linarith
  -- the exact coefficient
  have hsum := blockSum_bound (2 ^ L) (pix noisy) (target n L image depth bits) p q _ hblock
  have eT : fwdN n n L (target n L image depth bits) p q =
      fwdN n n L (pix image) p q + change n L image depth bits p q := by
    rw [← target_eq image n L hdv depth bits, fwdN_bwdN n n L hdv hdv L le_rfl]
  have hexact : |fwdN n n L (pix noisy) p q - (fwdN n n L (pix image) p q + change n L image depth bits p q)| ≤
      2 ^ L * (t + (1 / 2 + errB F L (val depth))) := by
    rw [← eT, fwdN_lowLow n n L hdv hdv _ L le_rfl p hp q hq, fwdN_lowLow n n L hdv hdv _ L le_rfl p hp q hq,
      ← sub_div, abs_div, abs_of_pos h2L, div_le_iff₀ h2L]
    refine le_trans hsum (le_of_eq ?_)
    push_cast; ring
  obtain ⟨w1, w2, w3⟩ := written_near image n L hL hdv depth hd hd1 bits p (by omega) q (by omega)
  obtain ⟨c1, c2, c3⟩ := coeffs_near (F := F) noisy n L hL hdv p (by omega) q (by omega)
  set A := val (coeffs n L noisy p q : F)
  set B := fwdN n n L (pix noisy) p q
  set C := fwdN n n L (pix image) p q + change n L image depth bits p q
  set W := val (written n L image depth bits p q)
  have t1 : |A - W| ≤ |A - B| + |B - C| + |W - C| := by
    have e : A - W = (A - B) + (B - C) + (C - W) := by ring
    rw [e]
    refine le_trans (abs_add_le _ _) ?_
    rw [abs_sub_comm W C]
    linarith [abs_add_le (A - B) (B - C)]
  have : 2 ^ L * (t + (1 / 2 + errB F L (val depth))) = 2 ^ L * (t + 1 / 2) + 2 ^ L * errB F L (val depth) := by ring
  linarith

/-- A written cell is read back from any image that is within `t` of the marked image on the pixels of the cell's block. -/
theorem cell_survives (image noisy : Mat UInt8) (n L : Nat) (h1 : 1 ≤ L) (hL : L ≤ 30) (hdv : 2 ^ L ∣ n) (depth : F)
    (hd : GoodDepth depth) (hd1 : 1 ≤ val depth) (bits : List Bool) (t : ℝ)
    (hdepth : 2 ^ L * (t + 1 / 2) < (1 / 4 - embedSlack F L) * val depth)
    (p q : Nat) (hp : p < n / 2 ^ L) (hq : q < n / 2 ^ L) (hbit : p * (n / 2 ^ L) + q < bits.length)
    (hpix : ∀ i j, i / 2 ^ L = p → j / 2 ^ L = q →
      (3 / 4 + embedSlack F L) * val depth / 2 ^ L ≤ pix image i j ∧
      pix image i j ≤ 255 - (3 / 4 + embedSlack F L) * val depth / 2 ^ L)
    (hnoise : ∀ i j, i / 2 ^ L = p → j / 2 ^ L = q →
      |pix noisy i j - ((floatToPixel (spatial n L image depth bits i j)).toNat : ℝ)| ≤ t) :
    readCell depth (coeffs n L noisy p q : F) = bits.getD (p * (n / 2 ^ L) + q) false := by
  obtain ⟨p1, p2⟩ := pow_facts L hL
  have hu := u_nonneg (F := F)
  have hmag0 : 0 ≤ magF L := by unfold magF; positivity
  have hmag : magF L ≤ 2 ^ 45 := by unfold magF; norm_num at p2 ⊢; linarith
  obtain ⟨s1, s2⟩ := slack_bounds (F := F) L h1 (val depth) hd1
  have hD := hd.pos
  have hle : n / 2 ^ L ≤ n := Nat.div_le_self _ _
  have hs := written_survives image noisy n L h1 hL hdv depth hd hd1 bits t p q hp hq hpix hnoise
  obtain ⟨c1, c2, c3⟩ := coeffs_near (F := F) noisy n L hL hdv p (by omega) q (by omega)
  obtain ⟨o1, o2, o3⟩ := coeffs_near (F := F) image n L hL hdv p (by omega) q (by omega)
  have hw : written n L image depth bits p q =
      writeCell depth (bits.getD (p * (n / 2 ^ L) + q) false) (coeffs n L image p q : F) := by
    unfold written; rw [if_pos ⟨hp, hq, hbit⟩]
  rw [hw] at hs
  refine readCell_writeCell depth (coeffs n L image p q) (coeffs n L noisy p q) hd _ o1 c1 (magF L) hmag0
    (by norm_num at hmag ⊢; linarith) (le_trans o3 (le_mul_of_one_le_right hmag0 hd1)) ?_
  rw [sub_mul] at hdepth ⊢
  linarith

end
end Sia
