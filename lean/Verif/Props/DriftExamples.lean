import Verif.Props.DriftImageProps
import Verif.Props.MachineProps
import Verif.Props.ProgramProps
import Verif.Props.ReadExamples

/-! C41 for the program, and pictures marked again and again (C89). -/
namespace Sia
open FloatOps

/-- C41: the program marks every square channel with a side that is a multiple of 8, at least 216 and not 256, for every depth and
every step that is not negative, at 11 features. -/
theorem program_marks_channel (M : Libm F64) (hM : ∀ x y, M.hypot x y = .nan ∨ FloatOps.ge (M.hypot x y) (.fin 0) = true)
    (c : GrayImage) (n : Nat) (depth step : F64) (hc : c.IsSquare n) (h8 : 8 ∣ n) (h216 : 216 ≤ n) (h256 : n ≠ 256)
    (hs : FloatOps.ge step (.fin 0) = true) : ∃ out, watermarkChannel (Deps.program M) c depth step 11 3 = .ok out := by
  have hsz := (smallest_accepted_side n h8).2 ⟨h216, h256⟩
  refine (watermark_accepts_iff (Deps.program M) ((program_actual M).2 ▸ builtin_keyPair.1) c n 11 depth step (by omega) hc).2
    ⟨⟨by norm_num, by norm_num⟩, fun fs hfs => ?_, h8, h256, hsz.2⟩
  exact features_noneAtMinimum (Deps.program M) (program_moduli M hM) c 11 step hs fs hfs

/-- C41: the program marks every square picture, of whatever colour type, with a side that is a multiple of 8, at least 216 and not 256. -/
theorem program_marks (M : Libm F64) (hM : ∀ x y, M.hypot x y = .nan ∨ FloatOps.ge (M.hypot x y) (.fin 0) = true)
    (image : DynamicImage) (n : Nat) (depth step : F64) (hw : image.width = n) (hh : image.height = n) (h8 : 8 ∣ n) (h216 : 216 ≤ n)
    (h256 : n ≠ 256) (hs : FloatOps.ge step (.fin 0) = true) : ∃ out, watermark (Deps.program M) image depth step 11 = .ok out := by
  have key : ∀ s, ∃ out, watermarkChannel (Deps.program M) (image.plane s) depth step 11 3 = .ok out := fun s =>
    program_marks_channel M hM _ n depth step (plane_isSquare image n hw hh s) h8 h216 h256 hs
  exact (watermark_succeeds_iff _ _ _ _ _).2 ⟨key _, fun _ => ⟨key _, key _⟩⟩

/-- C41, C89: so a picture can be marked as often as one likes. -/
theorem program_marks_again (M : Libm F64) (hM : ∀ x y, M.hypot x y = .nan ∨ FloatOps.ge (M.hypot x y) (.fin 0) = true)
    (image : DynamicImage) (n : Nat) (depth step : F64) (hw : image.width = n) (hh : image.height = n) (h8 : 8 ∣ n) (h216 : 216 ≤ n)
    (h256 : n ≠ 256) (hs : FloatOps.ge step (.fin 0) = true) (times : Nat) :
    ∃ pictures : Nat → DynamicImage, pictures 0 = image ∧
      ∀ k < times, watermark (Deps.program M) (pictures k) depth step 11 = .ok (pictures (k + 1)) := by
  induction times generalizing image with
  | zero => exact ⟨fun _ => image, rfl, fun k hk => absurd hk (Nat.not_lt_zero k)⟩
  | succ times ih =>
    obtain ⟨out, ho⟩ := program_marks M hM image n depth step hw hh h8 h216 h256 hs
    obtain ⟨k1, k2, _⟩ := watermark_keeps_shape_and_alpha _ _ _ _ _ _ ho
    obtain ⟨ps, h0, hps⟩ := ih out (k1.trans hw) (k2.trans hh)
    refine ⟨fun k => match k with | 0 => image | k + 1 => ps k, rfl, fun k hk => ?_⟩
    cases k with
    | zero => show watermark _ image depth step 11 = .ok (ps 0); rw [h0]; exact ho
    | succ k => exact hps k (by omega)

/-- C89 for the program: however often it marks a picture, no sample of a block of 8 x 8 pixels that lies between 10 and 245 and whose
sum leaves no remainder 8 when divided by 16 is more than 9 levels away from the original. -/
theorem remarking_program (M : Libm F64) (n times : Nat) (pictures : Nat → DynamicImage) (step : F64) (hn : 0 < n)
    (hw : (pictures 0).width = n) (hh : (pictures 0).height = n) (hg : GreyPixels (pictures 0))
    (hps : ∀ k < times, watermark (Deps.program M) (pictures k) (.fin 100) step 11 = .ok (pictures (k + 1)))
    (s : Rgba → UInt8) (hsr : s ∈ [Rgba.r, Rgba.g, Rgba.b]) (x y : Nat) (hx : x < n) (hy : y < n)
    (hroom : ∀ x' < n, ∀ y' < n, SameBlock x y x' y' → 10 ≤ (s ((pictures 0).pixel x' y')).toNat ∧ (s ((pictures 0).pixel x' y')).toNat ≤ 245)
    (hsum : sampleSum (pictures 0) s x y % 16 ≠ 8) :
    |((s ((pictures times).pixel x y)).toNat : ℤ) - (s ((pictures 0).pixel x y)).toNat| ≤ 9 := by
  have hchain : ∀ k ≤ times, Relation.ReflTransGen (fun a b => ∃ (D : Deps F64) (step : F64) (amount : Nat),
      watermark D a (.fin 100) step amount = .ok b) (pictures 0) (pictures k) := by
    intro k
    induction k with
    | zero => exact fun _ => .refl
    | succ k ih => exact fun hk => (ih (by omega)).tail ⟨_, step, 11, hps k (by omega)⟩
  obtain ⟨m, m1, m2⟩ := remarking_tool n (pictures 0) (pictures times) hn hw hh hg s hsr x y hx hy hroom hsum (hchain times le_rfl)
  rw [m2 x hx y hy ⟨rfl, rfl⟩, add_sub_cancel_left]
  exact m1

/-- A picture of medium red and green that meets the hypotheses everywhere: rows of 100 and 104, all other samples 60. -/
def stripes : DynamicImage := ⟨.Rgb8, 512, 512, fun _ y => ⟨if y % 2 = 0 then 100 else 104, 60, 60, 255⟩⟩

theorem stripes_sum (x y : Nat) : sampleSum stripes Rgba.r x y = 6528 := by
  unfold sampleSum stripes
  have : ∀ a : Nat, (y / 8 * 8 + a) % 2 = a % 2 := fun a => by omega
  simp only [this]
  decide

/-- Marked a thousand times by the program, this picture is nowhere more than 9 levels away from itself. -/
example : ∃ pictures : Nat → DynamicImage, pictures 0 = stripes ∧
    (∀ k < 1000, watermark (Deps.program idealLibm) (pictures k) (.fin 100) (.fin 1) 11 = .ok (pictures (k + 1))) ∧
    ∀ x < 512, ∀ y < 512, |(((pictures 1000).pixel x y).r.toNat : ℤ) - (stripes.pixel x y).r.toNat| ≤ 9 := by
  obtain ⟨ps, h0, hps⟩ := program_marks_again idealLibm idealLibm_moduli stripes 512 (.fin 100) (.fin 1) rfl rfl ⟨64, rfl⟩
    (by norm_num) (by norm_num) (by decide) 1000
  refine ⟨ps, h0, hps, fun x hx y hy => ?_⟩
  have := remarking_program idealLibm 512 1000 ps (.fin 1) (by norm_num) (by rw [h0]; rfl) (by rw [h0]; rfl)
    (by rw [h0]; intro h; cases h) hps Rgba.r (by simp) x y hx hy
    (by
      rw [h0]
      intro x' _ y' _ _
      unfold stripes
      dsimp only
      split_ifs <;> decide) (by rw [h0, stripes_sum]; decide)
  rw [h0] at this
  exact this

/-- In exact arithmetic: a picture of three colours marked twice by the toy library. -/
example : ∃ once twice, watermark Deps.flatReal stripes (FloatOps.ofInt 100) (FloatOps.ofInt 1) 11 = .ok once ∧
    watermark Deps.flatReal once (FloatOps.ofInt 100) (FloatOps.ofInt 1) 11 = .ok twice ∧
    ∀ x < 512, ∀ y < 512, ∃ m : ℤ, |(m : ℝ)| ≤ 3 / 32 * 100 + 1 / 2 ∧ ((twice.pixel x y).r.toNat : ℤ) = (stripes.pixel x y).r.toNat + m := by
  have all : ∀ image : DynamicImage, image.width = 512 → image.height = 512 →
      ∃ out, watermark Deps.flatReal image (FloatOps.ofInt 100) (FloatOps.ofInt 1) 11 = .ok out := fun image hw hh =>
    (watermark_succeeds_iff _ _ _ _ _).2 ⟨flat_marks_all _ (plane_isSquare _ _ hw hh _), fun _ =>
      ⟨flat_marks_all _ (plane_isSquare _ _ hw hh _), flat_marks_all _ (plane_isSquare _ _ hw hh _)⟩⟩
  obtain ⟨once, h1⟩ := all stripes rfl rfl
  obtain ⟨k1, k2, _⟩ := watermark_keeps_shape_and_alpha _ _ _ _ _ _ h1
  obtain ⟨twice, h2⟩ := all once k1 k2
  refine ⟨once, twice, h1, h2, fun x hx y hy => ?_⟩
  have hd : (FloatOps.ofInt 100 : ℝ) = 100 := by
    show (((100 : ℤ) : ℝ)) = 100
    norm_num
  obtain ⟨m, m1, m2⟩ := remarking_exact 512 stripes twice (FloatOps.ofInt 100) (by norm_num) rfl rfl (fun h => by cases h)
    (by rw [hd]; norm_num) (by rw [hd]; norm_num) Rgba.r (by simp) x y hx hy
    (by
      rw [hd]
      intro x' _ y' _ _
      unfold stripes
      dsimp only
      have e1 : (((100 : UInt8).toNat : ℕ) : ℝ) = 100 := by
        rw [show (100 : UInt8).toNat = 100 from rfl]; norm_num
      have e2 : (((104 : UInt8).toNat : ℕ) : ℝ) = 104 := by
        rw [show (104 : UInt8).toNat = 104 from rfl]; norm_num
      split_ifs
      · rw [e1]; constructor <;> norm_num
      · rw [e2]; constructor <;> norm_num)
    ((Relation.ReflTransGen.single ⟨Deps.flatReal, FloatOps.ofInt 1, 11, h1⟩).tail ⟨Deps.flatReal, FloatOps.ofInt 1, 11, h2⟩)
  rw [hd] at m1
  exact ⟨m, m1, m2 x hx y hy ⟨rfl, rfl⟩⟩

end Sia
