import Verif.Props.SymmetricProps
import Verif.Props.ReplaceImageProps
import Verif.Props.ReadExamples

/-! C72 for the program in double precision; examples for C90. -/
namespace Sia
open FloatOps LawfulFloat

/-- C72 for the program: with a step of at least 16384 (and up to 11 features) there is one record that is written into every picture,
and every picture that carries it is accepted, whatever it shows. -/
theorem large_step_program (M : Libm F64) (hM : M.Lawful) (hM2 : ∀ x y, M.hypot x y = .nan ∨ FloatOps.ge (M.hypot x y) (.fin 0) = true)
    (a : Nat) (s : ℚ) (ha1 : 1 ≤ a) (ha : a ≤ 11) (hs1 : 16384 ≤ (s : ℝ)) (hs2 : (s : ℝ) ≤ 2 ^ 100) :
    ∃ data : List UInt8,
      (∀ (c out : GrayImage) (n levels : Nat) (depth : F64), c.IsSquare n → 2 ≤ n → n ≤ 2 ^ 14 →
        watermarkChannel (Deps.program M) c depth (.fin s) a levels = .ok out →
        ∃ m, embed Ldpc.ccsds c.pixels data depth levels = .ok m ∧ GrayImage.fromRaw n n m.toList = .ok out) ∧
      ∀ (B : GrayImage) (n levels : Nat) (depth : F64), B.IsSquare n → 2 ≤ n → n ≤ 2 ^ 14 →
        extract Ldpc.ccsds B.pixels depth levels = .ok data →
        authenticateChannel (Deps.program M) B depth (.fin s) a levels = .ok true := by
  obtain ⟨-, -, hk⟩ := actual_contracts (Deps.program M) (program_actual M)
  set q : List Int := List.replicate a 0 with hq
  set p : List Bool := (List.replicate a [true, true, false]).flatten with hp
  set w : Watermark := ⟨p, (Deps.program M).ed.sign (builtinSecret ++ builtinPublic) (vecI64ToBytes q), watermarkText⟩ with hw
  have hpl : p.length = 3 * a := by
    rw [hp]
    simp [mul_comm]
  have hfits : w.Fits := by
    obtain ⟨fs, f1, f2⟩ := large_step_cells M hM hM2 testChannel 512 a s testChannel_square (by norm_num) (by norm_num) ha1 ha hs1 hs2
    obtain ⟨record, e1, _⟩ := watermarkChannel_split (Deps.program M) testChannel (F64.fin 100) (F64.fin s) a 3
      (by rw [testChannel_square.1, testChannel_square.2.1, testChannel_square.2.2]) fs f1 q p f2 hk.keypair (by rw [hpl]; omega)
    exact (watermark_serialize_iff w).mp ⟨_, e1⟩
  obtain ⟨data, hser, hdes⟩ := watermark_roundtrip w hfits
  refine ⟨data, ?_, ?_⟩
  · intro c out n levels depth hc hn2 hn h
    obtain ⟨fs, f1, f2⟩ := large_step_cells M hM hM2 c n a s hc hn2 hn ha1 ha hs1 hs2
    obtain ⟨_, _, _, _, _, fs', q', p', record, m, e1, e2, e3, _, hm, hraw⟩ :=
      watermarkChannel_ok_only (Deps.program M) c out depth (.fin s) a levels h
    rw [f1] at e1
    obtain rfl := Except.ok.inj e1
    rw [f2] at e2
    obtain ⟨rfl, rfl⟩ := Prod.mk.inj (Except.ok.inj e2)
    rw [hser] at e3
    obtain rfl := Except.ok.inj e3
    rw [hc.1, hc.2.1] at hraw
    exact ⟨m, hm, hraw⟩
  · intro B n levels depth hB hn2 hn hx
    obtain ⟨gs, g1, g2⟩ := large_step_cells M hM hM2 B n a s hB hn2 hn ha1 ha hs1 hs2
    rw [authenticate_iff]
    have := hdes []
    rw [List.append_nil] at this
    exact ⟨by rw [hB.1, hB.2.1, hB.2.2], gs, data, w, q, g1, hx, this, dequantization_unchanged gs _ _ _ g2, hk.public_ok,
      hk.parses _, hk.verifies _⟩

/-- The other colours of `stripes`. -/
theorem stripes_sum_all (s : Rgba → UInt8) (hs : s ∈ [Rgba.r, Rgba.g, Rgba.b]) (x y : Nat) : sampleSum stripes s x y % 16 ≠ 8 := by
  have h60 : ∑ _a ∈ Finset.range 8, ∑ _b ∈ Finset.range 8, (60 : UInt8).toNat = 3840 := by decide
  simp only [List.mem_cons, List.not_mem_nil, or_false] at hs
  rcases hs with rfl | rfl | rfl
  · rw [stripes_sum]; decide
  · have : sampleSum stripes Rgba.g x y = 3840 := h60
    rw [this]; decide
  · have : sampleSum stripes Rgba.b x y = 3840 := h60
    rw [this]; decide

theorem stripes_room (s : Rgba → UInt8) (hs : s ∈ [Rgba.r, Rgba.g, Rgba.b]) (x y : Nat) :
    10 ≤ (s (stripes.pixel x y)).toNat ∧ (s (stripes.pixel x y)).toNat ≤ 245 := by
  simp only [List.mem_cons, List.not_mem_nil, or_false] at hs
  unfold stripes
  rcases hs with rfl | rfl | rfl <;> dsimp only
  · split_ifs <;> decide
  · decide
  · decide

/-- C90 for the program on a concrete picture: marked a thousand times and once more, it is the original with one record. -/
example : ∃ (before out : DynamicImage) (record : List UInt8) (direct : Mat UInt8),
    Relation.ReflTransGen (fun x y => ∃ (D : Deps F64) (step : F64), watermark D x (.fin 100) step 11 = .ok y) stripes before ∧
    watermark (Deps.program idealLibm) before (.fin 100) (.fin 1) 11 = .ok out ∧
    embed Ldpc.ccsds (stripes.plane Rgba.r).pixels record (F64.fin 100) 3 = .ok direct ∧
    ∀ x < 512, ∀ y < 512, (out.pixel x y).r = direct.get y x := by
  obtain ⟨ps, h0, hps⟩ := program_marks_again idealLibm idealLibm_moduli stripes 512 (.fin 100) (.fin 1) rfl rfl ⟨64, rfl⟩
    (by norm_num) (by norm_num) (by decide) 1001
  have hchain : ∀ k ≤ 1000, Relation.ReflTransGen (fun x y => ∃ (D : Deps F64) (step : F64), watermark D x (.fin 100) step 11 = .ok y)
      stripes (ps k) := by
    intro k
    induction k with
    | zero => exact fun _ => h0 ▸ .refl
    | succ k ih => exact fun hk => (ih (by omega)).tail ⟨_, .fin 1, hps k (by omega)⟩
  obtain ⟨_, _, _, record, direct, _, _, _, f4, f5⟩ := last_marking_tool 512 11 (Deps.program idealLibm) stripes (ps 1000) (ps 1001)
    (.fin 1) (by norm_num) rfl rfl (fun h => by cases h) Rgba.r (by simp) (hchain 1000 le_rfl) (hps 1000 (by norm_num))
  exact ⟨ps 1000, ps 1001, record, direct, hchain 1000 le_rfl, hps 1000 (by norm_num), f4, fun x hx y hy =>
    f5 x hx y hy (fun x _ y _ _ => stripes_room _ (by simp) x y) (stripes_sum_all _ (by simp) x y)⟩

/-- C90 for the program on a concrete picture whose features keep their cells (with the step 16384): marking it twice is marking it once. -/
example : ∃ out again, watermark (Deps.program idealLibm) stripes (.fin 100) (.fin 16384) 11 = .ok out ∧
    watermark (Deps.program idealLibm) out (.fin 100) (.fin 16384) 11 = .ok again ∧
    ∀ s ∈ [Rgba.r, Rgba.g, Rgba.b], ∀ x < 512, ∀ y < 512, s (again.pixel x y) = s (out.pixel x y) := by
  obtain ⟨out, ho⟩ := program_marks idealLibm idealLibm_moduli stripes 512 (.fin 100) (.fin 16384) rfl rfl ⟨64, rfl⟩
    (by norm_num) (by norm_num) (by decide)
  obtain ⟨k1, k2, _⟩ := watermark_keeps_shape_and_alpha _ _ _ _ _ _ ho
  obtain ⟨again, h1, h2⟩ := marking_again_tool 512 11 (Deps.program idealLibm) stripes out out (.fin 16384) (by norm_num) rfl rfl
    (fun h => by cases h) (.single ⟨_, _, ho⟩) (fun s _ fs gs hfs hgs => by
      have h16 : (16384 : ℝ) ≤ ((16384 : ℚ) : ℝ) := by norm_num
      have h100 : ((16384 : ℚ) : ℝ) ≤ 2 ^ 100 := by norm_num
      obtain ⟨fs', f1, f2⟩ := large_step_cells idealLibm idealLibm_lawful idealLibm_moduli (stripes.plane s) 512 11 16384
        (plane_isSquare stripes 512 rfl rfl s) (by norm_num) (by norm_num) (by norm_num) (by norm_num) h16 h100
      obtain ⟨gs', g1, g2⟩ := large_step_cells idealLibm idealLibm_lawful idealLibm_moduli (out.plane s) 512 11 16384
        (plane_isSquare out 512 k1 k2 s) (by norm_num) (by norm_num) (by norm_num) (by norm_num) h16 h100
      rw [f1] at hfs
      rw [g1] at hgs
      rw [← Except.ok.inj hfs, ← Except.ok.inj hgs, f2, g2]) ho
  exact ⟨out, again, ho, h1, fun s hs x hx y hy => h2 s hs x hx y hy (fun x _ y _ _ => stripes_room s hs x y) (stripes_sum_all s hs x y)⟩

/-- C90 in exact arithmetic on a concrete picture. -/
example : ∃ once twice record direct, watermark Deps.flatReal stripes (FloatOps.ofInt 100) (FloatOps.ofInt 1) 11 = .ok once ∧
    watermark Deps.flatReal once (FloatOps.ofInt 100) (FloatOps.ofInt 1) 11 = .ok twice ∧
    embed Ldpc.toy (stripes.plane Rgba.r).pixels record (FloatOps.ofInt 100 : ℝ) 3 = .ok direct ∧
    ∀ x < 512, ∀ y < 512, (twice.pixel x y).r = direct.get y x := by
  have all : ∀ image : DynamicImage, image.width = 512 → image.height = 512 →
      ∃ out, watermark Deps.flatReal image (FloatOps.ofInt 100) (FloatOps.ofInt 1) 11 = .ok out := fun image hw hh =>
    (watermark_succeeds_iff _ _ _ _ _).2 ⟨flat_marks_all _ (plane_isSquare _ _ hw hh _), fun _ =>
      ⟨flat_marks_all _ (plane_isSquare _ _ hw hh _), flat_marks_all _ (plane_isSquare _ _ hw hh _)⟩⟩
  obtain ⟨once, h1⟩ := all stripes rfl rfl
  obtain ⟨k1, k2, _⟩ := watermark_keeps_shape_and_alpha _ _ _ _ _ _ h1
  obtain ⟨twice, h2⟩ := all once k1 k2
  have hd : (FloatOps.ofInt 100 : ℝ) = 100 := by
    show (((100 : ℤ) : ℝ)) = 100
    norm_num
  obtain ⟨_, _, _, record, direct, _, _, _, f4, f5⟩ := last_marking_exact 512 11 Deps.flatReal stripes once twice (FloatOps.ofInt 100)
    (FloatOps.ofInt 1) (by norm_num) rfl rfl (fun h => by cases h) (by rw [hd]; norm_num) (by rw [hd]; norm_num) Rgba.r (by simp) (.single ⟨_, _, h1⟩) h2
  refine ⟨once, twice, record, direct, h1, h2, f4, fun x hx y hy => f5 x hx y hy fun x' _ y' _ _ => ?_⟩
  obtain ⟨r1, r2⟩ := stripes_room Rgba.r (by simp) x' y'
  have r1' : (10 : ℝ) ≤ ((stripes.pixel x' y').r.toNat : ℝ) := by exact_mod_cast r1
  have r2' : ((stripes.pixel x' y').r.toNat : ℝ) ≤ 245 := by exact_mod_cast r2
  rw [hd]
  constructor <;> linarith

end Sia
