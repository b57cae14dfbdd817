import Verif.Props.BrightnessProps
import Verif.Props.DistortionProps
import Verif.Props.BlankProps
import Verif.Model.Equalize

/-! Concrete cases meeting the hypotheses of the pipeline theorems (C36–C41, C46, C50–C53), and the authentication half of C46. -/
namespace Sia
open LawfulFloat Finset

/-- A toy signature library meeting the contract: the signature of a message is its first 64 bytes (padded). -/
def Ed25519.toy : Ed25519 where
  keypairOk k := k.length == 64
  publicOk k := k.length == 32
  signatureOk s := s.length == 64
  sign _ m := (m ++ List.replicate 64 0).take 64
  verify _ m s := s == (m ++ List.replicate 64 0).take 64
  keypair_length k h := by simpa using h
  public_length k h := by simpa using h
  signature_length s h := by simpa using h
  sign_length k m := by simp

theorem Ed25519.toy_keyPair (s p : List UInt8) (hs : s.length = 32) (hp : p.length = 32) : Ed25519.toy.KeyPair s p where
  keypair := by simp [Ed25519.toy, hs, hp]
  public_ok := by simp [Ed25519.toy, hp]
  parses m := by simp [Ed25519.toy]
  verifies m := by simp [Ed25519.toy]

/-- A library for exact arithmetic: exact moments, the documented histogram equalisation. -/
noncomputable def Deps.toyReal : Deps ℝ where
  ldpc := Ldpc.toy
  ed := Ed25519.toy
  equalize c := equalizeExact c.raw
  momentAbs order index image := match zernikeMoment order index image with
    | .ok m => ‖m‖
    | .error _ => 0
  equalize_length c := by simp [equalizeExact]

theorem Deps.toyReal_exact : Deps.toyReal.Exact := by
  intro order index image m h
  unfold Deps.toyReal
  dsimp only
  rw [h]

theorem Deps.toyReal_orderOnly : Deps.toyReal.OrderOnly := fun c p h => equalizeExact_orderOnly c.raw p h

/-- A textured 512 x 512 test channel with samples between 100 and 131. -/
def testChannel : GrayImage := ⟨512, 512, (List.range (512 * 512)).map fun k => UInt8.ofNat (100 + (k / 512 * (k % 512)) % 32)⟩

theorem testChannel_square : testChannel.IsSquare 512 := ⟨rfl, rfl, by unfold testChannel; rw [List.length_map, List.length_range]⟩

theorem testChannel_range : ∀ i < 512, ∀ j < 512, 100 ≤ (testChannel.pixels.get i j).toNat ∧
    (testChannel.pixels.get i j).toNat ≤ 131 := by
  intro i hi j hj
  unfold testChannel GrayImage.pixels
  dsimp only
  rw [List.getD_eq_getElem?_getD, List.getElem?_map, List.getElem?_range (by omega)]
  rw [Option.map_some, Option.getD_some, UInt8.toNat_ofNat']
  omega

theorem testChannel_geometry : EmbedGeometry 512 3 testChannel.pixels :=
  ⟨⟨rfl, rfl⟩, by decide, by decide, by decide, by decide⟩

theorem meanDifference_le (n : Nat) (hn : 0 < n) (a b : Mat UInt8) : meanDifference n a b ≤ 255 := by
  unfold meanDifference
  have hpos : (0 : ℝ) < (n : ℝ) * n := by
    have : (0 : ℝ) < n := by exact_mod_cast hn
    positivity
  rw [div_le_iff₀ hpos]
  refine (sum_le_sum fun i _ => sum_le_sum fun j _ => (?_ : _ ≤ (255 : ℝ))).trans (le_of_eq (by simp; ring))
  have h1 : ∀ x : UInt8, ((x.toNat : ℕ) : ℝ) ≤ 255 := fun x => by
    have := x.toNat_lt
    exact_mod_cast (by omega : x.toNat ≤ 255)
  have h2 : ∀ x : UInt8, (0 : ℝ) ≤ ((x.toNat : ℕ) : ℝ) := fun x => by positivity
  have := h1 (a.get i j)
  have := h1 (b.get i j)
  have := h2 (a.get i j)
  have := h2 (b.get i j)
  rw [abs_le]
  constructor <;> linarith

/-- C38, C49 (exact arithmetic): the test channel, 11 features, depth 100, step 3000, noise up to 2 per pixel. The noise
condition on the equalised pixels holds for every image because the step is large; all other conditions are met as they are. -/
theorem testChannel_authenticates : ∃ out, watermarkChannel Deps.toyReal testChannel 100 3000 11 3 = .ok out ∧
    out.IsSquare 512 ∧ ∀ noisy : GrayImage, noisy.IsSquare 512 → WithinNoise 512 2 out.pixels noisy.pixels →
      authenticateChannel Deps.toyReal noisy 100 3000 11 3 = .ok true := by
  obtain ⟨out, h1, h2, h3⟩ := marked_channel_authenticates_pixels Deps.toyReal Deps.toyReal_exact Ldpc.toy_decodesClean
    (Ed25519.toy_keyPair _ _ rfl rfl) testChannel 512 3 11 100 3000 2 testChannel_square testChannel_geometry
    (by norm_num) (by norm_num) (by
      intro i hi j hj
      obtain ⟨a, b⟩ := testChannel_range i hi j hj
      have a' : (100 : ℝ) ≤ ((testChannel.pixels.get i j).toNat : ℝ) := by exact_mod_cast a
      have b' : ((testChannel.pixels.get i j).toNat : ℝ) ≤ 131 := by exact_mod_cast b
      constructor <;> linarith) (by decide) (by decide) (by decide) (by decide) (by decide) (by norm_num)
  refine ⟨out, h1, h2, fun noisy hn hw => h3 noisy hn hw ?_⟩
  refine (meanDifference_le 512 (by norm_num) _ _).trans ?_
  rw [le_div_iff₀ (by norm_num)]
  have := Real.two_le_pi
  push_cast
  linarith

theorem testChannel_signal : SignalOK 512 3 testChannel.pixels (100 : ℝ) 2 := by
  refine ⟨trivial, ?_, ?_, ?_, ?_⟩
  · show (0 : ℝ) < 100; norm_num
  · norm_num
  · show (2 : ℝ) ^ 3 * (2 + 1 / 2) < (1 / 4 - 0 * _) * 100; norm_num
  · intro i hi j hj
    obtain ⟨a, b⟩ := testChannel_range i hi j hj
    have a' : (100 : ℝ) ≤ ((testChannel.pixels.get i j).toNat : ℝ) := by exact_mod_cast a
    have b' : ((testChannel.pixels.get i j).toNat : ℝ) ≤ 131 := by exact_mod_cast b
    show (3 / 4 + 0 * _) * (100 : ℝ) / 2 ^ 3 ≤ _ ∧ _ ≤ 255 - (3 / 4 + 0 * _) * (100 : ℝ) / 2 ^ 3
    constructor <;> linarith

theorem getElem_of_square (c : GrayImage) (n : Nat) (hc : c.IsSquare n) (v : UInt8) (hv : v ∈ c.raw) :
    ∃ i < n, ∃ j < n, c.pixels.get i j = v := by
  obtain ⟨k, hk, rfl⟩ := List.getElem_of_mem hv
  obtain ⟨h1, h2, h3⟩ := hc
  have hk' : k < n * n := by omega
  have hn : 0 < n := by
    rcases Nat.eq_zero_or_pos n with rfl | h
    · simp at hk'
    · exact h
  refine ⟨k / n, Nat.div_lt_of_lt_mul hk', k % n, Nat.mod_lt _ hn, ?_⟩
  show c.raw.getD (k / n * c.height + k % n) 0 = _
  rw [h2, show k / n * n + k % n = k by rw [mul_comm]; exact Nat.div_add_mod k n, List.getD_eq_getElem?_getD,
    List.getElem?_eq_getElem hk, Option.getD_some]

/-- C53: raising the brightness of the marked test channel by 2 does not hurt. -/
example : ∃ out, watermarkChannel Deps.toyReal testChannel 100 3000 11 3 = .ok out ∧
    authenticateChannel Deps.toyReal ⟨out.width, out.height, out.raw.map (· + 2)⟩ 100 3000 11 3 = .ok true := by
  obtain ⟨out, h, hsq, hauth⟩ := testChannel_authenticates
  have hself := hauth out hsq ⟨⟨hsq.1, hsq.2.1⟩, fun i _ j _ => by rw [sub_self, abs_zero]; norm_num⟩
  have hsmall : ∀ v ∈ out.raw, v.toNat ≤ 253 := by
    intro v hv
    obtain ⟨i, hi, j, hj, rfl⟩ := getElem_of_square out 512 hsq v hv
    have hd := (watermarkChannel_distortion Deps.toyReal testChannel out 512 3 11 100 3000 (by norm_num) testChannel_square
      (by norm_num) h).2 i hi j hj
    have hb : ((testChannel.pixels.get i j).toNat : ℝ) ≤ 131 := by exact_mod_cast (testChannel_range i hi j hj).2
    have := (abs_le.mp hd).2
    have : ((out.pixels.get i j).toNat : ℝ) ≤ 253 := by linarith
    exact_mod_cast this
  refine ⟨out, h, ?_⟩
  rw [← hself]
  refine brightness_tolerated Deps.toyReal Deps.toyReal_orderOnly Ldpc.toy_decodesClean testChannel 512 3 11 100 3000 2
    testChannel_square testChannel_geometry testChannel_signal (by decide) (by decide) (by decide) out h _ ?_ ?_ _ _
  · intro v hv w hw hlt
    have := hsmall v hv
    have := hsmall w hw
    rw [UInt8.lt_iff_toNat_lt] at *
    rw [UInt8.toNat_add, UInt8.toNat_add]
    show (v.toNat + 2) % 256 < (w.toNat + 2) % 256
    omega
  · intro v hv
    have := hsmall v hv
    have e : (v + 2).toNat = v.toNat + 2 := by
      rw [UInt8.toNat_add]
      show (v.toNat + 2) % 256 = _
      omega
    rw [e]; push_cast
    rw [add_sub_cancel_left]; norm_num

/-- In exact arithmetic features are never negative, so no feature of any square channel lies in the cell `i64::MIN`: the
hypothesis of `marked_readable_side`, `marked_unreadable_side` and `watermark_accepts_iff` always holds there. -/
theorem exact_features_safe (D : Deps ℝ) (hD : D.Exact) (c : GrayImage) (n a : Nat) (step : ℝ) (hstep : 0 < step) (hn : 2 ≤ n)
    (hc : c.IsSquare n) (fs : List ℝ) (h : equalizedFeatures D c a = .ok fs) : FeaturesInRange fs step := by
  obtain ⟨ha, _, _⟩ := equalizedFeatures_length D c a fs h
  rw [equalizedFeatures_exact D hD c n a hn ha hc] at h
  rw [featuresInRange_iff]
  intro hm
  unfold quantize at hm
  simp only [List.mem_map] at hm
  obtain ⟨f, hf, he⟩ := hm
  have h0 := (features_bounded n _ a ha hn ⟨hc.1, hc.2.1⟩ fs h f hf).1
  have h1 : 0 ≤ ⌊f / step⌋ := Int.floor_nonneg.mpr (div_nonneg h0 hstep.le)
  rw [quantizeOne_real] at he
  unfold clampZ i64Min i64Max at he
  split_ifs at he <;> omega

/-- C51 on a concrete readable side. -/
example : ∃ out, watermarkChannel Deps.toyReal testChannel 100 1 11 3 = .ok out ∧ out.IsSquare 512 ∧
    ∀ noisy : GrayImage, noisy.IsSquare 512 → WithinNoise 512 2 out.pixels noisy.pixels →
      ∃ verdict, authenticateChannel Deps.toyReal noisy 100 1 11 3 = .ok verdict := by
  obtain ⟨out, h1, h2, h3⟩ := marked_readable_side Deps.toyReal Ldpc.toy_decodesClean (Ed25519.toy_keyPair _ _ rfl rfl)
    testChannel 512 11 100 1 2 testChannel_square testChannel_signal (by norm_num) (by norm_num)
    (exact_features_safe _ Deps.toyReal_exact _ 512 11 1 (by norm_num) (by norm_num) testChannel_square)
    ⟨by norm_num, Or.inl rfl⟩
  exact ⟨out, h1, h2, fun noisy hs hw => h3 noisy hs hw 11 le_rfl
    (exact_features_safe _ Deps.toyReal_exact _ 512 11 1 (by norm_num) (by norm_num) hs)⟩

/-- A grey 1000 x 1000 channel. -/
def greyChannel : GrayImage := ⟨1000, 1000, List.replicate (1000 * 1000) 128⟩

theorem greyChannel_pixels (i j : Nat) (hi : i < 1000) (hj : j < 1000) : greyChannel.pixels.get i j = 128 := by
  unfold greyChannel GrayImage.pixels
  dsimp only
  rw [List.getD_eq_getElem?_getD, List.getElem?_replicate, if_pos (by omega)]
  rfl

/-- C51 on a concrete unreadable side: a grey 1000 x 1000 image is marked without complaint and can never be authenticated. -/
example : ∃ out, watermarkChannel Deps.toyReal greyChannel 100 1 11 3 = .ok out ∧ out.IsSquare 1000 ∧
    ∀ noisy : GrayImage, noisy.IsSquare 1000 → WithinNoise 1000 2 out.pixels noisy.pixels →
      ∀ (step' : ℝ) (a' : Nat), ∃ e, authenticateChannel Deps.toyReal noisy 100 step' a' 3 = .error e := by
  have hsq : greyChannel.IsSquare 1000 := ⟨rfl, rfl, by unfold greyChannel; rw [List.length_replicate]⟩
  refine marked_unreadable_side Deps.toyReal (Ed25519.toy_keyPair _ _ rfl rfl) greyChannel 1000 11 100 1 2 hsq (by norm_num)
    ⟨trivial, ?_, ?_, ?_, ?_⟩ (by norm_num) (by norm_num) (by norm_num) (by norm_num) (by decide)
    (exact_features_safe _ Deps.toyReal_exact _ 1000 11 1 (by norm_num) (by norm_num) hsq) (by unfold ReadableSide; omega)
  · show (0 : ℝ) < 100; norm_num
  · norm_num
  · show (2 : ℝ) ^ 3 * (2 + 1 / 2) < (1 / 4 - 0 * _) * 100; norm_num
  · intro i hi j hj
    rw [greyChannel_pixels i j hi hj]
    show (3 / 4 + 0 * _) * (100 : ℝ) / 2 ^ 3 ≤ ((128 : ℕ) : ℝ) ∧ ((128 : ℕ) : ℝ) ≤ 255 - (3 / 4 + 0 * _) * (100 : ℝ) / 2 ^ 3
    constructor <;> norm_num

end Sia
