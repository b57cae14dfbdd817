import Verif.Props.PipelineExamples

/-! C40, C46: what authentication does with records and images the program did not make; further concrete cases. -/
namespace Sia
open LawfulFloat

section
variable {F : Type} [FloatOps F] [LawfulFloat F]

/-- C40: a record without perturbation bits makes every suitable image authentic. Whoever holds one byte string that verifies as
a signature of the empty message can embed it, with any text of at most 255 bytes, into any square channel meeting the embedding
conditions; the result authenticates whatever its features are, for every number of features the verifier asks for (as long as
they are quantized to numbers other than the least 64-bit integer, where negation overflows). -/
theorem empty_record_authenticates (D : Deps F) (hL : D.ldpc.DecodesClean) (hpub : D.ed.publicOk builtinPublic = true)
    (sig : List UInt8) (hsig : D.ed.signatureOk sig = true) (hver : D.ed.verify builtinPublic [] sig = true)
    (text : String) (htext : text.utf8ByteSize ≤ 255)
    (c : GrayImage) (n levels : Nat) (depth : F) (t : ℝ) (hc : c.IsSquare n)
    (hg : EmbedGeometry n levels c.pixels) (hs : SignalOK n levels c.pixels depth t)
    (hsup : SupportedCapacity (domainBytes n levels)) (hal : blockBytes (domainBytes n levels) ∣ domainBytes n levels)
    (hfit : 3 + 64 + text.utf8ByteSize + 4 ≤ domainBytes n levels / 2) :
    ∃ record m, Watermark.serialize ⟨[], sig, text⟩ = .ok record ∧ embed D.ldpc c.pixels record depth levels = .ok m ∧
      m.IsSquare n ∧ ∀ noisy : GrayImage, noisy.IsSquare n → WithinNoise n t m noisy.pixels →
        ∀ (a : Nat) (step : F) (fs : List F), equalizedFeatures D noisy a = .ok fs → FeaturesInRange fs step →
          authenticateChannel D noisy depth step a levels = .ok true := by
  have hsl := D.ed.signature_length sig hsig
  obtain ⟨record, hser, hdes⟩ := watermark_roundtrip ⟨[], sig, text⟩
    ⟨by simp, by dsimp only; omega, htext⟩
  have hlen := watermark_serialize_length _ record hser
  dsimp only at hlen
  rw [hsl] at hlen
  simp only [List.length_nil] at hlen
  obtain ⟨m, he, hm, hx⟩ := extract_tolerates_noise D.ldpc hL n levels c.pixels record depth t hg hs hsup hal
    (by omega) (by omega) (by omega)
  refine ⟨record, m, hser, he, hm, ?_⟩
  intro noisy hn hnoise a step fs hf hq
  have hd := hdes []
  rw [List.append_nil] at hd
  rw [authenticate_no_bits D noisy depth step a levels record ⟨[], sig, text⟩ fs (by rw [hn.1, hn.2.1, hn.2.2])
    (hx _ hnoise) hd rfl hf hq hpub hsig, hver]

end

/-- C46: an all-black channel of side `n`. -/
def blackChannel (n : Nat) : GrayImage := ⟨n, n, List.replicate (n * n) 0⟩

theorem blackChannel_pixels (n : Nat) : (blackChannel n).pixels = blackImage n := by
  unfold blackChannel GrayImage.pixels blackImage
  dsimp only
  congr 1
  funext i j
  rw [List.getD_eq_getElem?_getD, List.getElem?_replicate]
  split_ifs <;> rfl

theorem authenticate_aborts_of_extract {F : Type} [FloatOps F] (D : Deps F) (c : GrayImage) (depth step : F) (a levels : Nat)
    (h : ∃ e, extract D.ldpc c.pixels depth levels = .error e) : ∃ e, authenticateChannel D c depth step a levels = .error e := by
  cases ha : authenticateChannel D c depth step a levels with
  | error e => exact ⟨e, rfl⟩
  | ok b =>
    exfalso
    obtain ⟨_, _, data, _, _, _, hx, _⟩ := (authenticate_iff D c depth step a levels b).mp ha
    obtain ⟨e, he⟩ := h
    rw [he] at hx
    cases hx

/-- C46: authenticating an all-black channel of an unsupported capacity aborts, whatever the depth > 0, the step, the number of
features and the libraries (exact arithmetic). -/
theorem authenticate_black_aborts (D : Deps ℝ) (n levels a : Nat) (depth step : ℝ) (h1 : 1 ≤ levels) (hL : levels ≤ 30)
    (hd : 2 ^ levels ∣ n) (hdepth : 0 < depth) (hsup : ¬ SupportedCapacity (domainBytes n levels)) :
    ∃ e, authenticateChannel D (blackChannel n) depth step a levels = .error e :=
  authenticate_aborts_of_extract D _ depth step a levels (by
    rw [blackChannel_pixels]; exact extract_black_aborts D.ldpc n levels depth h1 hL hd hdepth hsup)

/-- C46 in IEEE double arithmetic. -/
theorem authenticate_black_aborts_double (D : Deps F64) (n levels a : Nat) (x : ℚ) (step : F64) (h1 : 1 ≤ levels)
    (hL : levels ≤ 30) (hd : 2 ^ levels ∣ n) (hx : 0 < x) (hsup : ¬ SupportedCapacity (domainBytes n levels)) :
    ∃ e, authenticateChannel D (blackChannel n) (F64.fin x) step a levels = .error e :=
  authenticate_aborts_of_extract D _ _ step a levels (by
    rw [blackChannel_pixels]; exact extract_black_aborts_double D.ldpc n levels x h1 hL hd hx hsup)

example (D : Deps F64) (step : F64) : ∃ e, authenticateChannel D (blackChannel 600) (F64.fin 100) step 11 3 = .error e :=
  authenticate_black_aborts_double D 600 3 11 100 step (by decide) (by decide) (by decide) (by norm_num) (by decide)

/-- C40: the test channel with an empty record. The toy library's signature of the empty message is 64 zero bytes. -/
example : ∃ record m, Watermark.serialize ⟨[], List.replicate 64 0, "x"⟩ = .ok record ∧
    embed Deps.toyReal.ldpc testChannel.pixels record (100 : ℝ) 3 = .ok m ∧ m.IsSquare 512 ∧
    ∀ noisy : GrayImage, noisy.IsSquare 512 → WithinNoise 512 2 m noisy.pixels →
      ∀ (a : Nat) (step : ℝ) (fs : List ℝ), equalizedFeatures Deps.toyReal noisy a = .ok fs → FeaturesInRange fs step →
        authenticateChannel Deps.toyReal noisy 100 step a 3 = .ok true :=
  empty_record_authenticates Deps.toyReal Ldpc.toy_decodesClean (by rfl) (List.replicate 64 0) (by rfl) (by rfl) "x" (by decide)
    testChannel 512 3 100 2 testChannel_square testChannel_geometry testChannel_signal (by decide) (by decide) (by decide)

/-- A 512 x 512 picture with colour and alpha whose three colour planes are the test channel. -/
def testImage : DynamicImage := ⟨.Rgba8, 512, 512, fun x y =>
  let v := UInt8.ofNat (100 + (y * x) % 32)
  ⟨v, v, v, UInt8.ofNat x⟩⟩

theorem testImage_plane : testImage.plane Rgba.r = testChannel ∧ testImage.plane Rgba.g = testChannel ∧
    testImage.plane Rgba.b = testChannel := ⟨rfl, rfl, rfl⟩

/-- C36–C38: watermarking the test image succeeds, all its planes authenticate and alpha is kept. -/
example : ∃ out, watermark Deps.toyReal testImage 100 3000 11 = .ok out ∧ out.color = .Rgba8 ∧
    (∀ s ∈ [Rgba.r, Rgba.g, Rgba.b], authenticateChannel Deps.toyReal (out.plane s) 100 3000 11 3 = .ok true) ∧
    ∀ x < 512, ∀ y < 512, (out.pixel x y).a = UInt8.ofNat x := by
  obtain ⟨c, h, hsq, hauth⟩ := testChannel_authenticates
  have hself := hauth c hsq ⟨⟨hsq.1, hsq.2.1⟩, fun i _ j _ => by rw [sub_self, abs_zero]; norm_num⟩
  obtain ⟨e1, e2, e3⟩ := testImage_plane
  obtain ⟨out, hout⟩ := (watermark_succeeds_iff Deps.toyReal testImage 100 3000 11).mpr
    ⟨⟨c, by rw [e1]; exact h⟩, fun _ => ⟨⟨c, by rw [e2]; exact h⟩, ⟨c, by rw [e3]; exact h⟩⟩⟩
  obtain ⟨_, _, g3, g4, _⟩ := watermark_keeps_shape_and_alpha Deps.toyReal testImage out 100 3000 11 hout
  refine ⟨out, hout, g3, ?_, fun x hx y hy => g4 rfl x hx y hy⟩
  refine watermarked_image_authenticates Deps.toyReal testImage out 100 3000 11 hout true ?_
  intro s hs c' hc'
  have : testImage.plane s = testChannel := by
    simp only [show testImage.color.hasColor = true from rfl, if_true, List.mem_cons, List.not_mem_nil, or_false] at hs
    rcases hs with rfl | rfl | rfl
    · exact e1
    · exact e2
    · exact e3
  rw [this, h] at hc'
  cases hc'
  exact hself

/-- C51: 1000 x 1000 channels are accepted and can never be authenticated; C52: 512 x 520 never authenticates. -/
example : ¬ ReadableSide 1000 ∧ ReadableSide 2048 ∧ ReadableSide 512 := by
  unfold ReadableSide; omega

/-- C41: for the toy library, 11 features are accepted for 216 x 216 channels and not for 208 x 208 ones, nor for 256 x 256. -/
example (c : GrayImage) (hc : c.IsSquare 216) (h : ∀ fs, equalizedFeatures Deps.toyReal c 11 = .ok fs → FeaturesInRange fs (1 : ℝ)) :
    ∃ out, watermarkChannel Deps.toyReal c 100 1 11 dwtLevels = .ok out :=
  (watermark_accepts_iff Deps.toyReal (Ed25519.toy_keyPair _ _ rfl rfl).keypair c 216 11 100 1 (by norm_num) hc).mpr
    ⟨⟨by norm_num, by norm_num⟩, h, by norm_num, by norm_num, by decide⟩

example (c : GrayImage) (hc : c.IsSquare 256) : ¬ ∃ out, watermarkChannel Deps.toyReal c 100 1 11 dwtLevels = .ok out := by
  rw [watermark_accepts_iff Deps.toyReal (Ed25519.toy_keyPair _ _ rfl rfl).keypair c 256 11 100 1 (by norm_num) hc]
  tauto

end Sia
