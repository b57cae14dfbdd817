import Verif.Props.CommandLineProps
import Verif.Props.CliExamples
import Verif.Props.ChannelProps

/-! C69: what the command line tool writes passes authentication, with the settings of the tool (depth 100, step 1, 11 features). -/
namespace Sia
open LawfulFloat

section
variable {F : Type} [FloatOps F] [LawfulFloat F]

/-- A channel of side `n` that can be marked with this depth, step 1 and 11 features so that it survives a later pixel noise `t`: readable side, no pixel near 0 or 255,
features finite, at most `K` and away from half integers. -/
structure SourceReady (D : Deps F) (depth : F) (c : GrayImage) (n : Nat) (t K : ℝ) : Prop where
  square : c.IsSquare n
  geometry : EmbedGeometry n 3 c.pixels
  signal : SignalOK n 3 c.pixels depth t
  supported : SupportedCapacity (domainBytes n 3)
  blocks : blockBytes (domainBytes n 3) ∣ domainBytes n 3
  fits : recordBytes 11 + 4 ≤ domainBytes n 3 / 2
  features : ∃ fs, equalizedFeatures D c 11 = .ok fs ∧
    ∀ f ∈ fs, fin f ∧ |val f| ≤ K * val (FloatOps.ofInt 1 : F) ∧
      AwayFromHalves (quantMargin F K) (val f / val (FloatOps.ofInt 1 : F))

/-- The features of `c'` can be computed, are away from half integers and within one step of those of `c`. -/
def FeaturesNear (D : Deps F) (K : ℝ) (c c' : GrayImage) : Prop :=
  ∃ fs gs, equalizedFeatures D c 11 = .ok fs ∧ equalizedFeatures D c' 11 = .ok gs ∧
    (∀ g ∈ gs, fin g ∧ AwayFromHalves (quantMargin F K) (val g / val (FloatOps.ofInt 1 : F))) ∧
    List.Forall₂ (fun f g => |val g - val f| ≤ val (FloatOps.ofInt 1 : F)) fs gs

/-- The sample that is processed for the sample `s`: of a grey image only the first one. -/
def processedSample (image : DynamicImage) (s : Rgba → UInt8) : Rgba → UInt8 := if image.color.hasColor then s else Rgba.r

omit [LawfulFloat F] in
theorem watermark_result_sample (D : Deps F) (image out : DynamicImage) (depth step : F) (a : Nat)
    (h : watermark D image depth step a = .ok out) (s : Rgba → UInt8) (hs : s ∈ [Rgba.r, Rgba.g, Rgba.b]) :
    ∃ c marked, IsChannel image (processedSample image s) c ∧ watermarkChannel D c depth step a 3 = .ok marked ∧
      IsChannel out s marked := by
  have hch : ∀ s, IsChannel image s (image.plane s) := fun s => (isChannel_iff _ _ _).2 rfl
  obtain ⟨red, h1, h2, h3, h4⟩ := watermark_result_channels D image out _ _ _ (hch Rgba.r) (hch Rgba.g) (hch Rgba.b) depth step a h
  unfold processedSample
  simp only [List.mem_cons, List.not_mem_nil, or_false] at hs
  cases hc : image.color.hasColor with
  | false =>
    rw [if_neg (by simp)]
    obtain ⟨g, b⟩ := h3 hc
    rcases hs with rfl | rfl | rfl
    · exact ⟨_, red, hch _, h1, h2⟩
    · exact ⟨_, red, hch _, h1, g⟩
    · exact ⟨_, red, hch _, h1, b⟩
  | true =>
    rw [if_pos rfl]
    obtain ⟨gr, bl, e1, e2, e3, e4⟩ := h4 hc
    rcases hs with rfl | rfl | rfl
    · exact ⟨_, red, hch _, h1, h2⟩
    · exact ⟨_, gr, hch _, e1, e2⟩
    · exact ⟨_, bl, hch _, e3, e4⟩

/-- C69: the output file of an input, read back through the same codec (which may be lossy, within a pixel noise `t`), has colour
channels that all authenticate with the settings of the tool, if the channels of the input are ready and the noise and the mark
moved no feature by more than one step. -/
theorem cli_output_authenticates (W : World F) (hL : W.deps.ldpc.DecodesClean)
    (hk : W.deps.ed.KeyPair builtinSecret builtinPublic) (hstep : GoodDepth (FloatOps.ofInt 1 : F))
    (suffix : List Char) (folder : Option PathStr) (input : PathStr) (content final : List UInt8) (loc : W.Loc)
    (hm : MarksTo W suffix folder input content loc final) (stem ext : List Char) (hn : NamedAs input stem ext)
    (image got : DynamicImage) (hi : W.decode input content = some image)
    (hgot : W.decode (OutName stem ext suffix folder) final = some got)
    (n : Nat) (t K : ℝ) (hK0 : 0 ≤ K) (hK : K ≤ 2 ^ 39)
    (hsrc : ∀ s ∈ [Rgba.r, Rgba.g, Rgba.b], ∀ c, IsChannel image (processedSample image s) c → SourceReady W.deps (FloatOps.ofInt 100) c n t K)
    (hnoise : ∀ marked, watermark W.deps image (FloatOps.ofInt 100) (FloatOps.ofInt 1) 11 = .ok marked →
      ∀ s ∈ [Rgba.r, Rgba.g, Rgba.b], ∀ c c', IsChannel marked s c → IsChannel got s c' →
        c'.IsSquare n ∧ WithinNoise n t c.pixels c'.pixels)
    (hfeat : ∀ s ∈ [Rgba.r, Rgba.g, Rgba.b], ∀ c c', IsChannel image (processedSample image s) c → IsChannel got s c' →
      FeaturesNear W.deps K c c') :
    loc = W.resolve (OutName stem ext suffix folder) ∧
      ∀ s ∈ [Rgba.r, Rgba.g, Rgba.b], ∀ c', IsChannel got s c' →
        authenticateChannel W.deps c' (FloatOps.ofInt 100) (FloatOps.ofInt 1) 11 3 = .ok true := by
  obtain ⟨image', marked, stem', ext', format, contents, e1, e2, e3, e4, _⟩ := hm
  rw [hi] at e1
  cases e1
  have hne : some (stem', ext') = some (stem, ext) := ((namedAs_iff _ _ _).mp e3).symm.trans ((namedAs_iff _ _ _).mp hn)
  cases hne
  refine ⟨e4, fun s hs c' hc' => ?_⟩
  obtain ⟨c, m, f1, f2, f3⟩ := watermark_result_sample W.deps image marked _ _ 11 e2 s hs
  have hready := hsrc s hs c f1
  obtain ⟨hsq, hw⟩ := hnoise marked e2 s hs m c' f3 hc'
  obtain ⟨fs, gs, hfs, hgs, hg, hclose⟩ := hfeat s hs c c' f1 hc'
  obtain ⟨fs', hfs', hf⟩ := hready.features
  rw [hfs] at hfs'
  cases hfs'
  obtain ⟨out, h1, h2, h3⟩ := marked_channel_authenticates_float W.deps hL hk c n 3 11 _ _ t hready.square hready.geometry
    hready.signal hready.supported hready.blocks hready.fits (by norm_num) hstep K hK0 hK fs hfs hf
  rw [f2] at h1
  cases h1
  exact h3 c' hsq hw gs hgs hg hclose

/-- C69: after a clean batch the file of every input can be read back, and its colour channels all authenticate, under the same
conditions for every input. -/
theorem cli_batch_authenticates (W : World F) (hL : W.deps.ldpc.DecodesClean)
    (hk : W.deps.ed.KeyPair builtinSecret builtinPublic) (hstep : GoodDepth (FloatOps.ofInt 1 : F))
    (suffix : List Char) (folder : Option PathStr) (fs : Files W.Loc) (inputs : List PathStr)
    (results : List (W.Loc × List UInt8)) (h : CleanBatch W suffix folder fs inputs results)
    (n : Nat) (t K : ℝ) (hK0 : 0 ≤ K) (hK : K ≤ 2 ^ 39)
    (hin : ∀ i ∈ inputs, ∀ content image marked stem ext format contents final, fs (W.resolve i) = some content →
      W.decode i content = some image →
      watermark W.deps image (FloatOps.ofInt 100) (FloatOps.ofInt 1) 11 = .ok marked → NamedAs i stem ext →
      W.formatOf (OutName stem ext suffix folder) = some format → W.encode format marked = (contents ++ [final], true) →
      ∃ got, W.decode (OutName stem ext suffix folder) final = some got ∧
        ∀ s ∈ [Rgba.r, Rgba.g, Rgba.b], ∀ c m c', IsChannel image (processedSample image s) c → IsChannel marked s m →
          IsChannel got s c' → SourceReady W.deps (FloatOps.ofInt 100) c n t K ∧ c'.IsSquare n ∧ WithinNoise n t m.pixels c'.pixels ∧
            FeaturesNear W.deps K c c') :
    (processInputs W suffix folder fs inputs).2 = none ∧
    ∀ i ∈ inputs, ∃ stem ext bytes got, NamedAs i stem ext ∧
      W.after fs (processInputs W suffix folder fs inputs).1 (W.resolve (OutName stem ext suffix folder)) = some bytes ∧
      W.decode (OutName stem ext suffix folder) bytes = some got ∧
      ∀ s ∈ [Rgba.r, Rgba.g, Rgba.b], ∀ c', IsChannel got s c' →
        authenticateChannel W.deps c' (FloatOps.ofInt 100) (FloatOps.ofInt 1) 11 3 = .ok true := by
  obtain ⟨b1, b2, b3⟩ := batch_completes W suffix folder fs inputs results h
  refine ⟨b1, fun i hi => ?_⟩
  obtain ⟨r, hr, content, hcontent, hm⟩ : ∃ r ∈ results, ∃ content, fs (W.resolve i) = some content ∧
      MarksTo W suffix folder i content r.1 r.2 := by
    have := h.marks
    clear b1 b2 b3 h hin
    induction this with
    | nil => cases hi
    | cons hd _ ih =>
      rcases List.mem_cons.mp hi with rfl | hi
      · exact ⟨_, List.mem_cons_self, hd⟩
      · obtain ⟨r, hr, x⟩ := ih hi
        exact ⟨r, List.mem_cons_of_mem _ hr, x⟩
  have hm' := hm
  obtain ⟨image, marked, stem, ext, format, contents, e1, e2, e3, e4, e5, e6, e7⟩ := hm
  obtain ⟨got, hgot, hall⟩ := hin i hi content image marked stem ext format contents r.2 hcontent e1 e2 e3 e6 e7
  have hch : ∀ (im : DynamicImage) s, IsChannel im s (im.plane s) := fun im s => (isChannel_iff _ _ _).2 rfl
  refine ⟨stem, ext, r.2, got, e3, e4 ▸ b2 r hr, hgot, ?_⟩
  refine (cli_output_authenticates W hL hk hstep suffix folder i content r.2 r.1 hm' stem ext e3 image got e1 hgot n t K hK0 hK
    (fun s hs c hc => (hall s hs c _ _ hc (hch marked s) (hch got s)).1) ?_
    (fun s hs c c' hc hc' => (hall s hs c _ c' hc (hch marked s) hc').2.2.2)).2
  intro mk hmk s hs c c' hc hc'
  rw [e2] at hmk
  cases hmk
  have := hall s hs _ c c' (hch image _) hc hc'
  exact ⟨this.2.1, this.2.2.1⟩

end
end Sia
