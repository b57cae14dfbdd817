import Verif.Props.WebExamples
import Verif.Props.CliAuthExamples

/-! C73: what the page shows on its second canvas passes authentication, with the settings of the page (depth 500, step 1,
11 features). -/
namespace Sia
open LawfulFloat

/-- `c` is the channel `s` of an image on a canvas: same size, one byte per pixel in row-major order, each the sample `s` of the four
bytes of the pixel. -/
structure ShownChannel (m : ImageModel) (s : Rgba → UInt8) (c : GrayImage) : Prop where
  width : c.width = m.width
  height : c.height = m.height
  size : c.raw.length = m.width * m.height
  bytes : ∀ x < m.width, ∀ y < m.height, ∃ p, m.PixelAt x y p ∧ c.raw[y * m.width + x]? = some (s p)

theorem pixelAt_unique (m : ImageModel) (x y : Nat) (p q : Rgba) (hp : m.PixelAt x y p) (hq : m.PixelAt x y q) : p = q := by
  obtain ⟨a1, a2, a3, a4⟩ := hp
  obtain ⟨b1, b2, b3, b4⟩ := hq
  obtain ⟨r, g, b, a⟩ := p
  obtain ⟨r', g', b', a'⟩ := q
  rw [a1] at b1; rw [a2] at b2; rw [a3] at b3; rw [a4] at b4
  cases b1; cases b2; cases b3; cases b4
  rfl

theorem shownChannel_iff (image : DynamicImage) (s : Rgba → UInt8) (c : GrayImage) :
    ShownChannel (getImageModel image) s c ↔ IsChannel image s c := by
  constructor
  · rintro ⟨h1, h2, h3, h4⟩
    refine ⟨h1, h2, h3, fun x hx y hy => ?_⟩
    obtain ⟨p, hp, e⟩ := h4 x hx y hy
    rw [pixelAt_unique _ _ _ _ _ (imageModel_pixel image x y hx hy) hp]
    exact e
  · rintro ⟨h1, h2, h3, h4⟩
    exact ⟨h1, h2, h3, fun x hx y hy => ⟨_, imageModel_pixel image x y hx hy, h4 x hx y hy⟩⟩

section
variable {F : Type} [FloatOps F] [LawfulFloat F]

/-- C73: the channels of the marked picture on the page, also after a pixel noise up to `t` (such as saving it with a lossy codec),
authenticate with the settings of the page, if the channels of the source are ready and no feature moved by more than one step. -/
theorem shown_authenticates (W : WebWorld F) (hL : W.deps.ldpc.DecodesClean)
    (hk : W.deps.ed.KeyPair builtinSecret builtinPublic) (hstep : GoodDepth (FloatOps.ofInt 1 : F))
    (url : List Char) (blob : List UInt8) (p : WatermarkingProcess) (image : DynamicImage)
    (hu : base64ToUInt8Array url = some blob) (hi : W.decode blob = some image) (h : contentProcess W url = some p)
    (n : Nat) (t K : ℝ) (hK0 : 0 ≤ K) (hK : K ≤ 2 ^ 39) (s : Rgba → UInt8) (hs : s ∈ [Rgba.r, Rgba.g, Rgba.b])
    (source shown saved : GrayImage) (hsource : IsChannel image (processedSample image s) source)
    (hshown : ShownChannel p.watermarked s shown) (hready : SourceReady W.deps (FloatOps.ofInt 500) source n t K)
    (hsq : saved.IsSquare n) (hnoise : WithinNoise n t shown.pixels saved.pixels)
    (hfeat : FeaturesNear W.deps K source saved) :
    authenticateChannel W.deps saved (FloatOps.ofInt 500) (FloatOps.ofInt 1) 11 3 = .ok true := by
  have hp : getWatermarkingProcess W blob (FloatOps.ofInt 500) (FloatOps.ofInt 1) = .ok p := by
    unfold contentProcess at h
    rw [hu] at h
    dsimp only at h
    cases hr : getWatermarkingProcess W blob (FloatOps.ofInt 500) (FloatOps.ofInt 1) with
    | error e => rw [hr] at h; simp [Except.toOption] at h
    | ok q => rw [hr] at h; simp only [Except.toOption, Option.some_inj] at h; rw [h]
  obtain ⟨_, i, out, _, h2, h3, rfl⟩ := process_eq W blob _ _ p hp
  obtain rfl : i = image := Option.some_inj.1 (h2.symm.trans hi)
  obtain ⟨c, m, f1, f2, f3⟩ := watermark_result_sample W.deps i out _ _ 11 h3 s hs
  obtain rfl : c = source := ((isChannel_iff _ _ _).1 f1).trans ((isChannel_iff _ _ _).1 hsource).symm
  obtain rfl : m = shown := ((isChannel_iff _ _ _).1 f3).trans ((isChannel_iff _ _ _).1 ((shownChannel_iff _ _ _).1 hshown)).symm
  obtain ⟨fs, gs, hfs, hgs, hg, hclose⟩ := hfeat
  obtain ⟨fs', hfs', hf⟩ := hready.features
  rw [hfs] at hfs'
  cases hfs'
  obtain ⟨o, h1, _, h3⟩ := marked_channel_authenticates_float W.deps hL hk c n 3 11 _ _ t hready.square hready.geometry
    hready.signal hready.supported hready.blocks hready.fits (by norm_num) hstep K hK0 hK fs hfs hf
  rw [f2] at h1
  cases h1
  exact h3 saved hsq hnoise gs hgs hg hclose

/-- C73: a file whose channels are ready is shown by the page. -/
theorem ready_file_processed (W : WebWorld F) (hL : W.deps.ldpc.DecodesClean)
    (hk : W.deps.ed.KeyPair builtinSecret builtinPublic) (hstep : GoodDepth (FloatOps.ofInt 1 : F))
    (file : WebFile) (hm : PlainImageType file.mime) (hc : ',' ∉ file.mime) (format : String) (image : DynamicImage)
    (hg : W.guess file.bytes = some format) (hi : W.decode file.bytes = some image)
    (n : Nat) (t K : ℝ) (hK0 : 0 ≤ K) (hK : K ≤ 2 ^ 39)
    (hready : ∀ s ∈ [Rgba.r, Rgba.g, Rgba.b], ∀ c, IsChannel image (processedSample image s) c →
      SourceReady W.deps (FloatOps.ofInt 500) c n t K) :
    ∃ p, fileProcess W file = some p := by
  have hch : ∀ s, IsChannel image s (image.plane s) := fun s => (isChannel_iff _ _ _).2 rfl
  have hmark : ∀ s ∈ [Rgba.r, Rgba.g, Rgba.b], ∃ out,
      watermarkChannel W.deps (image.plane (processedSample image s)) (FloatOps.ofInt 500) (FloatOps.ofInt 1) 11 3 = .ok out := by
    intro s hs
    have hr := hready s hs _ (hch _)
    obtain ⟨fs, hfs, hf⟩ := hr.features
    obtain ⟨o, h1, _⟩ := marked_channel_authenticates_float W.deps hL hk _ n 3 11 _ _ t hr.square hr.geometry
      hr.signal hr.supported hr.blocks hr.fits (by norm_num) hstep K hK0 hK fs hfs hf
    exact ⟨o, h1⟩
  have hw : ∃ out, watermark W.deps image (FloatOps.ofInt 500) (FloatOps.ofInt 1) 11 = .ok out := by
    refine (watermark_succeeds_iff W.deps image _ _ 11).mpr ⟨?_, fun hcol => ⟨?_, ?_⟩⟩
    · have := hmark Rgba.r (by simp)
      rwa [show processedSample image Rgba.r = Rgba.r from ite_self _] at this
    · have := hmark Rgba.g (by simp)
      rwa [show processedSample image Rgba.g = Rgba.g from if_pos hcol] at this
    · have := hmark Rgba.b (by simp)
      rwa [show processedSample image Rgba.b = Rgba.b from if_pos hcol] at this
  obtain ⟨out, hout⟩ := hw
  exact (page_settings W _).2 ⟨file.bytes, format, image, out, (file_decoded _ _ _ hc).2 ⟨hm, rfl⟩, hg, hi, hout⟩

/-- C73, the whole page: in every session whose readers all ended, in the order of the choices, a picture is shown if the last file
chosen could be read and its channels are ready, and the channels of the marked picture on the page, also after a pixel noise up to
`t`, authenticate if no feature moved by more than one step. -/
theorem session_authenticates (W : WebWorld F) (hL : W.deps.ldpc.DecodesClean)
    (hk : W.deps.ed.KeyPair builtinSecret builtinPublic) (hstep : GoodDepth (FloatOps.ofInt 1 : F))
    (es : List ContentEvent) (st : ContentState) (file : WebFile)
    (hrun : contentRun W (contentStart 1) es = some st) (hend : st.pending = [])
    (horder : (endedReaders es).Pairwise (· < ·)) (hlast : (chosenFiles es).getLast? = some file)
    (hread : .unreadable ((chosenFiles es).length - 1) ∉ es)
    (hm : PlainImageType file.mime) (hc : ',' ∉ file.mime) (format : String) (image : DynamicImage)
    (hg : W.guess file.bytes = some format) (hi : W.decode file.bytes = some image)
    (n : Nat) (t K : ℝ) (hK0 : 0 ≤ K) (hK : K ≤ 2 ^ 39)
    (hready : ∀ s ∈ [Rgba.r, Rgba.g, Rgba.b], ∀ c, IsChannel image (processedSample image s) c →
      SourceReady W.deps (FloatOps.ofInt 500) c n t K) :
    ∃ p, st.shown = some p ∧ ∀ s ∈ [Rgba.r, Rgba.g, Rgba.b], ∀ shown saved, ShownChannel p.watermarked s shown →
      saved.IsSquare n → WithinNoise n t shown.pixels saved.pixels →
      (∀ c, IsChannel image (processedSample image s) c → FeaturesNear W.deps K c saved) →
      authenticateChannel W.deps saved (FloatOps.ofInt 500) (FloatOps.ofInt 1) 11 3 = .ok true := by
  obtain ⟨p, hp⟩ := ready_file_processed W hL hk hstep file hm hc format image hg hi n t K hK0 hK hready
  have hch : ∀ s, IsChannel image s (image.plane s) := fun s => (isChannel_iff _ _ _).2 rfl
  refine ⟨p, last_choice_shown W es st file p hrun hend horder hlast hread hp, ?_⟩
  intro s hs shown saved hshown hsq hnoise hfeat
  exact shown_authenticates W hL hk hstep _ file.bytes p image ((file_decoded _ _ _ hc).2 ⟨hm, rfl⟩) hi hp n t K hK0 hK s hs _ shown
    saved (hch _) hshown (hready s hs _ (hch _)) hsq hnoise (hfeat _ (hch _))

end

/-- A browser with exact moments of images equalised to one grey; everything decodes to the test image. -/
noncomputable def flatWeb : WebWorld ℝ where
  deps := Deps.flatReal
  guess _ := some "Png"
  decode _ := some testImage

theorem flat_ready_500 (c : GrayImage) (s : Rgba → UInt8) (hs : s ∈ [Rgba.r, Rgba.g, Rgba.b])
    (h : IsChannel testImage (processedSample testImage s) c) :
    SourceReady Deps.flatReal (FloatOps.ofInt 500) c 512 (1 : ℝ) (2 ^ 20) := by
  have hsrc : testImage.plane (processedSample testImage s) = testChannel := by
    have hps : processedSample testImage s = s := if_pos (by decide)
    rw [hps]
    obtain ⟨e1, e2, e3⟩ := testImage_plane
    simp only [List.mem_cons, List.not_mem_nil, or_false] at hs
    rcases hs with rfl | rfl | rfl
    · exact e1
    · exact e2
    · exact e3
  obtain rfl : c = testChannel := ((isChannel_iff _ _ _).1 h).trans hsrc
  obtain ⟨feats, hfeats, hbound⟩ := flat_features
  have hl : (FloatOps.ofInt 500 : ℝ) = 500 := by show (((500 : ℤ)) : ℝ) = 500; norm_num
  have hs1 : (FloatOps.ofInt 1 : ℝ) = 1 := by show (((1 : ℤ)) : ℝ) = 1; norm_num
  refine ⟨testChannel_square, testChannel_geometry, ?_, by decide, by decide, by decide, feats, hfeats _ testChannel_square, ?_⟩
  · rw [hl]
    refine signalOK_real 512 3 testChannel.pixels 500 1 (by norm_num) (by norm_num) ?_
    intro i hi j hj
    obtain ⟨a, b⟩ := testChannel_range i hi j hj
    have a' : (100 : ℝ) ≤ ((testChannel.pixels.get i j).toNat : ℝ) := by exact_mod_cast a
    have b' : ((testChannel.pixels.get i j).toNat : ℝ) ≤ 131 := by exact_mod_cast b
    constructor <;> linarith
  · intro f hf
    refine ⟨trivial, ?_, fun k => ?_⟩
    · rw [hs1]; show |f| ≤ 2 ^ 20 * 1; rw [mul_one]; exact hbound f hf
    · show (0 : ℝ) * _ ≤ _; rw [zero_mul]; exact abs_nonneg _

theorem flat_near (c c' : GrayImage) (h : c.IsSquare 512) (h' : c'.IsSquare 512) : FeaturesNear Deps.flatReal (2 ^ 20) c c' := by
  obtain ⟨feats, hfeats, _⟩ := flat_features
  have hs1 : (FloatOps.ofInt 1 : ℝ) = 1 := by show (((1 : ℤ)) : ℝ) = 1; norm_num
  refine ⟨feats, feats, hfeats _ h, hfeats _ h', fun g _ => ⟨trivial, fun k => ?_⟩, ?_⟩
  · show (0 : ℝ) * _ ≤ _; rw [zero_mul]; exact abs_nonneg _
  · rw [List.forall₂_same]
    intro x _
    rw [sub_self, abs_zero, hs1]
    exact zero_le_one

/-- A session of six events on that page, the first the arrival of the demo picture: whatever is saved from the second canvas with an error of at most one level per pixel
authenticates. -/
theorem flatWeb_session (A B : WebFile) (hA : A = ⟨"image/jpeg".toList, [255, 216]⟩) (hB : B = ⟨"image/png".toList, [137, 80]⟩) :
    ∃ st p, contentRun flatWeb (contentStart 1) [.demo (fileToBase64 A.mime A.bytes), .choose A, .ready 0, .cancel, .choose B, .ready 1] = some st ∧
      st.shown = some p ∧ (∃ shown, ShownChannel p.watermarked Rgba.g shown) ∧
      ∀ shown saved, ShownChannel p.watermarked Rgba.g shown → saved.IsSquare 512 →
        WithinNoise 512 1 shown.pixels saved.pixels → authenticateChannel Deps.flatReal saved (500 : ℝ) 1 11 3 = .ok true := by
  have hl : (FloatOps.ofInt 500 : ℝ) = 500 := by show (((500 : ℤ)) : ℝ) = 500; norm_num
  have hs1 : (FloatOps.ofInt 1 : ℝ) = 1 := by show (((1 : ℤ)) : ℝ) = 1; norm_num
  have hstep : GoodDepth (FloatOps.ofInt 1 : ℝ) := by
    rw [hs1]
    exact ⟨trivial, by show (1 : ℝ) / 2 ^ 100 ≤ 1; norm_num, by show (1 : ℝ) ≤ 2 ^ 100; norm_num⟩
  have hk : flatWeb.deps.ed.KeyPair builtinSecret builtinPublic := Ed25519.toy_keyPair _ _ rfl rfl
  have hjpeg : PlainImageType "image/jpeg".toList := ⟨['j', 'p', 'e', 'g'], by decide, by decide, by decide⟩
  obtain ⟨a, ha⟩ := ready_file_processed flatWeb Ldpc.toy_decodesClean hk hstep A (hA ▸ hjpeg) (by rw [hA]; decide) "Png" testImage
    rfl rfl 512 1 (2 ^ 20) (by norm_num) (by norm_num) (fun s hs c h => flat_ready_500 c s hs h)
  obtain ⟨b, hb⟩ := ready_file_processed flatWeb Ldpc.toy_decodesClean hk hstep B (hB ▸ png_plain) (by rw [hB]; decide) "Png" testImage
    rfl rfl 512 1 (2 ^ 20) (by norm_num) (by norm_num) (fun s hs c h => flat_ready_500 c s hs h)
  obtain ⟨st, h1, h2⟩ : ∃ st, contentRun flatWeb (contentStart 1) [.demo (fileToBase64 A.mime A.bytes), .choose A, .ready 0, .cancel, .choose B, .ready 1] = some st ∧
      st.pending = [] := by
    unfold fileProcess at ha hb
    simp [contentRun, contentStep, contentStart, ha, hb, showResult]
  obtain ⟨p, h3, h4⟩ := session_authenticates flatWeb Ldpc.toy_decodesClean hk hstep _ st B h1 h2 (by simp [endedReaders]) rfl
    (by simp [chosenFiles]) (hB ▸ png_plain) (by rw [hB]; decide) "Png" testImage rfl rfl 512 1 (2 ^ 20) (by norm_num) (by norm_num)
    (fun s hs c h => flat_ready_500 c s hs h)
  have hpb : p = b := by
    have := last_choice_shown flatWeb _ st B b h1 h2 (by simp [endedReaders]) rfl (by simp [chosenFiles]) hb
    rw [h3] at this
    exact Option.some_inj.1 this
  refine ⟨st, p, h1, h3, ?_, ?_⟩
  · subst hpb
    unfold fileProcess contentProcess at hb
    cases hr : base64ToUInt8Array (fileToBase64 B.mime B.bytes) with
    | none => rw [hr] at hb; simp at hb
    | some blob =>
      rw [hr] at hb
      dsimp only at hb
      cases hq : getWatermarkingProcess flatWeb blob (FloatOps.ofInt 500) (FloatOps.ofInt 1) with
      | error e => rw [hq] at hb; simp [Except.toOption] at hb
      | ok q =>
        rw [hq] at hb
        simp only [Except.toOption, Option.some_inj] at hb
        subst hb
        obtain ⟨_, i, out, _, _, _, rfl⟩ := process_eq flatWeb blob _ _ q hq
        exact ⟨out.plane Rgba.g, (shownChannel_iff _ _ _).2 ((isChannel_iff _ _ _).2 rfl)⟩
  · intro shown saved hsh hsq hn
    have := h4 Rgba.g (by simp) shown saved hsh hsq hn (fun c hc => flat_near c saved
      (flat_ready_500 c Rgba.g (by simp) hc).square hsq)
    rwa [hl, hs1] at this

end Sia
