import Verif.Props.LdpcProps
import Verif.Props.DamageProps
import Verif.Props.PixelFloatProps
import Verif.Props.Ed25519Examples
import Verif.Props.WebAuthProps

/-! C82: marking and authenticating with the codes and the signatures of the program; nothing is assumed about them. -/
namespace Sia
open LawfulFloat

section
variable {F : Type} [FloatOps F] [LawfulFloat F]

/-- C82: with the codes and signatures of the program all conditions on the libraries in the other theorems hold. -/
theorem actual_contracts (D : Deps F) (h : D.Actual) :
    D.ldpc.DecodesClean ∧ (∀ c, D.ldpc.CorrectsBits c 2) ∧ D.ed.KeyPair builtinSecret builtinPublic := by
  obtain ⟨h1, h2⟩ := h
  rw [h1, h2]
  exact ⟨Ldpc.ccsds_decodesClean, Ldpc.ccsds_corrects_two, builtin_keyPair⟩

/-- C82, C38: a marked channel authenticates, also after every noise of at most `t` per pixel that moves no feature by more than a step. -/
theorem marked_channel_authenticates_actual (D : Deps F) (hD : D.Actual)
    (c : GrayImage) (n levels a : Nat) (depth step : F) (t : ℝ) (hc : c.IsSquare n)
    (hg : EmbedGeometry n levels c.pixels) (hs : SignalOK n levels c.pixels depth t)
    (hsup : SupportedCapacity (domainBytes n levels)) (hal : blockBytes (domainBytes n levels) ∣ domainBytes n levels)
    (hfit : recordBytes a + 4 ≤ domainBytes n levels / 2) (ha : a ≤ 85)
    (hstep : GoodDepth step) (K : ℝ) (hK0 : 0 ≤ K) (hK : K ≤ 2 ^ 39)
    (fs : List F) (hf : equalizedFeatures D c a = .ok fs)
    (hfs : ∀ f ∈ fs, fin f ∧ |val f| ≤ K * val step ∧ AwayFromHalves (quantMargin F K) (val f / val step)) :
    ∃ out, watermarkChannel D c depth step a levels = .ok out ∧ out.IsSquare n ∧
      ∀ noisy : GrayImage, noisy.IsSquare n → WithinNoise n t out.pixels noisy.pixels →
        ∀ gs : List F, equalizedFeatures D noisy a = .ok gs →
          (∀ g ∈ gs, fin g ∧ AwayFromHalves (quantMargin F K) (val g / val step)) →
          List.Forall₂ (fun f g => |val g - val f| ≤ val step) fs gs →
          authenticateChannel D noisy depth step a levels = .ok true := by
  obtain ⟨h1, -, h2⟩ := actual_contracts D hD
  exact marked_channel_authenticates_float D h1 h2 c n levels a depth step t hc hg hs hsup hal hfit ha hstep K hK0 hK fs hf hfs

/-- C82, C47: the payload is extracted exactly from every image in which, for each code block that carries data, at most two of the
block's cells have pixels changed by more than `t`, by whatever amount. -/
theorem extract_corrects_two_cells (n levels : Nat) (image : Mat UInt8) (payload : List UInt8)
    (depth : F) (t : ℝ) (hg : EmbedGeometry n levels image) (hs : SignalOK n levels image depth t)
    (hsup : SupportedCapacity (domainBytes n levels)) (hal : blockBytes (domainBytes n levels) ∣ domainBytes n levels)
    (hp1 : 1 ≤ payload.length) (hp2 : payload.length ≤ 65533) (hfit : payload.length + 4 ≤ domainBytes n levels / 2) :
    ∃ out, embed .ccsds image payload depth levels = .ok out ∧ out.IsSquare n ∧
      ∀ noisy : Mat UInt8, noisy.IsSquare n →
        (∀ i, i * dataBytes (domainBytes n levels) < payload.length + 4 → ∀ damaged : Finset Nat,
          (∀ k ∈ damaged, k < 8 * blockBytes (domainBytes n levels) ∧
            CellDamaged n levels t out noisy (i * (8 * blockBytes (domainBytes n levels)) + k)) → damaged.card ≤ 2) →
        extract .ccsds noisy depth levels = .ok payload :=
  extract_corrects_damage .ccsds n levels image payload depth t 2 (Ldpc.ccsds_corrects_two _) hg hs hsup hal hp1 hp2 hfit

/-- C82, C69: what the command line tool wrote authenticates. -/
theorem cli_output_authenticates_actual (W : World F) (hD : W.deps.Actual) (hstep : GoodDepth (FloatOps.ofInt 1 : F))
    (suffix : List Char) (folder : Option PathStr) (input : PathStr) (content final : List UInt8) (loc : W.Loc)
    (hm : MarksTo W suffix folder input content loc final) (stem ext : List Char) (hn : NamedAs input stem ext)
    (image got : DynamicImage) (hi : W.decode input content = some image)
    (hgot : W.decode (OutName stem ext suffix folder) final = some got)
    (n : Nat) (t K : ℝ) (hK0 : 0 ≤ K) (hK : K ≤ 2 ^ 39)
    (hsrc : ∀ s ∈ [Rgba.r, Rgba.g, Rgba.b], ∀ c, IsChannel image (processedSample image s) c → SourceReady W.deps (FloatOps.ofInt 100) c n t K)
    (hnoise : ∀ marked, watermark W.deps image (FloatOps.ofInt 100) (FloatOps.ofInt 1) 11 = .ok marked →
      ∀ s ∈ [Rgba.r, Rgba.g, Rgba.b], ∀ c c', IsChannel marked s c → IsChannel got s c' →
        c'.IsSquare n ∧ WithinNoise n t c.pixels c'.pixels)
    (hfeat : ∀ s ∈ [Rgba.r, Rgba.g, Rgba.b], ∀ c c', IsChannel image (processedSample image s) c → IsChannel got s c' →
      FeaturesNear W.deps K c c') :
    loc = W.resolve (OutName stem ext suffix folder) ∧
      ∀ s ∈ [Rgba.r, Rgba.g, Rgba.b], ∀ c', IsChannel got s c' →
        authenticateChannel W.deps c' (FloatOps.ofInt 100) (FloatOps.ofInt 1) 11 3 = .ok true := by
  obtain ⟨h1, -, h2⟩ := actual_contracts W.deps hD
  exact cli_output_authenticates W h1 h2 hstep suffix folder input content final loc hm stem ext hn image got hi hgot n t K hK0 hK hsrc
    hnoise hfeat

/-- C82, C73: what the page shows authenticates. -/
theorem session_authenticates_actual (W : WebWorld F) (hD : W.deps.Actual) (hstep : GoodDepth (FloatOps.ofInt 1 : F))
    (es : List ContentEvent) (st : ContentState) (file : WebFile)
    (hrun : contentRun W (contentStart 1) es = some st) (hend : st.pending = [])
    (horder : (endedReaders es).Pairwise (· < ·)) (hlast : (chosenFiles es).getLast? = some file)
    (hread : .unreadable ((chosenFiles es).length - 1) ∉ es)
    (hm : PlainImageType file.mime) (hc : ',' ∉ file.mime) (format : String) (image : DynamicImage)
    (hg : W.guess file.bytes = some format) (hi : W.decode file.bytes = some image)
    (n : Nat) (t K : ℝ) (hK0 : 0 ≤ K) (hK : K ≤ 2 ^ 39)
    (hready : ∀ s ∈ [Rgba.r, Rgba.g, Rgba.b], ∀ c, IsChannel image (processedSample image s) c →
      SourceReady W.deps (FloatOps.ofInt 500) c n t K) :
    ∃ p, st.shown = some p ∧ ∀ s ∈ [Rgba.r, Rgba.g, Rgba.b], ∀ shown saved, ShownChannel p.watermarked s shown →
      saved.IsSquare n → WithinNoise n t shown.pixels saved.pixels →
      (∀ c, IsChannel image (processedSample image s) c → FeaturesNear W.deps K c saved) →
      authenticateChannel W.deps saved (FloatOps.ofInt 500) (FloatOps.ofInt 1) 11 3 = .ok true := by
  obtain ⟨h1, -, h2⟩ := actual_contracts W.deps hD
  exact session_authenticates W h1 h2 hstep es st file hrun hend horder hlast hread hm hc format image hg hi n t K hK0 hK hready

end

/-- C82, C66: end to end in double precision with the codes and signatures of the program: only the C library's mathematical functions are
assumed (`Libm.Lawful`), and what the pixels must satisfy. -/
theorem marked_channel_authenticates_pixels_actual (D : Deps F64) (hA : D.Actual) (M : Libm F64) (hD : D.Computed M) (hM : M.Lawful)
    (c : GrayImage) (n levels a : Nat) (depth : F64) (s : ℚ) (t : ℝ) (hc : c.IsSquare n)
    (hg : EmbedGeometry n levels c.pixels) (hs : SignalOK n levels c.pixels depth t)
    (hsup : SupportedCapacity (domainBytes n levels)) (hal : blockBytes (domainBytes n levels) ∣ domainBytes n levels)
    (hfit : recordBytes a + 4 ≤ domainBytes n levels / 2) (hn2 : n ≤ 2 ^ 14) (ha1 : 1 ≤ a) (ha : a ≤ 11)
    (hs1 : 1 / 2 ^ 20 ≤ (s : ℝ)) (hs2 : (s : ℝ) ≤ 2 ^ 100)
    (hsrc : ∀ k < a, AwayFromHalves (1 / 400 / (s : ℝ) + 1 / 2 ^ 16)
      (‖specMoment n (pixelReal (equalizedPixels D c)) (2 * a - 1) (2 * k + 1)‖ / (s : ℝ))) :
    ∃ out, watermarkChannel D c depth (.fin s) a levels = .ok out ∧ out.IsSquare n ∧
      ∀ noisy : GrayImage, noisy.IsSquare n → WithinNoise n t out.pixels noisy.pixels →
        (∀ k < a, AwayFromHalves (1 / 400 / (s : ℝ) + 1 / 2 ^ 16)
          (‖specMoment n (pixelReal (equalizedPixels D noisy)) (2 * a - 1) (2 * k + 1)‖ / (s : ℝ))) →
        meanDifference n (equalizedPixels D c) (equalizedPixels D noisy) ≤ Real.pi * (s - 1 / 200) / (2 * a) →
          authenticateChannel D noisy depth (.fin s) a levels = .ok true := by
  obtain ⟨h1, -, h2⟩ := actual_contracts D hA
  exact marked_channel_authenticates_pixels_f64 D M hD hM h1 h2 c n levels a depth s t hc hg hs hsup hal hfit hn2 ha1 ha hs1 hs2 hsrc

/-! ### Examples -/

/-- Exact moments of an image equalised to one grey, with the codes and signatures of the program. -/
noncomputable def Deps.flatActual : Deps ℝ := { Deps.flatRfc with ldpc := Ldpc.ccsds }

theorem Deps.flatActual_actual : Deps.flatActual.Actual := ⟨rfl, rfl⟩

theorem Deps.flatActual_exact : Deps.flatActual.Exact := Deps.flatRfc_exact

theorem flatActual_pixels (c c' : GrayImage) (n : Nat) (h : c.IsSquare n) (h' : c'.IsSquare n) :
    equalizedPixels Deps.flatActual c = equalizedPixels Deps.flatActual c' := by
  have e : Deps.flatActual.equalize c = Deps.flatActual.equalize c' := map_const_eq _ _ (by rw [h.2.2, h'.2.2])
  unfold equalizedPixels
  rw [e, h.1, h.2.1, h'.1, h'.2.1]

/-- C82: the test channel, marked with the codes and signatures of the program, authenticates. -/
theorem actual_marks : ∃ out, watermarkChannel Deps.flatActual testChannel 100 1 11 3 = .ok out ∧
    authenticateChannel Deps.flatActual out 100 1 11 3 = .ok true := by
  obtain ⟨k1, -, k2⟩ := actual_contracts _ Deps.flatActual_actual
  obtain ⟨out, h1, h2, h3⟩ := marked_channel_authenticates_pixels Deps.flatActual Deps.flatActual_exact k1
    k2 testChannel 512 3 11 100 1 0 testChannel_square testChannel_geometry
    (by norm_num) (by norm_num) (by
      intro i hi j hj
      obtain ⟨a, b⟩ := testChannel_range i hi j hj
      have a' : (100 : ℝ) ≤ ((testChannel.pixels.get i j).toNat : ℝ) := by exact_mod_cast a
      have b' : ((testChannel.pixels.get i j).toNat : ℝ) ≤ 131 := by exact_mod_cast b
      constructor <;> linarith) (by decide) (by decide) (by decide) (by decide) (by decide) (by norm_num)
  refine ⟨out, h1, h3 out h2 ⟨⟨h2.1, h2.2.1⟩, fun i _ j _ => by rw [sub_self, abs_zero]⟩ ?_⟩
  rw [flatActual_pixels testChannel out 512 testChannel_square h2]
  unfold meanDifference
  simp only [sub_self, abs_zero, Finset.sum_const_zero, zero_div]
  positivity

/-- C82: two 8 by 8 squares of a marked 512 by 512 image may be painted over, in double precision with depth 60. -/
example : ∃ out, embed Ldpc.ccsds (⟨512, 512, fun i j => UInt8.ofNat (100 + (i * j) % 32)⟩ : Mat UInt8)
    (List.replicate 100 7) (F64.fin 60) 3 = .ok out ∧
      ∀ noisy : Mat UInt8, noisy.IsSquare 512 →
        (∀ i < 512, ∀ j < 512, ¬ (i / 8 = 0 ∧ (j / 8 = 5 ∨ j / 8 = 9)) → noisy.get i j = out.get i j) →
        extract Ldpc.ccsds noisy (F64.fin 60) 3 = .ok (List.replicate 100 7) := by
  have hs : SignalOK 512 3 (⟨512, 512, fun i j => UInt8.ofNat (100 + (i * j) % 32)⟩ : Mat UInt8) (F64.fin 60) 1 := by
    have h0 := signalOK_double 512 3 le_rfl (⟨512, 512, fun i j => UInt8.ofNat (100 + (i * j) % 32)⟩ : Mat UInt8) 60 1
      (by norm_num) (by norm_num)
    apply h0
    intro i _ j _
    have h1 : (UInt8.ofNat (100 + (i * j) % 32)).toNat = 100 + (i * j) % 32 := by
      rw [UInt8.toNat_ofNat']; omega
    dsimp only
    rw [h1]
    have h2 : (100 : ℝ) ≤ ((100 + (i * j) % 32 : ℕ) : ℝ) := by exact_mod_cast (by omega : 100 ≤ 100 + (i * j) % 32)
    have h3 : ((100 + (i * j) % 32 : ℕ) : ℝ) ≤ 131 := by exact_mod_cast (by omega : 100 + (i * j) % 32 ≤ 131)
    push_cast
    push_cast at h2 h3
    constructor <;> linarith
  obtain ⟨out, h1, _, h3⟩ := extract_corrects_two_cells 512 3 _ (List.replicate 100 7) (F64.fin 60) 1
    ⟨⟨rfl, rfl⟩, by decide, by decide, by decide, by decide⟩ hs (by decide) (by decide) (by simp) (by simp)
    (by simp [domainBytes])
  refine ⟨out, h1, fun noisy hsq hsame => h3 noisy hsq fun i _ damaged hdam => ?_⟩
  have key : ∀ k ∈ damaged, i * (8 * blockBytes (domainBytes 512 3)) + k = 5 ∨ i * (8 * blockBytes (domainBytes 512 3)) + k = 9 := by
    intro k hk
    obtain ⟨hk1, i', hi', j', hj', e1, e2, e3⟩ := hdam k hk
    by_contra hne
    have hcase : ¬ (i' / 8 = 0 ∧ (j' / 8 = 5 ∨ j' / 8 = 9)) := by
      rintro ⟨c1, c2⟩
      norm_num at e1 e2
      omega
    rw [hsame i' hi' j' hj' hcase] at e3
    norm_num at e3
  generalize i * (8 * blockBytes (domainBytes 512 3)) = base at key
  refine le_trans (Finset.card_le_card (t := {5 - base, 9 - base}) fun k hk => ?_) Finset.card_le_two
  rw [Finset.mem_insert, Finset.mem_singleton]
  have := key k hk
  omega

end Sia
