import Verif.Props.CarrierProps
import Verif.Props.ReadExamples
import Verif.Props.ColourProps

/-! C86 at the command line: with the settings of the tool and all actual libraries, outputs that authenticate. -/
namespace Sia
open FloatOps LawfulFloat

theorem ofInt_100 : (FloatOps.ofInt 100 : F64) = .fin 100 := by decide +kernel
theorem ofInt_1 : (FloatOps.ofInt 1 : F64) = .fin 1 := by decide +kernel

/-- The conclusion of `self_marking_image` about a picture: marked by the program it stays as it is, and authenticates. -/
def StaysAndAuthenticates (M : Libm F64) (image : DynamicImage) : Prop :=
  ∃ out, watermark (Deps.program M) image (.fin 100) (.fin 1) 11 = .ok out ∧
    out.color = .Rgb8 ∧ out.width = 512 ∧ out.height = 512 ∧
    (∀ x < 512, ∀ y < 512, out.pixel x y = image.pixel x y) ∧
    ∀ s ∈ [Rgba.r, Rgba.g, Rgba.b], ∀ c, IsChannel out s c →
      authenticateChannel (Deps.program M) c (.fin 100) (.fin 1) 11 3 = .ok true

/-- A run of the tool over files that hold one such picture. -/
theorem cli_stays (M : Libm F64) (image : DynamicImage) (hM : StaysAndAuthenticates M image) (W : World F64) (hW : W.deps = Deps.program M)
    (suffix : List Char) (folder : Option PathStr) (fs : Files W.Loc) (inputs : List PathStr) (results : List (W.Loc × List UInt8))
    (h : CleanBatch W suffix folder fs inputs results)
    (hin : ∀ i ∈ inputs, ∀ content, fs (W.resolve i) = some content → W.decode i content = some image)
    (hlossless : ∀ path format marked contents final, watermark W.deps image (.fin 100) (.fin 1) 11 = .ok marked →
        W.formatOf path = some format → W.encode format marked = (contents ++ [final], true) →
        ∃ got, W.decode path final = some got ∧ got.width = marked.width ∧ got.height = marked.height ∧
          ∀ x < marked.width, ∀ y < marked.height, got.pixel x y = marked.pixel x y) :
    (processInputs W suffix folder fs inputs).2 = none ∧
      ∀ i ∈ inputs, ∃ stem ext bytes got, NamedAs i stem ext ∧
        W.after fs (processInputs W suffix folder fs inputs).1 (W.resolve (OutName stem ext suffix folder)) = some bytes ∧
        W.decode (OutName stem ext suffix folder) bytes = some got ∧
        (∀ x < 512, ∀ y < 512, got.pixel x y = image.pixel x y) ∧
        ∀ s ∈ [Rgba.r, Rgba.g, Rgba.b], ∀ c, IsChannel got s c →
          authenticateChannel W.deps c (.fin 100) (.fin 1) 11 3 = .ok true := by
  obtain ⟨out, ho, _, ow, oh, opx, hauth⟩ := hM
  obtain ⟨b1, b2, b3⟩ := batch_completes W suffix folder fs inputs results h
  refine ⟨b1, fun i hi => ?_⟩
  obtain ⟨r, hr, content, hcontent, hm⟩ : ∃ r ∈ results, ∃ content, fs (W.resolve i) = some content ∧
      MarksTo W suffix folder i content r.1 r.2 := by
    have := h.marks
    clear b1 b2 b3 h hin
    induction this with
    | nil => cases hi
    | cons hd _ ih =>
      rcases List.mem_cons.mp hi with rfl | hi
      · exact ⟨_, List.mem_cons_self, hd⟩
      · obtain ⟨r, hr, x⟩ := ih hi
        exact ⟨r, List.mem_cons_of_mem _ hr, x⟩
  obtain ⟨image', marked, stem, ext, format, contents, e1, e2, e3, e4, e5, e6, e7⟩ := hm
  rw [hin i hi content hcontent] at e1
  obtain rfl := Option.some.inj e1
  rw [hW, ofInt_100, ofInt_1, ho] at e2
  obtain rfl := Except.ok.inj e2
  obtain ⟨got, hgot, gw, gh, gpx⟩ := hlossless _ _ _ _ _ (by rw [hW]; exact ho) e6 e7
  have gpx' : ∀ x < 512, ∀ y < 512, got.pixel x y = out.pixel x y := by
    intro x hx y hy
    exact gpx x (by rw [ow]; exact hx) y (by rw [oh]; exact hy)
  refine ⟨stem, ext, r.2, got, e3, e4 ▸ b2 r hr, hgot, fun x hx y hy => (gpx' x hx y hy).trans (opx x hx y hy), fun s hs c hc => ?_⟩
  have hpl : got.plane s = out.plane s := plane_congr got out s gw gh (fun k hk => by
    rw [ow, oh] at hk
    rw [ow]
    exact congrArg s (gpx' (k % 512) (Nat.mod_lt _ (by norm_num)) (k / 512) (by omega)))
  have hc' : c = got.plane s := (isChannel_iff _ _ _).1 hc
  rw [hW]
  exact hauth s hs c ((isChannel_iff _ _ _).2 (hc'.trans hpl))

/-- C86, C69: there is a colour picture such that, in every world (file system, codecs) and with every mathematical library: a run of
the tool over any files that hold this picture, whose codec gives back the pixels that were written, leaves for each input a
file that holds the very same picture, and whose colour channels all authenticate with the settings of the tool. -/
theorem cli_self_marking : ∃ image : DynamicImage, image.color = .Rgb8 ∧ image.width = 512 ∧ image.height = 512 ∧
    ∀ M : Libm F64, M.Lawful → (∀ x y, M.hypot x y = .nan ∨ FloatOps.ge (M.hypot x y) (.fin 0) = true) →
    ∀ W : World F64, W.deps = Deps.program M →
    ∀ (suffix : List Char) (folder : Option PathStr) (fs : Files W.Loc) (inputs : List PathStr) (results : List (W.Loc × List UInt8)),
      CleanBatch W suffix folder fs inputs results →
      (∀ i ∈ inputs, ∀ content, fs (W.resolve i) = some content → W.decode i content = some image) →
      (∀ path format marked contents final, watermark W.deps image (.fin 100) (.fin 1) 11 = .ok marked → W.formatOf path = some format →
        W.encode format marked = (contents ++ [final], true) →
        ∃ got, W.decode path final = some got ∧ got.width = marked.width ∧ got.height = marked.height ∧
          ∀ x < marked.width, ∀ y < marked.height, got.pixel x y = marked.pixel x y) →
      (processInputs W suffix folder fs inputs).2 = none ∧
      ∀ i ∈ inputs, ∃ stem ext bytes got, NamedAs i stem ext ∧
        W.after fs (processInputs W suffix folder fs inputs).1 (W.resolve (OutName stem ext suffix folder)) = some bytes ∧
        W.decode (OutName stem ext suffix folder) bytes = some got ∧
        (∀ x < 512, ∀ y < 512, got.pixel x y = image.pixel x y) ∧
        ∀ s ∈ [Rgba.r, Rgba.g, Rgba.b], ∀ c, IsChannel got s c →
          authenticateChannel W.deps c (.fin 100) (.fin 1) 11 3 = .ok true := by
  obtain ⟨image, i1, i2, i3, hM⟩ := self_marking_image
  exact ⟨image, i1, i2, i3, fun M h1 h2 W hW suffix folder fs inputs results h hin hl =>
    cli_stays M image (hM M h1 h2) W hW suffix folder fs inputs results h hin hl⟩

/-- A world in which every file holds one and the same picture. -/
noncomputable def oneWorld (M : Libm F64) (image : DynamicImage) : World F64 where
  Loc := PathStr
  decEq := inferInstance
  deps := Deps.program M
  resolve := id
  decode _ _ := some image
  formatOf _ := some 0
  encode _ _ := ([[1]] ++ [[9]], true)
  creatable _ := true
  blocked _ := false
  folder o := some o

/-- The conditions can be met: a run over two files. -/
example : ∃ image : DynamicImage,
    (processInputs (oneWorld idealLibm image) "wm".toList (some "out".toList) (fun _ => some [7])
      ["in/a.png".toList, "in/b.png".toList]).2 = none ∧
    ∀ c, IsChannel image Rgba.g c → authenticateChannel (Deps.program idealLibm) c (.fin 100) (.fin 1) 11 3 = .ok true := by
  obtain ⟨image, j1, j2, j3, hM⟩ := self_marking_image
  have hS := hM idealLibm idealLibm_lawful idealLibm_moduli
  clear hM
  obtain ⟨out, ho, _, ow, oh, opx, _⟩ := id hS
  have hout : watermark (oneWorld idealLibm image).deps image (FloatOps.ofInt 100) (FloatOps.ofInt 1) 11 = .ok out := by
    rw [ofInt_100, ofInt_1]; exact ho
  have hclean : CleanBatch (oneWorld idealLibm image) "wm".toList (some "out".toList) (fun _ => some [7])
      ["in/a.png".toList, "in/b.png".toList] [("out/a-wm.png".toList, [9]), ("out/b-wm.png".toList, [9])] := by
    refine ⟨?_, ?_, ?_⟩
    · refine .cons ⟨[7], rfl, image, out, "a".toList, "png".toList, 0, [[1]], rfl, hout, ⟨by decide, by decide, by decide⟩,
        by show ("out/a-wm.png".toList : List Char) = OutName "a".toList "png".toList "wm".toList (some "out".toList); decide,
        rfl, rfl, rfl⟩ (.cons ⟨[7], rfl, image, out, "b".toList, "png".toList, 0, [[1]], rfl, hout,
        ⟨by decide, by decide, by decide⟩,
        by show ("out/b-wm.png".toList : List Char) = OutName "b".toList "png".toList "wm".toList (some "out".toList); decide,
        rfl, rfl, rfl⟩ .nil)
    · show ["out/a-wm.png".toList, "out/b-wm.png".toList].Nodup
      decide
    · intro r hr i hi
      simp only [List.mem_cons, List.not_mem_nil, or_false] at hr hi
      rcases hr with rfl | rfl <;> rcases hi with rfl | rfl
      · exact (by decide : ("out/a-wm.png".toList : List Char) ≠ "in/a.png".toList)
      · exact (by decide : ("out/a-wm.png".toList : List Char) ≠ "in/b.png".toList)
      · exact (by decide : ("out/b-wm.png".toList : List Char) ≠ "in/a.png".toList)
      · exact (by decide : ("out/b-wm.png".toList : List Char) ≠ "in/b.png".toList)
  obtain ⟨r1, r2⟩ := cli_stays idealLibm image hS (oneWorld idealLibm image) rfl "wm".toList (some "out".toList) (fun _ => some [7]) _ _ hclean
    (fun _ _ _ _ => rfl) (by
      intro path format marked contents final hm _ _
      have hm' : watermark (Deps.program idealLibm) image (.fin 100) (.fin 1) 11 = .ok marked := hm
      rw [ho] at hm'
      obtain rfl := Except.ok.inj hm'
      exact ⟨image, rfl, j2.trans ow.symm, j3.trans oh.symm, fun x hx y hy =>
        (opx x (by rw [← ow]; exact hx) y (by rw [← oh]; exact hy)).symm⟩)
  refine ⟨image, r1, fun c hc => ?_⟩
  obtain ⟨_, _, _, got, _, _, hg, _, ha⟩ := r2 _ List.mem_cons_self
  obtain rfl : image = got := Option.some.inj hg
  exact ha Rgba.g (by simp) c hc

/-- The conditions of `mixed_colours_authenticate` can be met, with the actual libraries. -/
example : ∃ image : DynamicImage, ∀ s ∈ [Rgba.r, Rgba.g, Rgba.b], ∀ c, IsChannel (⟨.Rgba8, image.width, image.height, fun x y =>
      ⟨(image.pixel x y).r, (image.pixel x y).g, (image.pixel x y).b, 7⟩⟩ : DynamicImage) s c →
    authenticateChannel (Deps.program idealLibm) c (.fin 100) (.fin 1) 11 3 = .ok true := by
  obtain ⟨_, _, _, _, hM⟩ := self_marking_image
  obtain ⟨out, _, _, _, _, _, h⟩ := hM idealLibm idealLibm_lawful idealLibm_moduli
  exact ⟨out, mixed_colours_authenticate _ out out out _ _ _ _ ⟨⟨rfl, rfl⟩, ⟨rfl, rfl⟩, ⟨rfl, rfl⟩⟩ (fun _ _ _ _ => ⟨rfl, rfl, rfl⟩)
    (h Rgba.r (by simp)) (h Rgba.g (by simp)) (h Rgba.b (by simp))⟩

end Sia
