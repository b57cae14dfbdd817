import Verif.Spec.GenerationSpec
import Verif.Props.ReplaceImageProps
import Verif.Props.CliAuthExamples
import Verif.Props.CarrierCli

/-! C91: running the tool on its own output. -/
namespace Sia
open FloatOps LawfulFloat Finset

section
variable {F : Type} [FloatOps F]

theorem looksLike_plane (a b : DynamicImage) (h : LooksLike a b) (s : Rgba → UInt8) (hs : s ∈ [Rgba.r, Rgba.g, Rgba.b]) :
    a.plane s = b.plane s := plane_congr_pixels a b s s h.1 h.2.1 fun x hx y hy => h.2.2 s hs x (h.1 ▸ hx) y (h.2.1 ▸ hy)

/-- A picture that is marked, copied, marked, copied and so on: its planes are marked and marked. -/
theorem copied_planes (image out : DynamicImage) (depth step : F) (D : Deps F) (a : Nat) (hg : GreyPixels image)
    (h : Relation.ReflTransGen (fun x y => ∃ marked, watermark D x depth step a = .ok marked ∧ LooksLike y marked ∧ GreyPixels y) image out)
    (s : Rgba → UInt8) (hs : s ∈ [Rgba.r, Rgba.g, Rgba.b]) :
    GreyPixels out ∧ out.width = image.width ∧ out.height = image.height ∧
    Relation.ReflTransGen (fun x y => ∃ (D : Deps F) (step : F), watermarkChannel D x depth step a 3 = .ok y)
      (image.plane s) (out.plane s) := by
  induction h with
  | refl => exact ⟨hg, rfl, rfl, .refl⟩
  | tail _ hstep ih =>
    rename_i b c _
    obtain ⟨hb, w1, w2, ih⟩ := ih
    obtain ⟨marked, he, hl, hc⟩ := hstep
    obtain ⟨k1, k2, _⟩ := watermark_keeps_shape_and_alpha D b marked depth step a he
    refine ⟨hc, (hl.1.trans k1).trans w1, (hl.2.1.trans k2).trans w2, ih.tail ⟨D, step, ?_⟩⟩
    obtain ⟨m, m1, m2⟩ := watermark_colour_planes D b marked depth step a hb he s hs
    obtain ⟨a1, a2, a3⟩ := watermarkChannel_out D _ m depth step a 3 m1
    rw [looksLike_plane c marked hl s hs, plane_of_sample marked s m (by rw [a1, k1]; rfl) (by rw [a2, k2]; rfl) a3 m2]
    exact m1

end

/-- C89, C90 for pictures that are copied between the markings, with the settings of the tool. -/
theorem copied_tool (n : Nat) (D : Deps F64) (image before marked out : DynamicImage) (hn : 0 < n) (hw : image.width = n)
    (hh : image.height = n) (hg : GreyPixels image)
    (h : Relation.ReflTransGen (fun x y => ∃ marked, watermark D x (FloatOps.ofInt 100) (FloatOps.ofInt 1) 11 = .ok marked ∧
      LooksLike y marked ∧ GreyPixels y) image before)
    (hlast : watermark D before (FloatOps.ofInt 100) (FloatOps.ofInt 1) 11 = .ok marked) (hl : LooksLike out marked)
    (s : Rgba → UInt8) (hsr : s ∈ [Rgba.r, Rgba.g, Rgba.b]) :
    CarriesOnly D image before out s ∧
    ∀ x < n, ∀ y < n, OrdinaryBlock image s x y → ∃ m : ℤ, |m| ≤ 9 ∧
      ∀ x' < n, ∀ y' < n, SameBlock x y x' y' → ((s (out.pixel x' y')).toNat : ℤ) = (s (image.pixel x' y')).toNat + m := by
  rw [ofInt_100, ofInt_1] at h hlast
  have hv : val (F64.fin 100) = 100 := by
    show (((100 : ℚ) : ℝ)) = 100
    norm_num
  have hgood : GoodDepth (F64.fin 100) := ⟨trivial, by rw [hv]; norm_num, by rw [hv]; norm_num⟩
  have hsl := embedSlack_double 3 le_rfl
  have hsl0 := embedSlack_nonneg (F := F64) 3
  obtain ⟨hgb, w1, w2, hch⟩ := copied_planes image before _ _ D 11 hg h s hsr
  obtain ⟨m, m1, m2⟩ := watermark_colour_planes D before marked _ _ 11 hgb hlast s hsr
  obtain ⟨k1, k2, _⟩ := watermark_keeps_shape_and_alpha D before marked _ _ 11 hlast
  have hout : ∀ x < n, ∀ y < n, s (out.pixel x y) = m.sample x y := fun x hx y hy =>
    (hl.2.2 s hsr x (by omega) y (by omega)).trans (m2 x y)
  have hsqm : m.IsSquare n := watermarkChannel_square D _ m _ _ 11 3 n (plane_isSquare before n (w1.trans hw) (w2.trans hh) s) m1
  have hroom : ∀ x y, OrdinaryBlock image s x y → ∀ x' < n, ∀ y' < n, SameBlock x y x' y' →
      (3 / 4 + embedSlack F64 3) * val (F64.fin 100) / 8 ≤ ((s (image.pixel x' y')).toNat : ℝ) ∧
      ((s (image.pixel x' y')).toNat : ℝ) ≤ 255 - (3 / 4 + embedSlack F64 3) * val (F64.fin 100) / 8 := by
    intro x y ho x' hx' y' hy' e
    obtain ⟨r1, r2⟩ := ho.1 x' (hw ▸ hx') y' (hh ▸ hy') e
    have r1' : (10 : ℝ) ≤ ((s (image.pixel x' y')).toNat : ℝ) := by exact_mod_cast r1
    have r2' : ((s (image.pixel x' y')).toNat : ℝ) ≤ 245 := by exact_mod_cast r2
    rw [hv]
    constructor <;> linarith
  have htie : ∀ x y, OrdinaryBlock image s x y → u F64 = 0 ∨ ∀ (k m : ℤ) (bit : Bool), embedSlack F64 3 * val (F64.fin 100) / 8 <
      |(val (F64.fin 100) * (k + signedQuarter bit) - (sampleSum image s x y : ℝ) / 8) / 8 - (m + 1 / 2)| := by
    intro x y ho
    refine Or.inr fun k m bit => ?_
    have := way_no_tie _ ho.2 k m bit
    rw [hv]
    linarith
  refine ⟨?_, fun x hx y hy ho => ?_⟩
  · obtain ⟨fs, q, p, record, direct, f1, f2, f3, f4, f5⟩ := last_marking_plane n 11 D image (before.plane s) m (F64.fin 100) (F64.fin 1) hn
      hw hh hgood (by rw [hv]; norm_num) (by rw [hv]; linarith) (by rw [hv]; linarith) s hch m1
    refine ⟨fs, q, p, record, direct, f1, by rw [ofInt_1]; exact f2, f3, by rw [ofInt_100]; exact f4, fun x hx y hy ho => ?_⟩
    rw [hw] at hx
    rw [hh] at hy
    rw [hout x hx y hy]
    exact f5 x hx y hy (hroom x y ho) (htie x y ho)
  · have hch' : Relation.ReflTransGen (fun a b => ∃ (D : Deps F64) (step : F64) (amount : Nat),
        watermarkChannel D a (F64.fin 100) step amount 3 = .ok b) (image.plane s) m :=
      (Relation.ReflTransGen.mono (fun a b hab => by obtain ⟨D, st, e⟩ := hab; exact ⟨D, st, 11, e⟩) _ _ hch).tail ⟨D, F64.fin 1, 11, m1⟩
    obtain ⟨k, c1, c2⟩ := remarking_plane n image m (F64.fin 100) hn hw hh hgood (by rw [hv]; norm_num) (by rw [hv]; linarith)
      (by rw [hv]; linarith) s x y hx hy (hroom x y ho) (htie x y ho) hch'
    refine ⟨k, ?_, fun x' hx' y' hy' hb => ?_⟩
    · rw [hv] at c1
      have : |(k : ℝ)| < 10 := by linarith
      have : |k| < 10 := by exact_mod_cast this
      omega
    · rw [hout x' hx' y' hy', sample_pixels m n x' y' hsqm]
      exact c2 x' hx' y' hy' hb

/-- C91: a file that descends from an original through any number of runs of the tool, each reading what an earlier one wrote, in
lossless formats. -/
theorem cli_generations (W : World F64) (P : PathStr → Prop) (hP : LosslessOn W P) (x y z : PathStr × List UInt8)
    (h : Relation.ReflTransGen (fun a b => WrittenFor W a b ∧ P b.1) x y) (hz : WrittenFor W y z) (hPz : P z.1)
    (image : DynamicImage) (hx : W.decode x.1 x.2 = some image) (n : Nat) (hn : 0 < n) (hw : image.width = n) (hh : image.height = n) :
    ∃ before got, W.decode y.1 y.2 = some before ∧ W.decode z.1 z.2 = some got ∧ got.width = n ∧ got.height = n ∧
      ∀ s ∈ [Rgba.r, Rgba.g, Rgba.b], CarriesOnly W.deps image before got s ∧
        ∀ i < n, ∀ j < n, OrdinaryBlock image s i j → ∃ m : ℤ, |m| ≤ 9 ∧
          ∀ x' < n, ∀ y' < n, SameBlock i j x' y' → ((s (got.pixel x' y')).toNat : ℤ) = (s (image.pixel x' y')).toNat + m := by
  have hg : GreyPixels image := hP.grey _ _ _ hx
  have hstep : ∀ a b : PathStr × List UInt8, WrittenFor W a b → P b.1 → ∀ im, W.decode a.1 a.2 = some im →
      ∃ marked got, watermark W.deps im (FloatOps.ofInt 100) (FloatOps.ofInt 1) 11 = .ok marked ∧ W.decode b.1 b.2 = some got ∧
        LooksLike got marked ∧ GreyPixels got := by
    intro a b hab hPb im him
    obtain ⟨suffix, folder, stem, ext, hn1, hb, im', marked, stem', ext', format, contents, e1, e2, e3, e4, e5, e6, e7⟩ := hab
    rw [him] at e1
    obtain rfl := Option.some.inj e1
    have hne : some (stem', ext') = some (stem, ext) := ((namedAs_iff _ _ _).mp e3).symm.trans ((namedAs_iff _ _ _).mp hn1)
    cases hne
    obtain ⟨got, g1, g2⟩ := hP.reads b.1 format marked contents b.2 hPb (by rw [hb]; exact e6) e7
    exact ⟨marked, got, e2, g1, g2, hP.grey _ _ _ g1⟩
  have hbefore : ∃ before, W.decode y.1 y.2 = some before ∧ Relation.ReflTransGen (fun x y => ∃ marked,
      watermark W.deps x (FloatOps.ofInt 100) (FloatOps.ofInt 1) 11 = .ok marked ∧ LooksLike y marked ∧ GreyPixels y) image before := by
    clear hz
    induction h with
    | refl => exact ⟨image, hx, .refl⟩
    | tail _ hab ih =>
      obtain ⟨im, i1, i2⟩ := ih
      obtain ⟨marked, got, g1, g2, g3, g4⟩ := hstep _ _ hab.1 hab.2 im i1
      exact ⟨got, g2, i2.tail ⟨marked, g1, g3, g4⟩⟩
  obtain ⟨before, b1, b2⟩ := hbefore
  obtain ⟨marked, got, g1, g2, g3, g4⟩ := hstep _ _ hz hPz before b1
  obtain ⟨_, w1, w2, _⟩ := copied_planes image got _ _ W.deps 11 hg (b2.tail ⟨marked, g1, g3, g4⟩) Rgba.r (by simp)
  exact ⟨before, got, b1, g2, w1.trans hw, w2.trans hh, fun s hs => copied_tool n W.deps image before marked got hn hw hh hg b2 g1 g3 s hs⟩

/-- After a clean batch the file of every input is what the tool writes for it. -/
theorem clean_batch_writes {F : Type} [FloatOps F] (W : World F) (suffix : List Char) (folder : Option PathStr) (fs : Files W.Loc)
    (inputs : List PathStr) (results : List (W.Loc × List UInt8)) (h : CleanBatch W suffix folder fs inputs results)
    (i : PathStr) (hi : i ∈ inputs) (stem ext : List Char) (hname : NamedAs i stem ext) :
    ∃ content bytes, fs (W.resolve i) = some content ∧
      W.after fs (processInputs W suffix folder fs inputs).1 (W.resolve (OutName stem ext suffix folder)) = some bytes ∧
      WrittenFor W (i, content) (OutName stem ext suffix folder, bytes) := by
  obtain ⟨b1, b2, b3⟩ := batch_completes W suffix folder fs inputs results h
  obtain ⟨r, hr, content, hcontent, hm⟩ : ∃ r ∈ results, ∃ content, fs (W.resolve i) = some content ∧
      MarksTo W suffix folder i content r.1 r.2 := by
    have := h.marks
    clear b1 b2 b3 h
    induction this with
    | nil => cases hi
    | cons hd _ ih =>
      rcases List.mem_cons.mp hi with rfl | hi
      · exact ⟨_, List.mem_cons_self, hd⟩
      · obtain ⟨r, hr, x⟩ := ih hi
        exact ⟨r, List.mem_cons_of_mem _ hr, x⟩
  have hloc : r.1 = W.resolve (OutName stem ext suffix folder) := by
    obtain ⟨_, _, stem', ext', _, _, _, _, e3, e4, _⟩ := hm
    have hne : some (stem', ext') = some (stem, ext) := ((namedAs_iff _ _ _).mp e3).symm.trans ((namedAs_iff _ _ _).mp hname)
    cases hne
    exact e4
  refine ⟨content, r.2, hcontent, hloc ▸ b2 r hr, suffix, folder, stem, ext, hname, rfl, ?_⟩
  rw [← hloc]
  exact hm

/-- C91: a sequence of runs of the tool over files, each run taking (among others) the file that the run before wrote. However many runs
there are, that file is the original with one record, the one of the last run, and no ordinary block is more than 9 levels away from the
original. -/
theorem cli_again_and_again (W : World F64) (P : PathStr → Prop) (hP : LosslessOn W P)
    (suffix : Nat → List Char) (folder : Nat → Option PathStr) (inputs : Nat → List PathStr) (results : Nat → List (W.Loc × List UInt8))
    (states : Nat → Files W.Loc) (paths : Nat → PathStr) (stem ext : Nat → List Char)
    (hclean : ∀ k, CleanBatch W (suffix k) (folder k) (states k) (inputs k) (results k))
    (hstates : ∀ k, states (k + 1) = W.after (states k) (processInputs W (suffix k) (folder k) (states k) (inputs k)).1)
    (hin : ∀ k, paths k ∈ inputs k) (hname : ∀ k, NamedAs (paths k) (stem k) (ext k))
    (hpath : ∀ k, paths (k + 1) = OutName (stem k) (ext k) (suffix k) (folder k)) (hPk : ∀ k, P (paths k))
    (content : List UInt8) (image : DynamicImage) (h0 : states 0 (W.resolve (paths 0)) = some content)
    (himage : W.decode (paths 0) content = some image) (n : Nat) (hn : 0 < n) (hw : image.width = n) (hh : image.height = n) (k : Nat) :
    ∃ old bytes before got, states k (W.resolve (paths k)) = some old ∧ W.decode (paths k) old = some before ∧
      states (k + 1) (W.resolve (paths (k + 1))) = some bytes ∧ W.decode (paths (k + 1)) bytes = some got ∧
      got.width = n ∧ got.height = n ∧
      ∀ s ∈ [Rgba.r, Rgba.g, Rgba.b], CarriesOnly W.deps image before got s ∧
        ∀ i < n, ∀ j < n, OrdinaryBlock image s i j → ∃ m : ℤ, |m| ≤ 9 ∧
          ∀ x' < n, ∀ y' < n, SameBlock i j x' y' → ((s (got.pixel x' y')).toNat : ℤ) = (s (image.pixel x' y')).toNat + m := by
  have key : ∀ k, ∃ old, states k (W.resolve (paths k)) = some old ∧
      Relation.ReflTransGen (fun a b => WrittenFor W a b ∧ P b.1) (paths 0, content) (paths k, old) := by
    intro k
    induction k with
    | zero => exact ⟨content, h0, .refl⟩
    | succ k ih =>
      obtain ⟨old, o1, o2⟩ := ih
      obtain ⟨content', bytes, c1, c2, c3⟩ := clean_batch_writes W (suffix k) (folder k) (states k) (inputs k) (results k) (hclean k)
        (paths k) (hin k) (stem k) (ext k) (hname k)
      rw [o1] at c1
      obtain rfl := Option.some.inj c1
      rw [← hpath k] at c2 c3
      exact ⟨bytes, by rw [hstates k]; exact c2, o2.tail ⟨c3, hPk (k + 1)⟩⟩
  obtain ⟨old, o1, o2⟩ := key k
  obtain ⟨content', bytes, c1, c2, c3⟩ := clean_batch_writes W (suffix k) (folder k) (states k) (inputs k) (results k) (hclean k)
    (paths k) (hin k) (stem k) (ext k) (hname k)
  rw [o1] at c1
  obtain rfl := Option.some.inj c1
  rw [← hpath k] at c2 c3
  obtain ⟨before, got, g1, g2, g3⟩ := cli_generations W P hP (paths 0, content) (paths k, old) (paths (k + 1), bytes) o2 c3 (hPk (k + 1))
    image himage n hn hw hh
  exact ⟨old, bytes, before, got, o1, g1, by rw [hstates k]; exact c2, g2, g3⟩

end Sia
