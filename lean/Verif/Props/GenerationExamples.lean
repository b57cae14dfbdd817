import Verif.Props.GenerationProps
import Verif.Props.LargeStepProps

/-! C91 for the program: the tool can be run on its own output for ever; a concrete world. -/
namespace Sia
open FloatOps LawfulFloat

section
variable {F : Type} [FloatOps F]

/-- The files after `k` runs of the tool with these arguments, the `k`-th run having the one input `paths k`. -/
def filesAfter (W : World F) (suffix : List Char) (folder : Option PathStr) (paths : Nat → PathStr) (fs : Files W.Loc) : Nat → Files W.Loc
  | 0 => fs
  | k + 1 => W.after (filesAfter W suffix folder paths fs k)
      (processInputs W suffix folder (filesAfter W suffix folder paths fs k) [paths k]).1

end

/-- C91, C41: the program can be run for ever on its own output: each run ends without an error, if the picture is a square whose side is
a multiple of 8, at least 216 and not 256, and files can be written in a lossless format. -/
theorem cli_forever (M : Libm F64) (hM : ∀ x y, M.hypot x y = .nan ∨ FloatOps.ge (M.hypot x y) (.fin 0) = true)
    (W : World F64) (hW : W.deps = Deps.program M) (P : PathStr → Prop) (hP : LosslessOn W P) (n : Nat) (h8 : 8 ∣ n) (h216 : 216 ≤ n)
    (h256 : n ≠ 256)
    (hsave : ∀ path, P path → W.creatable (W.resolve path) = true ∧ ∃ format, W.formatOf path = some format ∧
      ∀ picture : DynamicImage, picture.width = n → picture.height = n → ∃ contents final, W.encode format picture = (contents ++ [final], true))
    (suffix : List Char) (folder : Option PathStr) (paths : Nat → PathStr) (stem ext : Nat → List Char)
    (hname : ∀ k, NamedAs (paths k) (stem k) (ext k)) (hpath : ∀ k, paths (k + 1) = OutName (stem k) (ext k) suffix folder)
    (hPk : ∀ k, P (paths k)) (hdistinct : ∀ k, W.resolve (paths (k + 1)) ≠ W.resolve (paths k))
    (fs : Files W.Loc) (content : List UInt8) (image : DynamicImage) (h0 : fs (W.resolve (paths 0)) = some content)
    (himage : W.decode (paths 0) content = some image) (hw : image.width = n) (hh : image.height = n) (k : Nat) :
    (processInputs W suffix folder (filesAfter W suffix folder paths fs k) [paths k]).2 = none ∧
    ∃ bytes, CleanBatch W suffix folder (filesAfter W suffix folder paths fs k) [paths k] [(W.resolve (paths (k + 1)), bytes)] := by
  have hs1 : FloatOps.ge (F64.fin 1) (.fin 0) = true := by decide
  -- one run
  have one : ∀ (st : Files W.Loc) (k : Nat) (old : List UInt8) (before : DynamicImage), st (W.resolve (paths k)) = some old →
      W.decode (paths k) old = some before → before.width = n → before.height = n →
      ∃ bytes got, CleanBatch W suffix folder st [paths k] [(W.resolve (paths (k + 1)), bytes)] ∧
        W.decode (paths (k + 1)) bytes = some got ∧ got.width = n ∧ got.height = n := by
    intro st k old before e1 e2 e3 e4
    obtain ⟨marked, hm⟩ := program_marks M hM before n (.fin 100) (.fin 1) e3 e4 h8 h216 h256 hs1
    obtain ⟨k1, k2, _⟩ := watermark_keeps_shape_and_alpha _ _ _ _ _ _ hm
    obtain ⟨hc, format, hf, hen⟩ := hsave (paths (k + 1)) (hPk (k + 1))
    obtain ⟨contents, final, he⟩ := hen marked (k1.trans e3) (k2.trans e4)
    obtain ⟨got, g1, g2⟩ := hP.reads (paths (k + 1)) format marked contents final (hPk (k + 1)) hf he
    refine ⟨final, got, ⟨?_, ?_, ?_⟩, g1, (g2.1.trans k1).trans e3, (g2.2.1.trans k2).trans e4⟩
    · refine List.Forall₂.cons ⟨old, e1, before, marked, stem k, ext k, format, contents, e2, ?_, hname k, ?_, hc, ?_, he⟩ .nil
      · rw [hW, ofInt_100, ofInt_1]; exact hm
      · rw [hpath k]
      · rw [← hpath k]; exact hf
    · exact List.nodup_singleton _
    · intro r hr i hi
      rw [List.mem_singleton.mp hr, List.mem_singleton.mp hi]
      exact hdistinct k
  have key : ∀ k, ∃ old before, filesAfter W suffix folder paths fs k (W.resolve (paths k)) = some old ∧
      W.decode (paths k) old = some before ∧ before.width = n ∧ before.height = n := by
    intro k
    induction k with
    | zero => exact ⟨content, image, h0, himage, hw, hh⟩
    | succ k ih =>
      obtain ⟨old, before, e1, e2, e3, e4⟩ := ih
      obtain ⟨bytes, got, f1, f2, f3, f4⟩ := one _ k old before e1 e2 e3 e4
      obtain ⟨_, b2, _⟩ := batch_completes W suffix folder _ _ _ f1
      exact ⟨bytes, got, b2 _ (List.mem_singleton.mpr rfl), f2, f3, f4⟩
  obtain ⟨old, before, e1, e2, e3, e4⟩ := key k
  obtain ⟨bytes, got, f1, _⟩ := one _ k old before e1 e2 e3 e4
  exact ⟨(batch_completes W suffix folder _ _ _ f1).1, bytes, f1⟩

/-- The bytes of a lossless format: width, height (as so many ones), red, green and blue. -/
def plainBytes (p : DynamicImage) : List UInt8 :=
  List.replicate p.width 1 ++ 0 :: (List.replicate p.height 1 ++ 0 :: ((p.plane Rgba.r).raw ++ (p.plane Rgba.g).raw ++ (p.plane Rgba.b).raw))

theorem unary_inj (a b : Nat) (l m : List UInt8) (h : List.replicate a (1 : UInt8) ++ 0 :: l = List.replicate b 1 ++ 0 :: m) : a = b ∧ l = m := by
  induction a generalizing b with
  | zero =>
    cases b with
    | zero => exact ⟨rfl, (List.cons.inj h).2⟩
    | succ b => exact absurd (List.cons.inj h).1 (by decide)
  | succ a ih =>
    cases b with
    | zero => exact absurd (List.cons.inj h).1 (by decide)
    | succ b =>
      obtain ⟨e, f⟩ := ih b (List.cons.inj h).2
      exact ⟨by rw [e], f⟩

/-- What two pictures with the same bytes have in common. -/
theorem plainBytes_inj (p q : DynamicImage) (h : plainBytes p = plainBytes q) : LooksLike p q := by
  obtain ⟨hw, h⟩ := unary_inj _ _ _ _ h
  obtain ⟨hh, h⟩ := unary_inj _ _ _ _ h
  have hlen : ∀ s, (p.plane s).raw.length = (q.plane s).raw.length := by
    intro s
    unfold DynamicImage.plane
    rw [List.length_map, List.length_map, hw, hh]
  obtain ⟨h1, hb⟩ := List.append_inj h (by rw [List.length_append, List.length_append, hlen, hlen])
  obtain ⟨hr, hg⟩ := List.append_inj h1 (hlen _)
  refine ⟨hw, hh, ?_⟩
  have key : ∀ s, (p.plane s).raw = (q.plane s).raw → ∀ x < q.width, ∀ y < q.height, s (p.pixel x y) = s (q.pixel x y) := by
    intro s e x hx y hy
    have ep : p.plane s = q.plane s := by
      have e1 : (p.plane s).width = (q.plane s).width := hw
      have e2 : (p.plane s).height = (q.plane s).height := hh
      revert e e1 e2
      cases p.plane s
      cases q.plane s
      simp only
      rintro rfl rfl rfl
      rfl
    rw [← plane_sample p s x y (hw ▸ hx) (hh ▸ hy), ep, plane_sample q s x y hx hy]
  intro s hs
  simp only [List.mem_cons, List.not_mem_nil, or_false] at hs
  rcases hs with rfl | rfl | rfl
  · exact key _ hr
  · exact key _ hg
  · exact key _ hb

open Classical in
/-- A world with this format, in which every path is a file of its own. -/
noncomputable def plainWorld (M : Libm F64) : World F64 where
  Loc := PathStr
  decEq := inferInstance
  deps := Deps.program M
  resolve := id
  decode _ bytes := if h : ∃ p : DynamicImage, plainBytes p = bytes then some { h.choose with color := .Rgb8 } else none
  formatOf _ := some 0
  encode _ image := ([] ++ [plainBytes image], true)
  creatable _ := true
  blocked _ := false
  folder o := some o

open Classical in
theorem plainWorld_reads (M : Libm F64) (path : PathStr) (p : DynamicImage) :
    ∃ got, (plainWorld M).decode path (plainBytes p) = some got ∧ LooksLike got p ∧ got.color = .Rgb8 := by
  have h : ∃ q : DynamicImage, plainBytes q = plainBytes p := ⟨p, rfl⟩
  refine ⟨{ h.choose with color := .Rgb8 }, ?_, plainBytes_inj h.choose p h.choose_spec, rfl⟩
  show dite _ _ _ = _
  rw [dif_pos h]

open Classical in
theorem plainWorld_lossless (M : Libm F64) : LosslessOn (plainWorld M) fun _ => True where
  reads := by
    intro path format picture contents final _ _ he
    have he' : ([] ++ [plainBytes picture], true) = (contents ++ [final], true) := he
    have hf : plainBytes picture = final := by
      have := (List.append_inj' (Prod.mk.inj he').1 rfl).2
      exact (List.cons.inj this).1
    obtain ⟨got, g1, g2, _⟩ := plainWorld_reads M path picture
    exact ⟨got, hf ▸ g1, g2⟩
  grey := by
    intro path content image h hc
    have h' : dite (∃ p : DynamicImage, plainBytes p = content) _ _ = some image := h
    split_ifs at h' with hex
    · have := Option.some.inj h'
      rw [← this] at hc
      cases hc

/-- `a-wm-wm-…-wm.png` -/
def wmPath : Nat → List Char
  | 0 => "a".toList
  | k + 1 => wmPath k ++ '-' :: "wm".toList

theorem wmPath_clean (k : Nat) : '/' ∉ wmPath k ∧ '.' ∉ wmPath k ∧ wmPath k ≠ [] := by
  induction k with
  | zero => decide
  | succ k ih =>
    obtain ⟨h1, h2, h3⟩ := ih
    have d : ∀ c ∈ ('-' :: "wm".toList), c ≠ '/' ∧ c ≠ '.' := by decide
    refine ⟨?_, ?_, ?_⟩
    · intro h
      rcases List.mem_append.mp h with h | h
      · exact h1 h
      · exact (d _ h).1 rfl
    · intro h
      rcases List.mem_append.mp h with h | h
      · exact h2 h
      · exact (d _ h).2 rfl
    · unfold wmPath
      simp

theorem wmPath_named (k : Nat) : NamedAs (wmPath k ++ '.' :: "png".toList) (wmPath k) "png".toList := by
  obtain ⟨h1, h2, h3⟩ := wmPath_clean k
  refine ⟨?_, by decide, h3⟩
  have hns : '/' ∉ wmPath k ++ '.' :: "png".toList := by
    intro h
    rcases List.mem_append.mp h with h | h
    · exact h1 h
    · exact absurd h (by decide)
  have hlen : 5 ≤ (wmPath k ++ '.' :: "png".toList).length := by
    rw [List.length_append]
    have : 0 < (wmPath k).length := List.length_pos_iff.mpr h3
    have e : ('.' :: "png".toList).length = 4 := by decide
    omega
  have hg : ∀ l : List Char, '/' ∉ l → 5 ≤ l.length → fileName l = some l := by
    intro l hl h5
    have e1 : l ≠ [] := by rintro rfl; simp at h5
    have e2 : l ≠ ['.'] := by rintro rfl; simp at h5
    have e3 : l ≠ ['.', '.'] := by rintro rfl; simp at h5
    unfold fileName
    rw [show l.splitOn '/' = [l] from List.splitOn_eq_singleton hl]
    simp [e1, e2, e3]
  exact hg _ hns hlen

/-- C91 for the program on a concrete file: `a.png` holds the stripes; the tool is run on it, on its output, and so on for ever. -/
example : ∃ (paths : Nat → PathStr) (states : Nat → Files PathStr), paths 0 = "a.png".toList ∧ paths 2 = "a-wm-wm.png".toList ∧
    (∀ k, states (k + 1) = (plainWorld idealLibm).after (states k)
      (processInputs (plainWorld idealLibm) "wm".toList none (states k) [paths k]).1) ∧
    (∀ k, (processInputs (plainWorld idealLibm) "wm".toList none (states k) [paths k]).2 = none) ∧
    ∀ k, ∃ bytes got, states (k + 1) (paths (k + 1)) = some bytes ∧ (plainWorld idealLibm).decode (paths (k + 1)) bytes = some got ∧
      ∀ s ∈ [Rgba.r, Rgba.g, Rgba.b], ∀ x < 512, ∀ y < 512,
        |((s (got.pixel x y)).toNat : ℤ) - (s (stripes.pixel x y)).toNat| ≤ 9 := by
  obtain ⟨image, i1, ⟨iw, ih, ipx⟩, _⟩ := plainWorld_reads idealLibm "a.png".toList stripes
  have hw : image.width = 512 := iw
  have hh : image.height = 512 := ih
  set paths : Nat → PathStr := fun k => wmPath k ++ '.' :: "png".toList with hpaths
  set W := plainWorld idealLibm with hWdef
  have hpath : ∀ k, paths (k + 1) = OutName (wmPath k) "png".toList "wm".toList none := by
    intro k
    rw [hpaths]
    simp [OutName, wmPath]
  have hdistinct : ∀ k, W.resolve (paths (k + 1)) ≠ W.resolve (paths k) := by
    intro k h
    have h' : paths (k + 1) = paths k := h
    have := congrArg List.length h'
    rw [hpaths] at this
    simp [wmPath] at this
  have hall := cli_forever idealLibm idealLibm_moduli W rfl (fun _ => True) (plainWorld_lossless _) 512 ⟨64, rfl⟩ (by norm_num) (by norm_num)
    (fun path _ => ⟨rfl, 0, rfl, fun p _ _ => ⟨[], plainBytes p, rfl⟩⟩) "wm".toList none paths wmPath (fun _ => "png".toList)
    wmPath_named hpath (fun _ => trivial) hdistinct (fun _ => some (plainBytes stripes)) (plainBytes stripes) image rfl i1 hw hh
  choose hnone bytes hclean using hall
  refine ⟨paths, filesAfter W "wm".toList none paths fun _ => some (plainBytes stripes), by decide, by decide, fun k => rfl, hnone, fun k => ?_⟩
  obtain ⟨old, by', before, got, _, _, g1, g2, _, _, g3⟩ := cli_again_and_again W (fun _ => True) (plainWorld_lossless _)
    (fun _ => "wm".toList) (fun _ => none) (fun k => [paths k]) _ (filesAfter W "wm".toList none paths fun _ => some (plainBytes stripes))
    paths wmPath (fun _ => "png".toList) hclean (fun k => rfl) (fun k => List.mem_singleton.mpr rfl) wmPath_named hpath (fun _ => trivial)
    (plainBytes stripes) image rfl i1 512 (by norm_num) hw hh k
  refine ⟨by', got, g1, g2, fun s hs x hx y hy => ?_⟩
  have hpx : ∀ x < 512, ∀ y < 512, s (image.pixel x y) = s (stripes.pixel x y) := fun x hx y hy => ipx s hs x hx y hy
  have hord : OrdinaryBlock image s x y := by
    refine ⟨fun x' hx' y' hy' _ => ?_, ?_⟩
    · rw [hw] at hx'
      rw [hh] at hy'
      rw [hpx x' hx' y' hy']
      exact stripes_room s hs x' y'
    · have e : sampleSum image s x y = sampleSum stripes s x y := by
        unfold sampleSum
        refine Finset.sum_congr rfl fun a ha => Finset.sum_congr rfl fun b hb => ?_
        have ha := Finset.mem_range.mp ha
        have hb := Finset.mem_range.mp hb
        rw [hpx _ (by omega) _ (by omega)]
      rw [e]
      exact stripes_sum_all s hs x y
  obtain ⟨m, m1, m2⟩ := (g3 s hs).2 x hx y hy hord
  rw [m2 x hx y hy ⟨rfl, rfl⟩, hpx x hx y hy, add_sub_cancel_left]
  exact m1

end Sia
