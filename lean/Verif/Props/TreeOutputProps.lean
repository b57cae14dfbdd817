import Verif.Props.TreeProps
import Verif.Spec.ConcurrentSpec

/-! C96: where the outputs go. -/
namespace Sia

section
variable {F : Type} [FloatOps F] (H : Host F)

/-- The output of an input called `stem.ext` is in the output folder, if the suffix has no slash. -/
theorem output_resolves (D : Disk) (hD : D.Sound) (hc : D.isDir H.cwd = true) (output : Option PathStr) (dir : Place)
    (h1 : OutputsIn H D output dir) (h2 : D.isDir dir = true) (input stem ext suffix : List Char) (hs : '/' ∉ suffix)
    (hn : NamedAs input stem ext) :
    (H.world D).resolve (OutName stem ext suffix (output.map fun _ => absolute dir)) = some (dir ++ [stem ++ '-' :: suffix ++ '.' :: ext]) := by
  have hp := output_name_proper input stem ext suffix hn hs
  show (D.find H.cwd (parsePath (OutName stem ext suffix (output.map fun _ => absolute dir)))).toOption = _
  rw [toOption_eq_some]
  cases output with
  | none =>
    have h1' : dir = H.cwd := h1
    subst h1'
    exact find_here D _ hc _ hp
  | some o => exact find_inside hD _ dir h2 _ hp

/-- C96: if the suffix has no slash, then at whatever point a run is interrupted the only files that can have changed are the outputs
`stem-suffix.ext` of its inputs `stem.ext`, directly in the folder `-o` names (or in the current folder, wherever the input is). -/
theorem outputs_in_folder (D : Disk) (hD : D.Sound) (hc : D.isDir H.cwd = true) (inputs : List PathStr) (suffix : List Char)
    (output : Option PathStr) (hout : output ≠ some []) (hs : '/' ∉ suffix) (cs : List Change)
    (hcs : cs <+: (H.process D inputs (some suffix) output).1) (l : Place) (hl : (D.changes cs).content l ≠ D.content l) :
    ∃ dir, OutputsIn H (H.prepared D output) output dir ∧ (H.prepared D output).isDir dir = true ∧
      ∃ input ∈ inputs, ∃ stem ext, NamedAs input stem ext ∧ l = dir ++ [stem ++ '-' :: suffix ++ '.' :: ext] := by
  obtain ⟨t1, t2⟩ := tree_process H D hD hc inputs suffix output hout
  have hpre : fileChanges cs <+: fileChanges (H.process D inputs (some suffix) output).1 := by
    obtain ⟨t, ht⟩ := hcs
    rw [← ht, fileChanges_append]
    exact List.prefix_append _ _
  have hfiles := fun D0 => congrFun (changes_content H D0 D cs) (some l)
  by_cases hok : ∀ o, output = some o → (H.createDirAll D (parsePath o)).2 = none
  · obtain ⟨hS, hG, dir, h1, h2, h3, _, _⟩ := t2 hok
    refine ⟨dir, h1, h2, ?_⟩
    by_contra hno
    refine hl ?_
    have hb := batch_frame (H.world (H.prepared D output)) suffix (output.map fun _ => absolute dir) D.files inputs (fileChanges cs)
      (by rw [← h3]; exact hpre) (some l) (by
        intro i hi stem ext hn heq
        rw [output_resolves H _ hS (hG.1 _ hc) output dir h1 h2 i stem ext suffix hs hn] at heq
        exact hno ⟨i, hi, stem, ext, hn, Option.some.inj heq⟩)
    exact (hfiles (H.prepared D output)).trans hb
  · push Not at hok
    obtain ⟨_, _, h3⟩ := t1 hok
    rw [h3] at hpre
    have he := List.prefix_nil.mp hpre
    have := hfiles D
    rw [he] at this
    exact absurd this hl

/-- C96: the parts of the output name determine it. -/
theorem outName_injective (stem ext stem' ext' suffix : List Char) (h : '.' ∉ ext) (h' : '.' ∉ ext')
    (he : stem ++ '-' :: suffix ++ '.' :: ext = stem' ++ '-' :: suffix ++ '.' :: ext') : stem = stem' ∧ ext = ext' := by
  have h1 := (stemExt_spec (stem ++ '-' :: suffix ++ '.' :: ext) (stem ++ '-' :: suffix) ext).mpr ⟨rfl, h, by simp⟩
  have h2 := (stemExt_spec (stem ++ '-' :: suffix ++ '.' :: ext) (stem' ++ '-' :: suffix) ext').mpr ⟨he, h', by simp⟩
  rw [h1] at h2
  have h3 := Option.some.inj h2
  refine ⟨List.append_cancel_right (Prod.ext_iff.mp h3).1, (Prod.ext_iff.mp h3).2⟩

/-- An input of a run on a tree that can be marked: what it holds, how it is called, and the bytes its output gets. -/
structure CanMark (D : Disk) (suffix : List Char) (output : Option PathStr) (dir : Place) (input : PathStr) (stem ext : List Char)
    (place : Place) (final : List UInt8) : Prop where
  named : NamedAs input stem ext
  found : D.find H.cwd (parsePath input) = .ok place
  marks : ∃ content image marked format contents, D.content place = some content ∧ H.decode input content = some image ∧
    watermark H.deps image (FloatOps.ofInt 100) (FloatOps.ofInt 1) 11 = .ok marked ∧
    H.formatOf (OutName stem ext suffix (output.map fun _ => absolute dir)) = some format ∧
    H.encode format marked = (contents ++ [final], true)
  free : D.isDir (dir ++ [stem ++ '-' :: suffix ++ '.' :: ext]) = false
  allowed : H.allowed (dir ++ [stem ++ '-' :: suffix ++ '.' :: ext]) = true

/-- C96: a batch on a tree. If the output folder can be made, every input can be marked, the inputs have different file names and none of
them is the output of another one, then the run ends without an error, each output `stem-suffix.ext` in the output folder holds the bytes
of its marked picture, and every other file is as before. -/
theorem tree_batch (D : Disk) (hD : D.Sound) (hc : D.isDir H.cwd = true) (suffix : List Char) (hs : '/' ∉ suffix)
    (output : Option PathStr) (hout : output ≠ some [])
    (hok : ∀ o, output = some o → (H.createDirAll D (parsePath o)).2 = none) (dir : Place)
    (hdir : OutputsIn H (H.prepared D output) output dir)
    (jobs : List (PathStr × List Char × List Char × Place × List UInt8))
    (hjobs : ∀ j ∈ jobs, CanMark H (H.prepared D output) suffix output dir j.1 j.2.1 j.2.2.1 j.2.2.2.1 j.2.2.2.2)
    (hnames : (jobs.map fun j => (j.2.1, j.2.2.1)).Nodup)
    (hin : ∀ j ∈ jobs, ∀ k ∈ jobs, k.2.2.2.1 ≠ dir ++ [j.2.1 ++ '-' :: suffix ++ '.' :: j.2.2.1]) :
    let run := H.process D (jobs.map Prod.fst) (some suffix) output
    run.2 = none ∧
      (∀ j ∈ jobs, (D.changes run.1).content (dir ++ [j.2.1 ++ '-' :: suffix ++ '.' :: j.2.2.1]) = some j.2.2.2.2) ∧
      ∀ l, (∀ j ∈ jobs, l ≠ dir ++ [j.2.1 ++ '-' :: suffix ++ '.' :: j.2.2.1]) → (D.changes run.1).content l = D.content l := by
  intro run
  obtain ⟨hS, hG, dir', h1, h2, h3, _, h4⟩ := (tree_process H D hD hc (jobs.map Prod.fst) suffix output hout).2 hok
  have hdd : dir' = dir := by
    cases output with
    | none => exact Eq.trans (show dir' = H.cwd from h1) (show dir = H.cwd from hdir).symm
    | some o =>
      have a1 : (H.prepared D (some o)).find H.cwd (parsePath o) = .ok dir' := h1
      have a2 : (H.prepared D (some o)).find H.cwd (parsePath o) = .ok dir := hdir
      rw [a1] at a2
      cases a2
      rfl
  subst hdd
  set ready := H.prepared D output with hready
  set W := H.world ready with hW
  set folder := output.map fun _ => absolute dir' with hfolder
  let outOf : PathStr × List Char × List Char × Place × List UInt8 → Option Place × List UInt8 :=
    fun j => (some (dir' ++ [j.2.1 ++ '-' :: suffix ++ '.' :: j.2.2.1]), j.2.2.2.2)
  have hres : ∀ j ∈ jobs, W.resolve (OutName j.2.1 j.2.2.1 suffix folder) = (outOf j).1 := fun j hj =>
    output_resolves H ready hS (hG.1 _ hc) output dir' h1 h2 j.1 j.2.1 j.2.2.1 suffix hs (hjobs j hj).named
  have hclean : CleanBatch W suffix folder D.files (jobs.map Prod.fst) (jobs.map outOf) := by
    refine ⟨?_, ?_, ?_⟩
    · rw [List.forall₂_map_left_iff, List.forall₂_map_right_iff]
      rw [List.forall₂_same]
      intro j hj
      obtain ⟨a1, a2, ⟨content, image, marked, format, contents, b1, b2, b3, b4, b5⟩, a4, a5⟩ := hjobs j hj
      refine ⟨content, ?_, image, marked, j.2.1, j.2.2.1, format, contents, b2, b3, a1, (hres j hj).symm, ?_, b4, b5⟩
      · have : W.resolve j.1 = some j.2.2.2.1 := (toOption_eq_some _ _).mpr a2
        rw [this]
        show D.content _ = _
        rw [← hG.2]
        exact b1
      · show (!ready.isDir _ && H.allowed _) = true
        rw [a4, a5]
        rfl
    · rw [List.map_map]
      have hinj := (List.nodup_map_iff_inj_on (List.Nodup.of_map _ hnames)).mp hnames
      refine (List.nodup_map_iff_inj_on (List.Nodup.of_map _ hnames)).mpr fun j hj k hk he => ?_
      refine hinj j hj k hk ?_
      have he' : dir' ++ [j.2.1 ++ '-' :: suffix ++ '.' :: j.2.2.1] = dir' ++ [k.2.1 ++ '-' :: suffix ++ '.' :: k.2.2.1] :=
        Option.some.inj he
      have := List.append_cancel_left he'
      obtain ⟨e1, e2⟩ := outName_injective _ _ _ _ suffix (hjobs j hj).named.2.1 (hjobs k hk).named.2.1 (by simpa using this)
      rw [e1, e2]
    · intro r hr i hi heq
      obtain ⟨j, hj, rfl⟩ := List.mem_map.mp hr
      obtain ⟨k, hk, rfl⟩ := List.mem_map.mp hi
      have : W.resolve k.1 = some k.2.2.2.1 := (toOption_eq_some _ _).mpr (hjobs k hk).found
      rw [this] at heq
      exact hin j hj k hk (Option.some.inj heq).symm
  obtain ⟨b1, b2, b3⟩ := batch_completes W suffix folder D.files _ _ hclean
  refine ⟨?_, fun j hj => ?_, fun l hl => ?_⟩
  · have := congrArg Prod.snd h3
    exact this.trans b1
  · exact (h4 _).trans (b2 (outOf j) (List.mem_map_of_mem hj))
  · refine (h4 l).trans (b3 (some l) ?_)
    intro hmem
    obtain ⟨r, hr, e⟩ := List.mem_map.mp hmem
    obtain ⟨j, hj, rfl⟩ := List.mem_map.mp hr
    exact hl j hj (Option.some.inj e).symm

end
end Sia
