import Verif.Props.LinkExamples
import Verif.Spec.HardLinksSpec

/-! C103: files with several names. -/
namespace Sia

section
variable {F : Type} [FloatOps F] (H : Host F) (T : HardDisk)

/-- C103: if every file has one name the model is that of C101. -/
theorem hard_none (h : ∀ l, T.same l = l) : H.hardWorld T = H.linkWorld T.toLinkDisk := by
  have e : (fun p => (T.find H.cwd (parsePath p)).toOption.map T.same) = fun p => (T.find H.cwd (parsePath p)).toOption := by
    funext p
    cases (T.find H.cwd (parsePath p)).toOption with
    | none => rfl
    | some l => exact congrArg some (h l)
  unfold Host.hardWorld Host.linkWorld
  rw [e]
  congr 1

/-- The run when the output folder is there. -/
theorem hard_process (inputs : List PathStr) (suffix : List Char) (output : Option PathStr) (dir : Place)
    (h1 : LinkOutputsIn H T.toLinkDisk output dir) (fs : Files (Option Place)) :
    process (H.hardWorld T) fs inputs (some suffix) output =
      processInputs (H.hardWorld T) suffix (output.map fun _ => absolute dir) fs inputs := by
  cases output with
  | none => rfl
  | some o =>
    obtain ⟨h2, h3⟩ := h1
    have hb : (H.hardWorld T).blocked o = false := by
      show (match T.find H.cwd (parsePath o) with | .ok l => !T.isDir l && T.occupied l | .error _ => false) = false
      rw [h3]
      simp [h2]
    have hf : (H.hardWorld T).folder o = some (absolute dir) := by
      show (match T.find H.cwd (parsePath o) with | .ok l => if T.occupied l then some (absolute l) else none | .error _ => none) = _
      rw [h3]
      simp [Disk.occupied, h2]
    exact process_folder (H.hardWorld T) fs inputs suffix o _ hb hf

/-- What the run starts with. -/
theorem hard_process_cases (inputs : List PathStr) (suffix : List Char) (output : Option PathStr) (hc : T.isDir H.cwd = true)
    (fs : Files (Option Place)) :
    (process (H.hardWorld T) fs inputs (some suffix) output).1 = [] ∨ ∃ dir, LinkOutputsIn H T.toLinkDisk output dir := by
  cases output with
  | none => exact .inr ⟨H.cwd, hc, rfl⟩
  | some o =>
    cases hb : (H.hardWorld T).blocked o with
    | true => exact .inl (by rw [process_blocked (H.hardWorld T) fs inputs suffix o hb])
    | false =>
      cases hf : (H.hardWorld T).folder o with
      | none =>
        exact .inl (by rw [process_missing (H.hardWorld T) fs inputs suffix o hb hf])
      | some f =>
        right
        have hb' : (match T.find H.cwd (parsePath o) with | .ok l => !T.isDir l && T.occupied l | .error _ => false) = false := hb
        have hf' : (match T.find H.cwd (parsePath o) with | .ok l => if T.occupied l then some (absolute l) else none | .error _ => none) =
          some f := hf
        cases h : T.find H.cwd (parsePath o) with
        | error e =>
          rw [h] at hf'
          cases hf'
        | ok l =>
          rw [h] at hf' hb'
          have ho : T.occupied l = true := by
            by_contra ho
            rw [Bool.not_eq_true] at ho
            simp [ho] at hf'
          refine ⟨l, ?_, h⟩
          simpa [ho] using hb'

/-- C103: at whatever point a run is interrupted, a name reads otherwise than before only if its file is the one an output path leads to. -/
theorem hard_safe (hT : T.Sound) (hc : T.isDir H.cwd = true) (inputs : List PathStr) (suffix : List Char) (output : Option PathStr)
    (es : List (Event (H.hardWorld T))) (hes : es <+: (process (H.hardWorld T) T.files inputs (some suffix) output).1) (l : Place)
    (hl : T.read ((H.hardWorld T).after T.files es) l ≠ T.content l) :
    ∃ dir, LinkOutputsIn H T.toLinkDisk output dir ∧ ∃ i ∈ inputs, ∃ stem ext, NamedAs i stem ext ∧ ∃ m, T.OneFile l m ∧
      T.find H.cwd (parsePath (OutName stem ext suffix (output.map fun _ => absolute dir))) = .ok m := by
  rcases hard_process_cases H T inputs suffix output hc T.files with hnil | ⟨dir, h1⟩
  · rw [hnil] at hes
    rw [List.prefix_nil.mp hes] at hl
    exact absurd (hT.content l) hl
  rw [hard_process H T inputs suffix output dir h1] at hes
  obtain ⟨e, he, hel⟩ : ∃ e ∈ es, e.1 = some (T.same l) := by
    by_contra hno
    push Not at hno
    refine hl ?_
    exact (after_untouched (H.hardWorld T) T.files es (some (T.same l)) hno).trans (hT.content l)
  obtain ⟨-, i, hi, stem, ext, hn, hloc⟩ :=
    processInputs_creatable (H.hardWorld T) suffix (output.map fun _ => absolute dir) inputs T.files e (hes.subset he)
  rw [hel] at hloc
  have hloc' : some (T.same l) = (T.find H.cwd (parsePath (OutName stem ext suffix (output.map fun _ => absolute dir)))).toOption.map T.same :=
    hloc
  cases hf : T.find H.cwd (parsePath (OutName stem ext suffix (output.map fun _ => absolute dir))) with
  | error x =>
    rw [hf] at hloc'
    cases hloc'
  | ok m =>
    rw [hf] at hloc'
    exact ⟨dir, h1, i, hi, stem, ext, hn, m, Option.some.inj hloc', hf⟩

/-- C103: a batch whose outputs are different files, none of them the file of an input, ends without an error. Then all names of an output's
file read as the marked picture, and all other names read as before. -/
theorem hard_batch (hT : T.Sound) (suffix : List Char) (hs : '/' ∉ suffix) (output : Option PathStr) (dir : Place)
    (hdir : LinkOutputsIn H T.toLinkDisk output dir) (jobs : List (PathStr × List Char × List Char × Place × List UInt8))
    (hjobs : ∀ j ∈ jobs, LinkCanMark H T.toLinkDisk suffix output dir j.1 j.2.1 j.2.2.1 j.2.2.2.1 j.2.2.2.2)
    (hallowed : ∀ j ∈ jobs, H.allowed (T.same (outPlace dir suffix j.2.1 j.2.2.1)) = true)
    (hdiff : jobs.Pairwise fun j k => ¬ T.OneFile (outPlace dir suffix j.2.1 j.2.2.1) (outPlace dir suffix k.2.1 k.2.2.1))
    (hin : ∀ j ∈ jobs, ∀ k ∈ jobs, ¬ T.OneFile k.2.2.2.1 (outPlace dir suffix j.2.1 j.2.2.1)) :
    let run := process (H.hardWorld T) T.files (jobs.map Prod.fst) (some suffix) output
    run.2 = none ∧
      (∀ j ∈ jobs, ∀ l, T.OneFile l (outPlace dir suffix j.2.1 j.2.2.1) →
        T.read ((H.hardWorld T).after T.files run.1) l = some j.2.2.2.2) ∧
      ∀ l, (∀ j ∈ jobs, ¬ T.OneFile l (outPlace dir suffix j.2.1 j.2.2.1)) →
        T.read ((H.hardWorld T).after T.files run.1) l = T.content l := by
  intro run
  have hrun : run = processInputs (H.hardWorld T) suffix (output.map fun _ => absolute dir) T.files (jobs.map Prod.fst) :=
    hard_process H T _ suffix output dir hdir T.files
  rw [hrun]
  let outOf : PathStr × List Char × List Char × Place × List UInt8 → Option Place × List UInt8 :=
    fun j => (some (T.same (outPlace dir suffix j.2.1 j.2.2.1)), j.2.2.2.2)
  have hclean : CleanBatch (H.hardWorld T) suffix (output.map fun _ => absolute dir) T.files (jobs.map Prod.fst) (jobs.map outOf) := by
    refine ⟨?_, ?_, ?_⟩
    · rw [List.forall₂_map_left_iff, List.forall₂_map_right_iff]
      rw [List.forall₂_same]
      intro j hj
      obtain ⟨a1, a2, ⟨content, image, marked, format, contents, b1, b2, b3, b4, b5⟩, a4, a5, a6⟩ := hjobs j hj
      have hout : (H.hardWorld T).resolve (OutName j.2.1 j.2.2.1 suffix (output.map fun _ => absolute dir)) =
          some (T.same (outPlace dir suffix j.2.1 j.2.2.1)) := by
        have h : (T.find H.cwd (parsePath (OutName j.2.1 j.2.2.1 suffix (output.map fun _ => absolute dir)))).toOption =
            some (outPlace dir suffix j.2.1 j.2.2.1) :=
          link_output_there H T.toLinkDisk hT.tree output dir hdir j.1 j.2.1 j.2.2.1 suffix hs a1 a5
        show (T.find H.cwd _).toOption.map T.same = _
        rw [h]
        rfl
      refine ⟨content, ?_, image, marked, j.2.1, j.2.2.1, format, contents, b2, b3, a1, hout.symm, ?_, b4, b5⟩
      · have : (H.hardWorld T).resolve j.1 = some (T.same j.2.2.2.1) := by
          show (T.find H.cwd (parsePath j.1)).toOption.map T.same = _
          rw [a2]
          rfl
        rw [this]
        exact (hT.content _).trans b1
      · show (!T.isDir (T.same (outPlace dir suffix j.2.1 j.2.2.1)) && H.allowed (T.same (outPlace dir suffix j.2.1 j.2.2.1))) = true
        rw [hallowed j hj, Bool.and_true, Bool.not_eq_true']
        by_cases hno : T.content (outPlace dir suffix j.2.1 j.2.2.1) = none
        · rw [hT.alone _ hno]
          exact a4
        · rw [Bool.eq_false_iff]
          intro hd
          apply hno
          rw [← hT.content]
          exact hT.tree.tree.apart _ hd
    · rw [List.map_map]
      refine List.pairwise_map.mpr (hdiff.imp fun {j k} hjk he => hjk ?_)
      exact Option.some.inj he
    · intro r hr i hi heq
      obtain ⟨j, hj, rfl⟩ := List.mem_map.mp hr
      obtain ⟨k, hk, rfl⟩ := List.mem_map.mp hi
      have : (H.hardWorld T).resolve k.1 = some (T.same k.2.2.2.1) := by
        show (T.find H.cwd (parsePath k.1)).toOption.map T.same = _
        rw [(hjobs k hk).found]
        rfl
      rw [this] at heq
      exact hin j hj k hk (Option.some.inj heq).symm
  obtain ⟨b1, b2, b3⟩ := batch_completes (H.hardWorld T) suffix _ T.files _ _ hclean
  refine ⟨b1, fun j hj l hl => ?_, fun l hl => ?_⟩
  · unfold HardDisk.read
    rw [show T.same l = T.same (outPlace dir suffix j.2.1 j.2.2.1) from hl]
    exact b2 (outOf j) (List.mem_map_of_mem hj)
  · refine (b3 (some (T.same l)) ?_).trans (hT.content l)
    intro hmem
    obtain ⟨r, hr, e⟩ := List.mem_map.mp hmem
    obtain ⟨j, hj, rfl⟩ := List.mem_map.mp hr
    exact hl j hj (Option.some.inj e).symm

/-- C103: if none of the outputs is there before, a batch with different names changes no file that is, whatever names it has. -/
theorem hard_new (hT : T.Sound) (suffix : List Char) (hs : '/' ∉ suffix) (output : Option PathStr) (dir : Place)
    (hdir : LinkOutputsIn H T.toLinkDisk output dir) (jobs : List (PathStr × List Char × List Char × Place × List UInt8))
    (hjobs : ∀ j ∈ jobs, LinkCanMark H T.toLinkDisk suffix output dir j.1 j.2.1 j.2.2.1 j.2.2.2.1 j.2.2.2.2)
    (hnew : ∀ j ∈ jobs, T.content (outPlace dir suffix j.2.1 j.2.2.1) = none) (hnames : (jobs.map fun j => (j.2.1, j.2.2.1)).Nodup) :
    let run := process (H.hardWorld T) T.files (jobs.map Prod.fst) (some suffix) output
    run.2 = none ∧
      (∀ j ∈ jobs, T.read ((H.hardWorld T).after T.files run.1) (outPlace dir suffix j.2.1 j.2.2.1) = some j.2.2.2.2) ∧
      ∀ l, T.content l ≠ none → T.read ((H.hardWorld T).after T.files run.1) l = T.content l := by
  have hother : ∀ l, T.content l ≠ none → ∀ j ∈ jobs, ¬ T.OneFile l (outPlace dir suffix j.2.1 j.2.2.1) := by
    intro l hl j hj he
    apply hl
    have he' : T.same l = T.same (outPlace dir suffix j.2.1 j.2.2.1) := he
    rw [← hT.content l, he', hT.content]
    exact hnew j hj
  obtain ⟨b1, b2, b3⟩ := hard_batch H T hT suffix hs output dir hdir jobs hjobs
    (fun j hj => by
      rw [hT.alone _ (hnew j hj)]
      exact (hjobs j hj).allowed)
    (by
      have hp : jobs.Pairwise fun j k => (j.2.1, j.2.2.1) ≠ (k.2.1, k.2.2.1) := List.pairwise_map.mp hnames
      refine hp.imp_of_mem fun {j k} hj hk hjk he => hjk ?_
      have he' : T.same (outPlace dir suffix j.2.1 j.2.2.1) = T.same (outPlace dir suffix k.2.1 k.2.2.1) := he
      rw [hT.alone _ (hnew j hj), hT.alone _ (hnew k hk)] at he'
      have h := List.append_cancel_left he'
      obtain ⟨e1, e2⟩ := outName_injective _ _ _ _ suffix (hjobs j hj).named.2.1 (hjobs k hk).named.2.1 (by simpa using h)
      rw [e1, e2])
    (fun j hj k hk => by
      refine hother _ ?_ j hj
      obtain ⟨content, _, _, _, _, b1, _⟩ := (hjobs k hk).marks
      rw [b1]
      exact fun h => by cases h)
  exact ⟨b1, fun j hj => b2 j hj _ rfl, fun l hl => b3 l (hother l hl)⟩

/-- C103, what can go wrong: an output that is there already and has another name, a backup say, takes it along: both read as the new
picture. -/
theorem hard_backup (hT : T.Sound) (suffix : List Char) (hs : '/' ∉ suffix) (output : Option PathStr) (dir : Place)
    (hdir : LinkOutputsIn H T.toLinkDisk output dir) (input stem ext : List Char) (place backup : Place) (final : List UInt8)
    (hjob : LinkCanMark H T.toLinkDisk suffix output dir input stem ext place final)
    (hallowed : H.allowed (T.same (outPlace dir suffix stem ext)) = true)
    (hbackup : T.OneFile backup (outPlace dir suffix stem ext)) (hin : ¬ T.OneFile place (outPlace dir suffix stem ext)) :
    let run := process (H.hardWorld T) T.files [input] (some suffix) output
    run.2 = none ∧ T.read ((H.hardWorld T).after T.files run.1) backup = some final := by
  have h1 : ∀ j ∈ [(input, stem, ext, place, final)], j = (input, stem, ext, place, final) := fun j hj => List.mem_singleton.mp hj
  obtain ⟨b1, b2, -⟩ := hard_batch H T hT suffix hs output dir hdir [(input, stem, ext, place, final)]
    (fun j hj => by rw [h1 j hj]; exact hjob) (fun j hj => by rw [h1 j hj]; exact hallowed) (List.pairwise_singleton _ _)
    (fun j hj k hk => by rw [h1 j hj, h1 k hk]; exact hin)
  exact ⟨b1, b2 _ List.mem_cons_self backup hbackup⟩

/-- C103, what can go wrong: an output whose name is another name of its input's file replaces it; the run ends without an error. -/
theorem hard_input (hT : T.Sound) (suffix : List Char) (hs : '/' ∉ suffix) (output : Option PathStr) (dir : Place)
    (hdir : LinkOutputsIn H T.toLinkDisk output dir) (input stem ext : List Char) (place : Place) (final : List UInt8)
    (hjob : LinkCanMark H T.toLinkDisk suffix output dir input stem ext place final) (hallowed : H.allowed (T.same place) = true)
    (hin : T.OneFile place (outPlace dir suffix stem ext)) :
    let run := process (H.hardWorld T) T.files [input] (some suffix) output
    run.2 = none ∧ T.read ((H.hardWorld T).after T.files run.1) place = some final := by
  intro run
  have hrun : run = processInputs (H.hardWorld T) suffix (output.map fun _ => absolute dir) T.files [input] :=
    hard_process H T _ suffix output dir hdir T.files
  obtain ⟨a1, a2, ⟨content, image, marked, format, contents, b1, b2, b3, b4, b5⟩, a4, a5, a6⟩ := hjob
  have hres : (H.hardWorld T).resolve input = some (T.same place) := by
    show (T.find H.cwd (parsePath input)).toOption.map T.same = _
    rw [a2]
    rfl
  have hin' : T.same place = T.same (outPlace dir suffix stem ext) := hin
  have hout : (H.hardWorld T).resolve (OutName stem ext suffix (output.map fun _ => absolute dir)) = some (T.same place) := by
    have h : (T.find H.cwd (parsePath (OutName stem ext suffix (output.map fun _ => absolute dir)))).toOption =
        some (outPlace dir suffix stem ext) :=
      link_output_there H T.toLinkDisk hT.tree output dir hdir input stem ext suffix hs a1 a5
    show (T.find H.cwd _).toOption.map T.same = _
    rw [h, hin']
    rfl
  have hcr : (H.hardWorld T).creatable (some (T.same place)) = true := by
    show (!T.isDir (T.same place) && H.allowed (T.same place)) = true
    rw [hallowed, Bool.and_true, Bool.not_eq_true', Bool.eq_false_iff]
    intro hd
    have := hT.tree.tree.apart _ hd
    have hc := hT.content place
    rw [this, b1] at hc
    cases hc
  obtain ⟨es, he, -⟩ := processInput_marks (H.hardWorld T) T.files suffix (output.map fun _ => absolute dir) input content
    (some (T.same place)) final (by rw [hres]; exact (hT.content _).trans b1)
    ⟨image, marked, stem, ext, format, contents, b2, b3, a1, hout.symm, hcr, b4, b5⟩
  have hrun' : run = (es ++ [(some (T.same place), final)], none) := by
    rw [hrun]
    exact processInputs_one (H.hardWorld T) T.files suffix _ input _ he
  rw [hrun']
  refine ⟨rfl, ?_⟩
  show (H.hardWorld T).after T.files (es ++ [(some (T.same place), final)]) (some (T.same place)) = _
  unfold World.after
  rw [List.foldl_append]
  exact step_at (H.hardWorld T) _ _ _

end
end Sia
