import Verif.Props.FolderProps
import Verif.Props.CliProps

/-! C95, C96: the command line tool on a tree of folders and files. -/
namespace Sia

section
variable {F : Type} [FloatOps F] (H : Host F)

/-- What the abstract run gets for the `-o` option: the absolute path of the folder it leads to. -/
def FolderPath (D : Disk) (output : Option PathStr) (dir : Place) (folder : Option PathStr) : Prop :=
  OutputsIn H D output dir ∧ D.isDir dir = true ∧ folder = output.map fun _ => absolute dir

theorem changes_append (D : Disk) (a b : List Change) : D.changes (a ++ b) = (D.changes a).changes b := by
  simp [Disk.changes]

theorem changes_folders (D : Disk) (ls : List Place) : D.changes (ls.map .folder) = D.addDirs ls := by
  induction ls generalizing D with
  | nil => rfl
  | cons l ls ih => exact ih (D.addDir l)

/-- Only files change. -/
def OnlyFiles (cs : List Change) : Prop := ∀ c ∈ cs, ∃ l b, c = .file l b

theorem changes_files (W : World F) (hW : W = H.world D0) (D : Disk) (cs : List Change) (h : OnlyFiles cs) :
    (D.changes cs).isDir = D.isDir ∧ (D.changes cs).files = (H.world D0).after D.files (fileChanges cs) := by
  induction cs generalizing D with
  | nil => exact ⟨rfl, rfl⟩
  | cons c cs ih =>
    obtain ⟨l, b, rfl⟩ := h c List.mem_cons_self
    obtain ⟨h1, h2⟩ := ih (D.put l b) fun c hc => h c (List.mem_cons_of_mem _ hc)
    refine ⟨h1, h2.trans ?_⟩
    have e : (D.put l b).files = (H.world D0).step D.files (some l, b) := by
      funext m
      cases m with
      | none => 
        show none = if (none : Option Place) = some l then some b else none
        rw [if_neg (by simp)]
      | some m =>
        show (if m = l then some b else D.content m) = if some m = some l then some b else D.content m
        by_cases hm : m = l
        · rw [if_pos hm, if_pos (by rw [hm])]
        · rw [if_neg hm, if_neg (by simpa using hm)]
    rw [e]
    rfl

theorem fileChanges_append (a b : List Change) : fileChanges (a ++ b) = fileChanges a ++ fileChanges b := List.filterMap_append ..

theorem fileChanges_map (l : Place) (contents : List (List UInt8)) :
    fileChanges (contents.map (.file l)) = contents.map fun c => (some l, c) := by
  induction contents with
  | nil => rfl
  | cons c contents ih =>
    show (some l, c) :: fileChanges (contents.map (.file l)) = _
    rw [ih]
    rfl

theorem fileChanges_folders (ls : List Place) : fileChanges (ls.map .folder) = [] := by
  induction ls with
  | nil => rfl
  | cons l ls ih => exact ih

/-- Storing the picture, on the tree and on the abstract file system. -/
theorem store_refines (D0 D : Disk) (h : D.isDir = D0.isDir) (out : PathStr) (marked : DynamicImage) :
    OnlyFiles (H.store D out marked).1 ∧
    (fileChanges (H.store D out marked).1, (H.store D out marked).2) =
      (if (H.world D0).creatable ((H.world D0).resolve out) then
        match (H.world D0).formatOf out with
        | none => ([((H.world D0).resolve out, [])], some .fileError)
        | some format =>
          let (contents, ok) := (H.world D0).encode format marked
          (((H.world D0).resolve out, []) :: contents.map fun c => ((H.world D0).resolve out, c), if ok then none else some .fileError)
      else ([], some .fileError)) := by
  have hr : (H.world D0).resolve out = (D.find H.cwd (parsePath out)).toOption := (find_toOption h H.cwd (parsePath out)).symm
  rw [hr]
  unfold Host.store
  cases hf : D.find H.cwd (parsePath out) with
  | error e =>
    refine ⟨fun c hc => by simp at hc, ?_⟩
    rfl
  | ok l =>
    simp only [Except.toOption, h]
    by_cases hcr : (!D0.isDir l && H.allowed l) = true
    · simp only [hcr, if_true]
      cases H.formatOf out with
      | none =>
        refine ⟨fun c hc => ⟨l, [], List.mem_singleton.mp hc⟩, rfl⟩
      | some format =>
        refine ⟨fun c hc => ?_, ?_⟩
        · rcases List.mem_cons.mp hc with rfl | hc
          · exact ⟨l, [], rfl⟩
          · obtain ⟨b, _, rfl⟩ := List.mem_map.mp hc
            exact ⟨l, b, rfl⟩
        · refine Prod.ext ?_ rfl
          show (some l, []) :: fileChanges ((H.encode format marked).1.map (.file l)) = _
          rw [fileChanges_map]
    · simp only [hcr, if_false, Bool.false_eq_true]
      exact ⟨fun c hc => by simp at hc, rfl⟩

/-- One round of the loop, on the tree and on the abstract file system. -/
theorem input_refines (D0 D : Disk) (h : D.isDir = D0.isDir) (suffix : List Char) (output : Option PathStr) (dir : Place)
    (folder : Option PathStr) (hf : FolderPath H D0 output dir folder) (input : PathStr) :
    OnlyFiles (H.input D suffix output input).1 ∧
    (fileChanges (H.input D suffix output input).1, (H.input D suffix output input).2) =
      processInput (H.world D0) D.files suffix folder input := by
  have hr : (H.world D0).resolve input = (D.find H.cwd (parsePath input)).toOption := (find_toOption h H.cwd (parsePath input)).symm
  unfold Host.input processInput
  rw [hr]
  cases hfi : D.find H.cwd (parsePath input) with
  | error e => exact ⟨fun c hc => by simp at hc, rfl⟩
  | ok l =>
    have hfl : D.files (Except.toOption (.ok l : Except Trouble Place)) = D.content l := rfl
    rw [hfl]
    dsimp only
    cases D.content l with
    | none => exact ⟨fun c hc => by simp at hc, rfl⟩
    | some content =>
      dsimp only
      cases H.decode input content with
      | none => exact ⟨fun c hc => by simp at hc, rfl⟩
      | some image =>
        dsimp only
        cases watermark H.deps image (FloatOps.ofInt 100) (FloatOps.ofInt 1) 11 with
        | error p => exact ⟨fun c hc => by simp at hc, rfl⟩
        | ok marked =>
          dsimp only
          cases (fileName input).bind stemExt with
          | none => exact ⟨fun c hc => by simp at hc, rfl⟩
          | some se =>
            obtain ⟨stem, ext⟩ := se
            dsimp only
            obtain ⟨f1, f2, f3⟩ := hf
            cases output with
            | none =>
              cases f3
              exact store_refines H D0 D h _ marked
            | some o =>
              have hfo : D.find H.cwd (parsePath o) = .ok dir := (find_ok_iff h _ _ _).mpr f1
              have hc : H.canonicalize D o = some (absolute dir) := by
                unfold Host.canonicalize
                rw [hfo]
                have : D.occupied dir = true := by
                  unfold Disk.occupied
                  rw [h, f2]
                  rfl
                simp only [this, if_true]
              dsimp only
              rw [hc, f3]
              exact store_refines H D0 D h _ marked

/-- The loop, on the tree and on the abstract file system. -/
theorem inputs_refines (D0 D : Disk) (h : D.isDir = D0.isDir) (suffix : List Char) (output : Option PathStr) (dir : Place)
    (folder : Option PathStr) (hf : FolderPath H D0 output dir folder) (inputs : List PathStr) :
    OnlyFiles (H.inputs suffix output D inputs).1 ∧
    (fileChanges (H.inputs suffix output D inputs).1, (H.inputs suffix output D inputs).2) =
      processInputs (H.world D0) suffix folder D.files inputs := by
  induction inputs generalizing D with
  | nil => exact ⟨fun c hc => by simp [Host.inputs] at hc, rfl⟩
  | cons i inputs ih =>
    obtain ⟨g1, g2⟩ := input_refines H D0 D h suffix output dir folder hf i
    unfold Host.inputs processInputs
    rw [← g2]
    rcases hi : H.input D suffix output i with ⟨cs, r⟩
    rw [hi] at g1
    cases r with
    | some p => exact ⟨g1, rfl⟩
    | none =>
      dsimp only at g1 ⊢
      obtain ⟨c1, c2⟩ := changes_files H (D0 := D0) _ rfl D cs g1
      obtain ⟨k1, k2⟩ := ih (D.changes cs) (c1.trans h)
      rw [← c2, ← k2]
      refine ⟨fun c hc => ?_, ?_⟩
      · rcases List.mem_append.mp hc with hc | hc
        · exact g1 c hc
        · exact k1 c hc
      · exact Prod.ext (fileChanges_append _ _) rfl

/-- The contents after changes of any kind. -/
theorem changes_content (D0 D : Disk) (cs : List Change) : (D.changes cs).files = (H.world D0).after D.files (fileChanges cs) := by
  induction cs generalizing D with
  | nil => rfl
  | cons c cs ih =>
    cases c with
    | folder l =>
      refine (ih (D.addDir l)).trans ?_
      rfl
    | file l b =>
      refine (ih (D.put l b)).trans ?_
      have e : (D.put l b).files = (H.world D0).step D.files (some l, b) :=
        (changes_files H (D0 := D0) _ rfl D [.file l b] fun c hc => ⟨l, b, List.mem_singleton.mp hc⟩).2
      rw [e]
      rfl

theorem parse_parts (p : PathStr) : ∀ m ∈ (parsePath p).parts, '/' ∉ m := by
  intro m hm
  unfold parsePath at hm
  split at hm
  · cases hm
  · split at hm
    · exact mem_splitOn _ _ hm
    · exact mem_splitOn _ _ hm

theorem parse_nonempty (p : PathStr) (h : p ≠ []) : (parsePath p).isEmpty = false := by
  unfold parsePath
  split
  · exact absurd rfl h
  · split
    · rfl
    · unfold RawPath.isEmpty
      have := List.splitOn_ne_nil '/' (‹Char› :: ‹List Char›)
      simp only [Bool.not_false, Bool.true_and]
      rw [List.isEmpty_eq_false_iff]
      exact this

/-- Where outputs go once the folder has been made. -/
theorem folder_ready (D : Disk) (hD : D.Sound) (hc : D.isDir H.cwd = true) (output : Option PathStr) (hout : output ≠ some [])
    (hok : ∀ o, output = some o → (H.createDirAll D (parsePath o)).2 = none) :
    (H.prepared D output).Sound ∧ D.Grows (H.prepared D output) ∧ ∃ dir, OutputsIn H (H.prepared D output) output dir ∧
      (H.prepared D output).isDir dir = true := by
  cases output with
  | none => exact ⟨hD, ⟨fun _ h => h, rfl⟩, H.cwd, rfl, hc⟩
  | some o =>
    obtain ⟨h1, _, h3⟩ := folders_made H D hD (parsePath o) (parse_parts o)
    have h1' := h1 (H.createDirAll D (parsePath o)).1.length
    rw [List.take_length] at h1'
    have h3' := h3 (hok o rfl) (parse_nonempty o fun e => hout (by rw [e]))
    refine ⟨h1'.1, h1'.2, ?_⟩
    unfold Disk.dirAt at h3'
    split at h3'
    · rename_i l hl
      exact ⟨l, hl, h3'⟩
    · cases h3'

/-- C95: what a run does on the tree. If the output folder cannot be made, no file changes and the run fails. Otherwise the files change,
and the run ends, as those of the abstract file system do (C43, C69, C74, C91, C93, C94) that the tree with the folder is. -/
theorem tree_process (D : Disk) (hD : D.Sound) (hc : D.isDir H.cwd = true) (inputs : List PathStr) (suffix : List Char)
    (output : Option PathStr) (hout : output ≠ some []) :
    let run := H.process D inputs (some suffix) output
    let ready := H.prepared D output
    ((∃ o, output = some o ∧ (H.createDirAll D (parsePath o)).2 ≠ none) → run.2 ≠ none ∧ (D.changes run.1).content = D.content ∧
      fileChanges run.1 = []) ∧
    ((∀ o, output = some o → (H.createDirAll D (parsePath o)).2 = none) →
      ready.Sound ∧ D.Grows ready ∧ ∃ dir, OutputsIn H ready output dir ∧ ready.isDir dir = true ∧
        (fileChanges run.1, run.2) = processInputs (H.world ready) suffix (output.map fun _ => absolute dir) D.files inputs ∧
        (∃ cs, OnlyFiles cs ∧ run.1 = (H.madeFor D output).map .folder ++ cs) ∧
        ∀ l, (D.changes run.1).content l =
          (H.world ready).after D.files (processInputs (H.world ready) suffix (output.map fun _ => absolute dir) D.files inputs).1 (some l)) := by
  intro run ready
  refine ⟨?_, fun hok => ?_⟩
  · rintro ⟨o, rfl, he⟩
    have hr : run = H.process D inputs (some suffix) (some o) := rfl
    unfold Host.process at hr
    dsimp only at hr
    split at hr
    · rw [hr]
      exact ⟨by simp, rfl, rfl⟩
    · rcases hm : H.createDirAll D (parsePath o) with ⟨ls, r⟩
      rw [hm] at hr he
      cases r with
      | none => exact absurd rfl he
      | some e =>
        dsimp only at hr
        rw [hr]
        refine ⟨by simp, ?_, fileChanges_folders ls⟩
        dsimp only
        rw [changes_folders, addDirs_content]
  · obtain ⟨hS, hG, dir, h1, h2⟩ := folder_ready H D hD hc output hout hok
    refine ⟨hS, hG, dir, h1, h2, ?_⟩
    have hfiles : ready.files = D.files := by
      funext m
      cases m with
      | none => rfl
      | some m => exact congrFun hG.2 m
    obtain ⟨k1, k2⟩ := inputs_refines H ready ready rfl suffix output dir _ ⟨h1, h2, rfl⟩ inputs
    rw [hfiles] at k2
    have hrun : run = ((H.madeFor D output).map .folder ++ (H.inputs suffix output ready inputs).1,
          (H.inputs suffix output ready inputs).2) := by
      show H.process D inputs (some suffix) output = _
      unfold Host.process
      cases output with
      | none => rfl
      | some o =>
        have hb : (!D.dirAt H.cwd (parsePath o) && D.existsAt H.cwd (parsePath o)) = false := by
          rw [Bool.eq_false_iff]
          intro hb
          unfold Disk.dirAt Disk.existsAt at hb
          cases hf : D.find H.cwd (parsePath o) with
          | error e =>
            rw [hf] at hb
            simp at hb
          | ok l =>
            rw [hf] at hb
            simp only [Disk.occupied, Bool.and_eq_true, Bool.not_eq_true', Bool.or_eq_true] at hb
            obtain ⟨b1, b2⟩ := hb
            have hl : ready.find H.cwd (parsePath o) = .ok l := find_grows hG.1 hf
            have e : dir = l := by
              have : ready.find H.cwd (parsePath o) = .ok dir := h1
              rw [hl] at this
              cases this
              rfl
            have hn := hS.apart dir h2
            rw [hG.2, e] at hn
            rw [b1, hn] at b2
            simp at b2
        dsimp only
        rw [hb]
        simp only [Bool.false_eq_true, if_false]
        have hm : H.createDirAll D (parsePath o) = ((H.createDirAll D (parsePath o)).1, none) := Prod.ext rfl (hok o rfl)
        rw [hm]
        rfl
    have hfc : (fileChanges run.1, run.2) = processInputs (H.world ready) suffix (output.map fun _ => absolute dir) D.files inputs := by
      rw [← k2, hrun]
      refine Prod.ext ?_ rfl
      dsimp only
      rw [fileChanges_append]
      rw [fileChanges_folders]
      rfl
    refine ⟨hfc, ⟨_, k1, by rw [hrun]⟩, fun l => ?_⟩
    have := congrFun (changes_content H ready D run.1) (some l)
    rw [show (D.changes run.1).content l = (D.changes run.1).files (some l) from rfl, this, ← hfc]

end
end Sia
