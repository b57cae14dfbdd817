import Verif.Model.HardFolders
import Verif.Props.LinkRunExamples
import Verif.Props.HardLinkExamples
import Verif.Props.ExitProps

/-! C105: the whole run on a tree where files can have several names. -/
namespace Sia

section
variable {F : Type} (H : Host F) {T : HardDisk}

theorem hardAddDirs_sound (hT : T.Sound) (ls : List Place) (h : (T.toLinkDisk.addDirs ls).Sound) : (T.addDirs ls).Sound := by
  have hc : (T.addDirs ls).content = T.content := addDirs_content T.toDisk ls
  refine ⟨h, fun l hl => hT.alone l ?_, fun l => ?_, hT.again⟩
  · rw [hc] at hl
    exact hl
  · rw [hc]
    exact hT.content l

variable [FloatOps F]

/-- C105: without `-o` the run is the one of C103. -/
theorem hard_run_here (inputs : List PathStr) (suffix : List Char) :
    H.hardProcess T inputs (some suffix) none = ([], process (H.hardWorld T) T.files inputs (some suffix) none) := by
  unfold Host.hardProcess
  rw [files_bind]

/-- C105: a run whose output folder cannot be made changes no file and is an error. -/
theorem hard_run_fails (inputs : List PathStr) (suffix : List Char) (o : PathStr)
    (h : (H.linkCreateDirAll T.toLinkDisk (parsePath o)).2 ≠ none) :
    (H.hardProcess T inputs (some suffix) (some o)).2.1 = [] ∧ (H.hardProcess T inputs (some suffix) (some o)).2.2 ≠ none := by
  unfold Host.hardProcess
  dsimp only
  by_cases hb : (H.hardWorld T).blocked o = true
  · rw [if_pos hb]
    exact ⟨rfl, by simp⟩
  · rw [if_neg hb]
    rcases hc : H.linkCreateDirAll T.toLinkDisk (parsePath o) with ⟨ls, e⟩
    rw [hc] at h
    cases e with
    | none => exact absurd rfl h
    | some e => exact ⟨rfl, by simp⟩

/-- C105: a run whose output folder is made, or there, goes on as in C103 on the tree with that folder. -/
theorem hard_run (hT : T.Sound) (inputs : List PathStr) (suffix : List Char) (o : PathStr) (ho : o ≠ [])
    (h : (H.linkCreateDirAll T.toLinkDisk (parsePath o)).2 = none) :
    let ready := T.addDirs (H.linkCreateDirAll T.toLinkDisk (parsePath o)).1
    ready.Sound ∧ (∃ dir, LinkOutputsIn H ready.toLinkDisk (some o) dir) ∧
      H.hardProcess T inputs (some suffix) (some o) =
        ((H.linkCreateDirAll T.toLinkDisk (parsePath o)).1, process (H.hardWorld ready) T.files inputs (some suffix) (some o)) := by
  intro ready
  obtain ⟨hS, hdir, hrun⟩ := link_run H hT.tree inputs suffix o ho h
  refine ⟨hardAddDirs_sound hT _ hS, hdir, ?_⟩
  have hb : (H.hardWorld T).blocked o = false := by
    have e : (H.hardWorld T).blocked o = (H.linkWorld T.toLinkDisk).blocked o := rfl
    rw [e, Bool.eq_false_iff]
    intro hb
    unfold Host.linkProcess at hrun
    dsimp only at hrun
    rw [if_pos hb, link_process H _ inputs suffix (some o) _ hdir.choose_spec] at hrun
    have := congrArg (fun p => p.2.2) hrun
    exact processInputs_quiet _ _ _ _ _ this.symm
  unfold Host.hardProcess
  dsimp only
  rw [if_neg (fun h' => by
    have h'' : (H.hardWorld T).blocked o = true := h'
    rw [hb] at h''
    cases h'')]
  have hr : ready = T.addDirs (H.linkCreateDirAll T.toLinkDisk (parsePath o)).1 := rfl
  rw [hr]
  rcases hc : H.linkCreateDirAll T.toLinkDisk (parsePath o) with ⟨ls, e⟩
  rw [hc] at h
  cases h
  rw [← files_bind]

/-- C105: where every file has one name, the run is the one of C102. -/
theorem hard_run_none (h : ∀ l, T.same l = l) (inputs : List PathStr) (suffix : Option (List Char)) (output : Option PathStr) :
    H.hardProcess T inputs suffix output = H.linkProcess T.toLinkDisk inputs suffix output := by
  have hw : ∀ ls, H.hardWorld (T.addDirs ls) = H.linkWorld (T.toLinkDisk.addDirs ls) := fun ls => hard_none H (T.addDirs ls) h
  have hp : ∀ (T' : HardDisk), (∀ l, T'.same l = l) → ∀ fs : Files (Option Place), process (H.hardWorld T') fs inputs suffix output =
      process (H.linkWorld T'.toLinkDisk) fs inputs suffix output := by
    intro T' h' fs
    have e : HEq (process (H.hardWorld T')) (process (H.linkWorld T'.toLinkDisk)) := by rw [hard_none H T' h']
    exact congrFun (congrFun (congrFun (congrFun (eq_of_heq e) fs) inputs) suffix) output
  cases suffix with
  | none =>
    unfold Host.hardProcess Host.linkProcess
    exact congrArg (Prod.mk []) (hp T h _)
  | some s =>
    cases output with
    | none =>
      unfold Host.hardProcess Host.linkProcess
      exact congrArg (Prod.mk []) (hp T h _)
    | some o =>
      unfold Host.hardProcess Host.linkProcess
      dsimp only
      by_cases hb : (H.linkWorld T.toLinkDisk).blocked o = true
      · rw [if_pos hb, if_pos (show (H.hardWorld T).blocked o = true from hb)]
      · rw [if_neg hb, if_neg (show ¬ (H.hardWorld T).blocked o = true from hb)]
        rcases H.linkCreateDirAll T.toLinkDisk (parsePath o) with ⟨ls, e⟩
        cases e with
        | some e => rfl
        | none => exact congrArg (Prod.mk ls) (hp (T.addDirs ls) h _)

/-- C105: whenever the run ends or is killed, only folders where nothing was have been added, and a name reads otherwise than before only if
its file is the one an output path leads to. -/
theorem hard_run_safe (hT : T.Sound) (hc : T.isDir H.cwd = true) (inputs : List PathStr) (suffix : List Char) (o : PathStr) (ho : o ≠ []) :
    let run := H.hardProcess T inputs (some suffix) (some o)
    let ready := T.addDirs run.1
    (∀ n, (T.addDirs (run.1.take n)).Sound) ∧ (∀ l ∈ run.1, T.occupied l = false ∧ T.link l = none) ∧
    ∀ es, es <+: run.2.1 → ∀ l, T.read ((H.hardWorld ready).after T.files es) l ≠ T.content l →
      ∃ dir, LinkOutputsIn H ready.toLinkDisk (some o) dir ∧ ∃ i ∈ inputs, ∃ stem ext, NamedAs i stem ext ∧ ∃ m, T.OneFile l m ∧
        ready.find H.cwd (parsePath (OutName stem ext suffix (some (absolute dir)))) = .ok m := by
  intro run ready
  obtain ⟨f1, f2, -⟩ := link_folders_made H T.toLinkDisk hT.tree (parsePath o) (parse_parts o)
  by_cases hb : (H.hardWorld T).blocked o = true
  · have hrun : run = ([], [], some .exitOne) := by
      show H.hardProcess T inputs (some suffix) (some o) = _
      unfold Host.hardProcess
      dsimp only
      rw [if_pos hb]
    rw [hrun]
    refine ⟨fun n => by rw [List.take_nil]; exact hT, by simp, fun es hes l hl => ?_⟩
    rw [List.prefix_nil.mp hes] at hl
    exact absurd (hT.content l) hl
  · by_cases h : (H.linkCreateDirAll T.toLinkDisk (parsePath o)).2 = none
    · obtain ⟨hS, -, hrun⟩ := hard_run H hT inputs suffix o ho h
      have hrun' : run = _ := hrun
      have hready : ready = T.addDirs (H.linkCreateDirAll T.toLinkDisk (parsePath o)).1 := by
        show T.addDirs run.1 = _
        rw [hrun']
      rw [hready, hrun']
      refine ⟨fun n => hardAddDirs_sound hT _ (f1 n), fun l hl => ⟨(f2 l hl).1, (f2 l hl).2.1⟩, fun es hes l hl => ?_⟩
      have hfiles : (T.addDirs (H.linkCreateDirAll T.toLinkDisk (parsePath o)).1).files = T.files := addDirs_files T.toLinkDisk _
      have hcontent : (T.addDirs (H.linkCreateDirAll T.toLinkDisk (parsePath o)).1).content = T.content := addDirs_content T.toDisk _
      have := hard_safe H (T.addDirs (H.linkCreateDirAll T.toLinkDisk (parsePath o)).1) hS ((linkAddDirs_isDir T.toLinkDisk _ _).mpr (Or.inl hc))
        inputs suffix (some o) es
      rw [hfiles, hcontent] at this
      exact this hes l hl
    · have hrun : run = ((H.linkCreateDirAll T.toLinkDisk (parsePath o)).1, [], some .fileError) := by
        show H.hardProcess T inputs (some suffix) (some o) = _
        unfold Host.hardProcess
        dsimp only
        rw [if_neg hb]
        rcases hc : H.linkCreateDirAll T.toLinkDisk (parsePath o) with ⟨ls, e⟩
        rw [hc] at h
        cases e with
        | none => exact absurd rfl h
        | some e => rfl
      rw [hrun]
      refine ⟨fun n => hardAddDirs_sound hT _ (f1 n), fun l hl => ⟨(f2 l hl).1, (f2 l hl).2.1⟩, fun es hes l hl => ?_⟩
      rw [List.prefix_nil.mp hes] at hl
      exact absurd (hT.content l) hl

/-- C105: a batch of new outputs in a folder that can be made: every output holds the bytes of its marked picture, and no file that was there,
under whatever name, has changed. -/
theorem hard_run_new (hT : T.Sound) (suffix : List Char) (hs : '/' ∉ suffix) (o : PathStr) (ho : o ≠ [])
    (h : (H.linkCreateDirAll T.toLinkDisk (parsePath o)).2 = none) (dir : Place)
    (hdir : LinkOutputsIn H (T.toLinkDisk.addDirs (H.linkCreateDirAll T.toLinkDisk (parsePath o)).1) (some o) dir)
    (jobs : List (PathStr × List Char × List Char × Place × List UInt8))
    (hjobs : ∀ j ∈ jobs, LinkCanMark H (T.toLinkDisk.addDirs (H.linkCreateDirAll T.toLinkDisk (parsePath o)).1) suffix (some o) dir
      j.1 j.2.1 j.2.2.1 j.2.2.2.1 j.2.2.2.2)
    (hnew : ∀ j ∈ jobs, T.content (outPlace dir suffix j.2.1 j.2.2.1) = none) (hnames : (jobs.map fun j => (j.2.1, j.2.2.1)).Nodup) :
    let run := H.hardProcess T (jobs.map Prod.fst) (some suffix) (some o)
    run.2.2 = none ∧ run.1 = (H.linkCreateDirAll T.toLinkDisk (parsePath o)).1 ∧
      (∀ j ∈ jobs, T.read ((H.hardWorld (T.addDirs run.1)).after T.files run.2.1) (outPlace dir suffix j.2.1 j.2.2.1) = some j.2.2.2.2) ∧
      ∀ l, T.content l ≠ none → T.read ((H.hardWorld (T.addDirs run.1)).after T.files run.2.1) l = T.content l := by
  intro run
  obtain ⟨hS, -, hrun⟩ := hard_run H hT (jobs.map Prod.fst) suffix o ho h
  have hrun' : run = _ := hrun
  have hfiles : (T.addDirs (H.linkCreateDirAll T.toLinkDisk (parsePath o)).1).files = T.files := addDirs_files T.toLinkDisk _
  have hcontent : (T.addDirs (H.linkCreateDirAll T.toLinkDisk (parsePath o)).1).content = T.content := addDirs_content T.toDisk _
  have hb := hard_new H (T.addDirs (H.linkCreateDirAll T.toLinkDisk (parsePath o)).1) hS suffix hs (some o) dir hdir jobs hjobs
    (by rw [hcontent]; exact hnew) hnames
  rw [hfiles, hcontent] at hb
  rw [hrun']
  exact ⟨hb.1, rfl, hb.2.1, hb.2.2⟩

end
end Sia
