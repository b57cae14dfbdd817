import Verif.Props.LinkFolderProps

/-! C102: the whole run on a tree with symbolic links, the output folder made on the way. -/
namespace Sia

section
variable {F : Type} (H : Host F) {T : LinkDisk}

/-- Where the path leads to a folder already, making it fails in no way that a missing folder would. -/
theorem linkMkdir_there (T : LinkDisk) (p : RawPath) (hd : T.dirAt H.cwd p = true) : H.linkMkdir T p ≠ .error .notFound := by
  intro h
  unfold LinkDisk.dirAt LinkDisk.find at hd
  unfold Host.linkMkdir at h
  cases he : p.isEmpty with
  | true =>
    rw [he] at hd
    cases hd
  | false =>
    rw [he] at h hd
    simp only [Bool.false_eq_true, if_false] at h hd
    obtain ⟨t, ht, -⟩ := rdropWhile_split (fun x : List Char => decide (x = [])) p.parts
    set parts := p.parts.rdropWhile fun x => decide (x = []) with hparts
    cases hlast : parts.getLast? with
    | none =>
      rw [hlast] at h
      cases h
    | some last =>
      rw [hlast] at h
      dsimp only at h
      have hne : parts ≠ [] := by rintro e; rw [e] at hlast; simp at hlast
      have hl : parts = parts.dropLast ++ [last] := by
        have := List.dropLast_append_getLast hne
        rw [List.getLast?_eq_some_getLast hne] at hlast
        cases hlast
        exact this.symm
      cases hf : T.follow 40 (if p.abs then [] else H.cwd) p.parts with
      | error e =>
        rw [hf] at hd
        cases hd
      | ok l =>
        obtain ⟨k, hk, hkl⟩ := (follow_iff T 40 _ _ l).mp hf
        rw [ht, hl, List.append_assoc] at hkl
        obtain ⟨m, k1, k2, rfl, h1, h2⟩ := leads_split hkl
        rw [(follow_iff T 40 _ _ m).mpr ⟨k1, by omega, h1⟩] at h
        dsimp only at h
        have hm : T.isDir m = true := by
          cases h2 with
          | step h _ _ => exact h
          | jump h _ _ => exact h
        rw [if_pos hm] at h
        split_ifs at h <;> cases h

/-- C102: an output folder that is there already, through links or not, is left as it is. -/
theorem link_folder_there (hT : T.Sound) (p : RawPath) (hp : ∀ m ∈ p.parts, '/' ∉ m) (hd : T.dirAt H.cwd p = true) :
    H.linkCreateDirAll T p = ([], none) := by
  have he : p.isEmpty = false := by
    cases h : p.isEmpty with
    | false => rfl
    | true =>
      unfold LinkDisk.dirAt LinkDisk.find at hd
      rw [h] at hd
      cases hd
  cases hm : H.linkMkdir T p with
  | error e =>
    rw [link_made_error H T p he e (fun h => linkMkdir_there H T p hd (h ▸ hm)) hm, hd]
    rfl
  | ok l =>
    exfalso
    obtain ⟨dir, last, init, rest, e1, h2, h3, h4, h5, h6, h7, h8, h9⟩ := linkMkdir_ok H T p hp l hm
    have hS : (T.addDirs [l]).Sound := by
      subst e1
      exact linkAddDir_sound hT dir last h2 h5 h3 h9
    obtain ⟨hl, -⟩ := linkMkdir_leads H T (T.addDirs [l]) hS p hp l hm (fun m hm => (linkAddDirs_isDir T _ m).mpr (Or.inl hm)) rfl
      ((linkAddDirs_isDir T _ l).mpr (by simp))
    unfold LinkDisk.dirAt at hd
    cases hf : T.find H.cwd p with
    | error e =>
      rw [hf] at hd
      cases hd
    | ok m =>
      rw [hf] at hd
      have hg : (T.addDirs [l]).find H.cwd p = .ok m := by
        unfold LinkDisk.find at hf ⊢
        rw [he] at hf ⊢
        exact follow_grows (fun m hm => (linkAddDirs_isDir T _ m).mpr (Or.inl hm)) rfl hf
      rw [hg] at hl
      cases Except.ok.inj hl
      have h3' := h3
      simp only [Disk.occupied, Bool.or_eq_false_iff] at h3'
      have hd' : T.isDir l = true := hd
      rw [h3'.1] at hd'
      cases hd'

variable [FloatOps F]

theorem files_bind (D : Disk) : (fun l : Option Place => l.bind D.content) = D.files := by
  funext l
  cases l <;> rfl

theorem addDirs_files (T : LinkDisk) (ls : List Place) : (T.addDirs ls).files = T.files := by
  funext l
  cases l with
  | none => rfl
  | some l => exact congrFun (addDirs_content T.toDisk ls) l

/-- C102: without `-o` the run is the one of C101. -/
theorem link_run_here (inputs : List PathStr) (suffix : List Char) :
    H.linkProcess T inputs (some suffix) none = ([], process (H.linkWorld T) T.files inputs (some suffix) none) := by
  unfold Host.linkProcess
  rw [files_bind]

/-- C102: a run whose output folder cannot be made changes no file and is an error. -/
theorem link_run_fails (inputs : List PathStr) (suffix : List Char) (o : PathStr) (h : (H.linkCreateDirAll T (parsePath o)).2 ≠ none) :
    (H.linkProcess T inputs (some suffix) (some o)).2.1 = [] ∧ (H.linkProcess T inputs (some suffix) (some o)).2.2 ≠ none := by
  unfold Host.linkProcess
  dsimp only
  by_cases hb : (H.linkWorld T).blocked o = true
  · rw [if_pos hb]
    exact ⟨rfl, by simp⟩
  · rw [if_neg hb]
    rcases hc : H.linkCreateDirAll T (parsePath o) with ⟨ls, e⟩
    rw [hc] at h
    cases e with
    | none => exact absurd rfl h
    | some e => exact ⟨rfl, by simp⟩

/-- C102: a run whose output folder is made, or there, goes on as in C101 on the tree with that folder. -/
theorem link_run (hT : T.Sound) (inputs : List PathStr) (suffix : List Char) (o : PathStr) (ho : o ≠ [])
    (h : (H.linkCreateDirAll T (parsePath o)).2 = none) :
    let ready := T.addDirs (H.linkCreateDirAll T (parsePath o)).1
    ready.Sound ∧ (∃ dir, LinkOutputsIn H ready (some o) dir) ∧
      H.linkProcess T inputs (some suffix) (some o) =
        ((H.linkCreateDirAll T (parsePath o)).1, process (H.linkWorld ready) ready.files inputs (some suffix) (some o)) := by
  intro ready
  obtain ⟨f1, f2, f3⟩ := link_folders_made H T hT (parsePath o) (parse_parts o)
  have hS : ready.Sound := by
    have := f1 (H.linkCreateDirAll T (parsePath o)).1.length
    rwa [List.take_length] at this
  have hdir := f3 h (parse_nonempty o ho)
  have hin : ∃ dir, LinkOutputsIn H ready (some o) dir := by
    unfold LinkDisk.dirAt at hdir
    cases hf : ready.find H.cwd (parsePath o) with
    | error e =>
      rw [hf] at hdir
      cases hdir
    | ok dir =>
      rw [hf] at hdir
      exact ⟨dir, hdir, hf⟩
  refine ⟨hS, hin, ?_⟩
  have hb : (H.linkWorld T).blocked o = false := by
    obtain ⟨dir, hd, hf⟩ := hin
    show (match T.find H.cwd (parsePath o) with
      | .ok l => !T.isDir l && T.occupied l
      | .error _ => false) = false
    cases hg : T.find H.cwd (parsePath o) with
    | error e => rfl
    | ok l =>
      have hl : ready.find H.cwd (parsePath o) = .ok l := by
        unfold LinkDisk.find at hg ⊢
        rw [parse_nonempty o ho] at hg ⊢
        exact follow_grows (fun m hm => (linkAddDirs_isDir T _ m).mpr (Or.inl hm)) rfl hg
      have hf' : ready.find H.cwd (parsePath o) = .ok dir := hf
      rw [hl] at hf'
      cases Except.ok.inj hf'
      dsimp only
      rcases (linkAddDirs_isDir T _ dir).mp hd with hd | hd
      · rw [hd]
        rfl
      · rw [(f2 dir hd).1]
        exact Bool.and_false _
  unfold Host.linkProcess
  dsimp only
  rw [if_neg (fun h' => by
    have h'' : (H.linkWorld T).blocked o = true := h'
    rw [hb] at h''
    cases h'')]
  have hr : ready = T.addDirs (H.linkCreateDirAll T (parsePath o)).1 := rfl
  rw [addDirs_files, hr]
  rcases hc : H.linkCreateDirAll T (parsePath o) with ⟨ls, e⟩
  rw [hc] at h
  cases h
  rw [← files_bind]

/-- C102: whenever the run ends or is killed, the folders, files and links are a tree, only folders where nothing was have been added, no
link has changed, and each changed file is where an output path leads. -/
theorem link_run_safe (hT : T.Sound) (hc : T.isDir H.cwd = true) (inputs : List PathStr) (suffix : List Char) (o : PathStr) (ho : o ≠ []) :
    let run := H.linkProcess T inputs (some suffix) (some o)
    let ready := T.addDirs run.1
    (∀ n, (T.addDirs (run.1.take n)).Sound) ∧ (∀ l ∈ run.1, T.occupied l = false ∧ T.link l = none) ∧
    ∀ es, es <+: run.2.1 →
      (ready.holding ((H.linkWorld ready).after T.files es)).Sound ∧
      ∀ l, (H.linkWorld ready).after T.files es (some l) ≠ T.content l → ∃ dir, LinkOutputsIn H ready (some o) dir ∧
        ∃ i ∈ inputs, ∃ stem ext, NamedAs i stem ext ∧ ready.find H.cwd (parsePath (OutName stem ext suffix (some (absolute dir)))) = .ok l := by
  intro run ready
  obtain ⟨f1, f2, -⟩ := link_folders_made H T hT (parsePath o) (parse_parts o)
  have hnothing : ∀ (T' : LinkDisk), T'.Sound → T'.files = T.files → ∀ es, es <+: ([] : List (Option Place × List UInt8)) →
      (T'.holding ((H.linkWorld T').after T.files es)).Sound ∧ ∀ l, (H.linkWorld T').after T.files es (some l) = T.content l := by
    intro T' hS hfiles es hes
    rw [List.prefix_nil.mp hes]
    refine ⟨?_, fun l => rfl⟩
    have : T'.holding ((H.linkWorld T').after T.files []) = T' := by
      show ({ T' with content := fun l => T.files (some l) } : LinkDisk) = T'
      rw [← hfiles]
      rfl
    rw [this]
    exact hS
  by_cases hb : (H.linkWorld T).blocked o = true
  · have hrun : run = ([], [], some .exitOne) := by
      show H.linkProcess T inputs (some suffix) (some o) = _
      unfold Host.linkProcess
      dsimp only
      rw [if_pos hb]
    have hready : ready = T := by
      show T.addDirs run.1 = T
      rw [hrun]
      rfl
    rw [hready, hrun]
    refine ⟨fun n => by rw [List.take_nil]; exact hT, by simp, fun es hes => ?_⟩
    obtain ⟨h1, h2⟩ := hnothing T hT rfl es hes
    exact ⟨h1, fun l hl => absurd (h2 l) hl⟩
  · by_cases h : (H.linkCreateDirAll T (parsePath o)).2 = none
    · obtain ⟨hS, -, hrun⟩ := link_run H hT inputs suffix o ho h
      have hrun' : run = _ := hrun
      have hready : ready = T.addDirs (H.linkCreateDirAll T (parsePath o)).1 := by
        show T.addDirs run.1 = _
        rw [hrun']
      rw [hready, hrun']
      refine ⟨f1, fun l hl => ⟨(f2 l hl).1, (f2 l hl).2.1⟩, fun es hes => ?_⟩
      dsimp only at hes
      have := links_safe H (T.addDirs (H.linkCreateDirAll T (parsePath o)).1) hS ((linkAddDirs_isDir T _ _).mpr (Or.inl hc)) inputs suffix
        (some o) es hes
      rw [addDirs_files] at this
      refine ⟨this.1, fun l hl => this.2 l ?_⟩
      intro he
      apply hl
      rw [he]
      exact congrFun (addDirs_content T.toDisk _) l
    · have hrun : run = ((H.linkCreateDirAll T (parsePath o)).1, [], some .fileError) := by
        show H.linkProcess T inputs (some suffix) (some o) = _
        unfold Host.linkProcess
        dsimp only
        rw [if_neg hb]
        rcases hc : H.linkCreateDirAll T (parsePath o) with ⟨ls, e⟩
        rw [hc] at h
        cases e with
        | none => exact absurd rfl h
        | some e => rfl
      have hready : ready = T.addDirs (H.linkCreateDirAll T (parsePath o)).1 := by
        show T.addDirs run.1 = _
        rw [hrun]
      rw [hready, hrun]
      refine ⟨f1, fun l hl => ⟨(f2 l hl).1, (f2 l hl).2.1⟩, fun es hes => ?_⟩
      have hS := f1 (H.linkCreateDirAll T (parsePath o)).1.length
      rw [List.take_length] at hS
      obtain ⟨h1, h2⟩ := hnothing _ hS (addDirs_files T _) es hes
      exact ⟨h1, fun l hl => absurd (h2 l) hl⟩

/-- C102: a batch whose output folder can be made: the folders of the path are made, each output is in that folder, and every other file
is as before. -/
theorem link_run_batch (hT : T.Sound) (suffix : List Char) (hs : '/' ∉ suffix) (o : PathStr) (ho : o ≠ [])
    (h : (H.linkCreateDirAll T (parsePath o)).2 = none) (dir : Place)
    (hdir : LinkOutputsIn H (T.addDirs (H.linkCreateDirAll T (parsePath o)).1) (some o) dir)
    (jobs : List (PathStr × List Char × List Char × Place × List UInt8))
    (hjobs : ∀ j ∈ jobs, LinkCanMark H (T.addDirs (H.linkCreateDirAll T (parsePath o)).1) suffix (some o) dir j.1 j.2.1 j.2.2.1 j.2.2.2.1 j.2.2.2.2)
    (hnames : (jobs.map fun j => (j.2.1, j.2.2.1)).Nodup)
    (hin : ∀ j ∈ jobs, ∀ k ∈ jobs, k.2.2.2.1 ≠ dir ++ [j.2.1 ++ '-' :: suffix ++ '.' :: j.2.2.1]) :
    let run := H.linkProcess T (jobs.map Prod.fst) (some suffix) (some o)
    run.2.2 = none ∧ run.1 = (H.linkCreateDirAll T (parsePath o)).1 ∧
      (∀ j ∈ jobs, (H.linkWorld (T.addDirs run.1)).after T.files run.2.1 (some (dir ++ [j.2.1 ++ '-' :: suffix ++ '.' :: j.2.2.1])) =
        some j.2.2.2.2) ∧
      ∀ l, (∀ j ∈ jobs, l ≠ dir ++ [j.2.1 ++ '-' :: suffix ++ '.' :: j.2.2.1]) →
        (H.linkWorld (T.addDirs run.1)).after T.files run.2.1 (some l) = T.content l := by
  intro run
  obtain ⟨hS, -, hrun⟩ := link_run H hT (jobs.map Prod.fst) suffix o ho h
  have hrun' : run = _ := hrun
  have hb := link_batch H _ hS suffix hs (some o) dir hdir jobs hjobs hnames hin
  rw [hrun']
  dsimp only at hb ⊢
  rw [addDirs_files] at hb ⊢
  refine ⟨hb.1, rfl, hb.2.1, fun l hl => (hb.2.2 l hl).trans ?_⟩
  exact congrFun (addDirs_content T.toDisk _) l

end
end Sia
