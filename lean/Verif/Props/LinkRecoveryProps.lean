import Verif.Spec.LinkRecoverySpec
import Verif.Props.LinkResumeProps
import Verif.Props.RecoveryProps

/-! C106: running the tool again after a crash, on a tree with symbolic links, the output folder made on the way. -/
namespace Sia

section
variable {F : Type} [FloatOps F] (H : Host F)

theorem rounds_of (W : World F) (b : PathStr → Bool) (f : PathStr → Option PathStr) (suffix : List Char) (folder : Option PathStr)
    (inputs : List PathStr) : ∀ fs : Files W.Loc,
    processInputs { W with blocked := b, folder := f } suffix folder fs inputs = processInputs W suffix folder fs inputs := by
  induction inputs with
  | nil => exact fun _ => rfl
  | cons i rest ih =>
    intro fs
    have e : processInput { W with blocked := b, folder := f } fs suffix folder i = processInput W fs suffix folder i := rfl
    have ea : ∀ es, World.after { W with blocked := b, folder := f } fs es = W.after fs es := fun _ => rfl
    unfold processInputs
    rw [e]
    rcases processInput W fs suffix folder i with ⟨es, p⟩
    cases p with
    | some p => rfl
    | none =>
      dsimp only
      rw [ea, ih]

theorem holding_find (T : LinkDisk) (files : Option Place → Option (List UInt8)) (p : RawPath) (l : Place) :
    (T.holding files).find H.cwd p = .ok l ↔ T.find H.cwd p = .ok l := by
  unfold LinkDisk.find
  split_ifs
  · simp
  all_goals
    constructor
    · exact fun h => follow_grows (T := T.holding files) (T' := T) (fun _ h => h) rfl h
    · exact fun h => follow_grows (T := T) (T' := T.holding files) (fun _ h => h) rfl h

theorem holding_rounds (T : LinkDisk) (files : Option Place → Option (List UInt8)) (suffix : List Char) (folder : Option PathStr)
    (inputs : List PathStr) (fs : Files (Option Place)) :
    processInputs (H.linkWorld (T.holding files)) suffix folder fs inputs = processInputs (H.linkWorld T) suffix folder fs inputs := by
  have e : H.linkWorld (T.holding files) = { H.linkWorld T with blocked := (H.linkWorld (T.holding files)).blocked, folder := (H.linkWorld (T.holding files)).folder } := by
    have hr : (fun p => ((T.holding files).find H.cwd (parsePath p)).toOption) = fun p => (T.find H.cwd (parsePath p)).toOption := by
      funext p
      refine Option.ext fun l => ?_
      exact (toOption_eq_some _ _).trans ((holding_find H T files _ _).trans (toOption_eq_some _ _).symm)
    unfold Host.linkWorld
    congr 1
  have e2 : HEq (processInputs (H.linkWorld (T.holding files)) suffix folder)
      (processInputs { H.linkWorld T with blocked := (H.linkWorld (T.holding files)).blocked, folder := (H.linkWorld (T.holding files)).folder }
        suffix folder) := by
    generalize hX : H.linkWorld (T.holding files) = X at e ⊢
    rw [← e]
  have e3 := congrFun (congrFun (eq_of_heq e2) fs) inputs
  exact e3.trans (rounds_of (H.linkWorld T) _ _ suffix folder inputs fs)

theorem holding_files (T : LinkDisk) : T.holding T.files = T := rfl

/-- The run when the output folder is there, whatever the files hold. -/
theorem link_run_held (T : LinkDisk) (files : Option Place → Option (List UInt8)) (hf : files none = none) (hS : (T.holding files).Sound)
    (inputs : List PathStr) (suffix : List Char) (o : PathStr) (ho : o ≠ []) (dir : Place) (hdir : LinkOutputsIn H T (some o) dir) :
    H.linkProcess (T.holding files) inputs (some suffix) (some o) =
      ([], (⟨suffix, some (absolute dir), inputs⟩ : Command).alone (H.linkWorld T) files) := by
  have hfind : (T.holding files).find H.cwd (parsePath o) = .ok dir := (holding_find H T files _ _).mpr hdir.2
  have hthere : (T.holding files).dirAt H.cwd (parsePath o) = true := by
    unfold LinkDisk.dirAt
    rw [hfind]
    exact hdir.1
  have hmade := link_folder_there H hS (parsePath o) (parse_parts o) hthere
  obtain ⟨_, _, hrun⟩ := link_run H hS inputs suffix o ho (by rw [hmade])
  rw [hmade] at hrun
  have hnil : (T.holding files).addDirs [] = T.holding files := rfl
  have hrun' : H.linkProcess (T.holding files) inputs (some suffix) (some o) =
      ([], process (H.linkWorld (T.holding files)) (T.holding files).files inputs (some suffix) (some o)) := hrun
  have hdir' : LinkOutputsIn H (T.holding files) (some o) dir := ⟨hdir.1, hfind⟩
  rw [hrun', link_process H _ inputs suffix (some o) dir hdir', holding_rounds]
  have hfs : (T.holding files).files = files := by
    funext l
    cases l with
    | none => exact hf.symm
    | some l => rfl
  rw [hfs]
  rfl

theorem after_none (T : LinkDisk) (es : List (Option Place × List UInt8)) (h : ∀ e ∈ es, e.1 ≠ none) (fs : Files (Option Place)) :
    (H.linkWorld T).after fs es none = fs none :=
  after_untouched (H.linkWorld T) fs es none h

/-- Where an interrupted run leaves the tree: with some of the folders, the files as before, or with all the folders and the files after some
attempts on them. -/
def Underway (T : LinkDisk) (inputs : List PathStr) (suffix : List Char) (ls : List Place) (dir : Place) (T' : LinkDisk) : Prop :=
  (∃ m, T' = T.addDirs (ls.take m)) ∨
    ∃ cuts, T' = (T.addDirs ls).holding
      (attempts (H.linkWorld (T.addDirs ls)) ⟨suffix, some (absolute dir), inputs⟩ T.files cuts) ∧ T'.Sound ∧
      attempts (H.linkWorld (T.addDirs ls)) ⟨suffix, some (absolute dir), inputs⟩ T.files cuts none = none

theorem link_run_part (T : LinkDisk) (hT : T.Sound) (inputs : List PathStr) (suffix : List Char) (o : PathStr)
    (ho : o ≠ []) (ls : List Place) (hls : H.linkCreateDirAll T (parsePath o) = (ls, none)) (dir : Place)
    (hdir : LinkOutputsIn H (T.addDirs ls) (some o) dir) (m : Nat) :
    (T.addDirs (ls.take m)).addDirs (ls.drop m) = T.addDirs ls ∧
    H.linkProcess (T.addDirs (ls.take m)) inputs (some suffix) (some o) =
      (ls.drop m, (⟨suffix, some (absolute dir), inputs⟩ : Command).alone (H.linkWorld (T.addDirs ls)) T.files) := by
  have hS := (link_folders_made H T hT (parsePath o) (parse_parts o)).1
  rw [hls] at hS
  have hr := link_folders_resume H T hT (parsePath o) (parse_parts o) ls hls m
  have hadd : (T.addDirs (ls.take m)).addDirs (ls.drop m) = T.addDirs ls := by
    show ({ T with toDisk := (T.toDisk.addDirs (ls.take m)).addDirs (ls.drop m) } : LinkDisk) = _
    rw [← addDirs_append, List.take_append_drop]
    rfl
  refine ⟨hadd, ?_⟩
  obtain ⟨_, _, h⟩ := link_run H (hS m) inputs suffix o ho (by rw [hr])
  rw [hr] at h
  dsimp only at h
  rw [hadd, link_process H _ inputs suffix (some o) dir hdir, addDirs_files] at h
  exact h

theorem underway_step (T : LinkDisk) (hT : T.Sound) (hc : T.isDir H.cwd = true) (inputs : List PathStr) (suffix : List Char) (o : PathStr)
    (ho : o ≠ []) (ls : List Place) (hls : H.linkCreateDirAll T (parsePath o) = (ls, none)) (dir : Place)
    (hdir : LinkOutputsIn H (T.addDirs ls) (some o) dir) (T' : LinkDisk) (h : Underway H T inputs suffix ls dir T') (n : Nat) :
    Underway H T inputs suffix ls dir (H.linkAttempt inputs suffix o T' n) := by
  have hnone : ∀ fs : Files (Option Place), fs none = none → ∀ k,
      (H.linkWorld (T.addDirs ls)).after fs
        (((⟨suffix, some (absolute dir), inputs⟩ : Command).alone (H.linkWorld (T.addDirs ls)) fs).1.take k) none = none := by
    intro fs hfs k
    refine (after_none H (T.addDirs ls) _ (fun e he h0 => ?_) fs).trans hfs
    have := (processInputs_creatable (H.linkWorld (T.addDirs ls)) suffix (some (absolute dir)) inputs fs e (List.mem_of_mem_take he)).1
    rw [h0] at this
    cases this
  have hsafe : ∀ T₁ : LinkDisk, T₁.Sound → T₁.isDir H.cwd = true → ∀ k,
      let run := H.linkProcess T₁ inputs (some suffix) (some o)
      ((T₁.addDirs run.1).holding ((H.linkWorld (T₁.addDirs run.1)).after T₁.files (run.2.1.take k))).Sound := by
    intro T₁ h1 h2 k
    exact ((link_run_safe H h1 h2 inputs suffix o ho).2.2 _ (List.take_prefix _ _)).1
  rcases h with ⟨m, rfl⟩ | ⟨cuts, hT', hS', hn⟩
  · obtain ⟨hadd, hrun⟩ := link_run_part H T hT inputs suffix o ho ls hls dir hdir m
    have hSm := (link_folders_made H T hT (parsePath o) (parse_parts o)).1 m
    rw [hls] at hSm
    have hcm : (T.addDirs (ls.take m)).isDir H.cwd = true := (linkAddDirs_isDir T _ _).mpr (Or.inl hc)
    have hs := hsafe _ hSm hcm (n - (ls.drop m).length)
    unfold Host.linkAttempt
    rw [hrun] at hs ⊢
    dsimp only at hs ⊢
    rw [addDirs_files] at hs ⊢
    by_cases hle : n ≤ (ls.drop m).length
    · refine Or.inl ⟨m + n, ?_⟩
      rw [Nat.sub_eq_zero_of_le hle, List.take_zero]
      have e : (T.addDirs (ls.take m)).addDirs ((ls.drop m).take n) = T.addDirs (ls.take (m + n)) := by
        show ({ T with toDisk := (T.toDisk.addDirs (ls.take m)).addDirs ((ls.drop m).take n) } : LinkDisk) = _
        rw [← addDirs_append, ← List.take_add]
        rfl
      rw [e]
      show (T.addDirs (ls.take (m + n))).holding T.files = _
      rw [← addDirs_files T (ls.take (m + n))]
      rfl
    · rw [List.take_of_length_le (by omega : (ls.drop m).length ≤ n), hadd]
      rw [hadd] at hs
      exact Or.inr ⟨[n - (ls.drop m).length], rfl, hs, hnone T.files rfl _⟩
  · generalize hfs : attempts (H.linkWorld (T.addDirs ls)) ⟨suffix, some (absolute dir), inputs⟩ T.files cuts = fs at hT' hn
    subst hT'
    have hrun := link_run_held H (T.addDirs ls) fs hn hS' inputs suffix o ho dir hdir
    have hcm : ((T.addDirs ls).holding fs).isDir H.cwd = true := (linkAddDirs_isDir T _ _).mpr (Or.inl hc)
    have hs := hsafe _ hS' hcm n
    have hff : ((T.addDirs ls).holding fs).files = fs := by
      funext l
      cases l with
      | none => exact hn.symm
      | some l => rfl
    unfold Host.linkAttempt
    rw [hrun] at hs ⊢
    dsimp only at hs ⊢
    rw [hff] at hs ⊢
    refine Or.inr ⟨cuts ++ [n], ?_, ?_, ?_⟩
    · have e : attempts (H.linkWorld (T.addDirs ls)) ⟨suffix, some (absolute dir), inputs⟩ T.files (cuts ++ [n]) =
          (H.linkWorld (T.addDirs ls)).after fs
            (((⟨suffix, some (absolute dir), inputs⟩ : Command).alone (H.linkWorld (T.addDirs ls)) fs).1.take n) := by
        rw [← hfs]
        unfold attempts
        rw [List.foldl_append]
        rfl
      rw [e, List.take_nil]
      rfl
    · rw [List.take_nil]
      exact hs
    · have e : attempts (H.linkWorld (T.addDirs ls)) ⟨suffix, some (absolute dir), inputs⟩ T.files (cuts ++ [n]) =
          (H.linkWorld (T.addDirs ls)).after fs
            (((⟨suffix, some (absolute dir), inputs⟩ : Command).alone (H.linkWorld (T.addDirs ls)) fs).1.take n) := by
        rw [← hfs]
        unfold attempts
        rw [List.foldl_append]
        rfl
      rw [e]
      exact hnone fs hn n

/-- C106: attempts, however many and wherever they were interrupted, while folders were made or later, leave no trace after the next complete
run: it makes the remaining folders, changes the same files in the same way, ends the same way and leaves the same tree as a run that was
never interrupted. -/
theorem link_recovery (T : LinkDisk) (hT : T.Sound) (hc : T.isDir H.cwd = true) (inputs : List PathStr) (suffix : List Char) (o : PathStr)
    (ho : o ≠ []) (ls : List Place) (hls : H.linkCreateDirAll T (parsePath o) = (ls, none)) (dir : Place)
    (hdir : LinkOutputsIn H (T.addDirs ls) (some o) dir)
    (hio : ∀ i ∈ inputs, ∀ stem ext, NamedAs i stem ext → ∀ j ∈ inputs,
      (H.linkWorld (T.addDirs ls)).resolve (OutName stem ext suffix (some (absolute dir))) ≠ (H.linkWorld (T.addDirs ls)).resolve j)
    (cuts : List Nat) :
    let T' := H.linkAttempts inputs suffix o T cuts
    (∃ m, (H.linkProcess T' inputs (some suffix) (some o)).1 = ls.drop m) ∧
      (H.linkProcess T' inputs (some suffix) (some o)).2 = (H.linkProcess T inputs (some suffix) (some o)).2 ∧
      H.linkCompleted inputs suffix o T' = H.linkCompleted inputs suffix o T := by
  intro T'
  have hU : ∀ (cuts : List Nat) (T₁ : LinkDisk), Underway H T inputs suffix ls dir T₁ →
      Underway H T inputs suffix ls dir (cuts.foldl (H.linkAttempt inputs suffix o) T₁) := by
    intro cuts
    induction cuts with
    | nil => exact fun _ h => h
    | cons n cuts ih => exact fun T₁ h => ih _ (underway_step H T hT hc inputs suffix o ho ls hls dir hdir T₁ h n)
  have h : Underway H T inputs suffix ls dir T' := hU cuts T (Or.inl ⟨0, rfl⟩)
  obtain ⟨hadd0, hrun0⟩ := link_run_part H T hT inputs suffix o ho ls hls dir hdir 0
  have hrun0' : H.linkProcess T inputs (some suffix) (some o) =
      (ls, (⟨suffix, some (absolute dir), inputs⟩ : Command).alone (H.linkWorld (T.addDirs ls)) T.files) := hrun0
  rcases h with ⟨m, hT'⟩ | ⟨cuts', hT', hS', hn⟩
  · obtain ⟨hadd, hrun⟩ := link_run_part H T hT inputs suffix o ho ls hls dir hdir m
    rw [hT']
    unfold Host.linkCompleted
    rw [hrun, hrun0']
    refine ⟨⟨m, rfl⟩, rfl, ?_⟩
    dsimp only
    rw [hadd, addDirs_files]
  · have hw : ∀ l ∈ (⟨suffix, some (absolute dir), inputs⟩ : Command).writes (H.linkWorld (T.addDirs ls)),
        l ∉ (⟨suffix, some (absolute dir), inputs⟩ : Command).reads (H.linkWorld (T.addDirs ls)) := by
      rintro l ⟨i, hi, stem, ext, hnm, rfl⟩ ⟨j, hj, he⟩
      exact hio i hi stem ext hnm j hj he
    obtain ⟨r1, r2⟩ := recovery (H.linkWorld (T.addDirs ls)) ⟨suffix, some (absolute dir), inputs⟩ hw T.files cuts'
    generalize hfs : attempts (H.linkWorld (T.addDirs ls)) ⟨suffix, some (absolute dir), inputs⟩ T.files cuts' = fs at hT' hn r1 r2
    rw [hT'] at hS' ⊢
    have hrun := link_run_held H (T.addDirs ls) fs hn hS' inputs suffix o ho dir hdir
    have hff : ((T.addDirs ls).holding fs).files = fs := by
      funext l
      cases l with
      | none => exact hn.symm
      | some l => rfl
    unfold Host.linkCompleted
    rw [hrun, hrun0']
    refine ⟨⟨ls.length, by simp⟩, r1, ?_⟩
    dsimp only
    rw [hff]
    exact congrArg (T.addDirs ls).holding r2

end
end Sia
