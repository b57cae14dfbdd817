import Verif.Props.TreeProcessesSafety
import Verif.Props.FolderRaceExamples

/-! C99: processes whose output folders are apart, the result, and concrete cases. -/
namespace Sia

section
variable {F : Type} [FloatOps F] (H : Host F) {ι : Type} [DecidableEq ι]

/-- A step of a process: it stays past the check, and it makes a folder only when past it. -/
theorem advance_past (j : Job) (D : Disk) (q : TreeProc) :
    (q.prep.past = true → (H.advance j (D, q)).2.prep.past = true) ∧
    ∀ l, (H.advance j (D, q)).1.isDir l = true → D.isDir l = true ∨ (H.advance j (D, q)).2.prep.past = true := by
  by_cases hend : ∀ r, q.prep ≠ .ended r
  · rw [advance_prep H j D q hend]
    refine ⟨fun h => past_stays H _ _ _ h, fun l hl => ?_⟩
    cases hm : (H.prepare D (parsePath (j.output.getD [])) q.prep).1 with
    | some l' => exact .inr (past_stays H _ _ _ (maker_past H _ _ _ l' hm))
    | none =>
      have : (H.prepareStep (parsePath (j.output.getD [])) (D, q.prep)).1 = D := by
        show (match (H.prepare D (parsePath (j.output.getD [])) q.prep).1 with
          | none => D
          | some l => D.addDir l) = D
        rw [hm]
      rw [this] at hl
      exact .inl hl
  · push Not at hend
    obtain ⟨r, hr⟩ := hend
    have hprep : (H.advance j (D, q)).2.prep = q.prep := by
      unfold Host.advance
      dsimp only
      rw [hr]
      cases r with
      | some p => exact hr
      | none =>
        dsimp only
        split
        · rfl
        · split
          · exact hr
          · split
            · exact hr
            · rfl
    refine ⟨fun h => by rw [hprep]; exact h, fun l hl => ?_⟩
    cases r with
    | none =>
      right
      rw [hprep, hr]
      rfl
    | some p =>
      left
      unfold Host.advance at hl
      dsimp only at hl
      rw [hr] at hl
      exact hl

omit [DecidableEq ι] in
/-- A folder made in a step of a process is on its way. -/
theorem advance_made {D : Disk} (hc : D.isDir H.cwd = true) {jobs : ι → Job} (hr : ∀ i, (jobs i).Ready H D) (ha : JobsApart H D jobs)
    {disk : Disk} (hdisk : GrownOnWays H D jobs disk) (hcont : ∀ l, disk.content l ≠ D.content l → ∃ i, (jobs i).Writes H l) (i : ι)
    (q : TreeProc) (c : Nat) (h : ProcInv H D jobs disk i q c) (l : Place)
    (hl : (H.advance (jobs i) (disk, q)).1.isDir l = true) (hold : ¬ disk.isDir l = true) : (jobs i).Passes H l := by
  by_cases hend : ∀ s, q.prep ≠ .ended s
  · cases ho : (jobs i).output with
    | none => exact absurd (h.noOut ho) (hend none)
    | some o =>
      obtain ⟨hne, hw⟩ := (hr i).way o ho
      have hclear := clear_now H hr ha hdisk hcont i o ho
      obtain ⟨_, _, _, r4, _⟩ := fine_step H hdisk.grows hdisk.sound (hdisk.grows _ hc) (parsePath o) hclear q.prep (h.fine o ho)
      rw [advance_prep H (jobs i) disk q hend, ho] at hl
      rcases r4 l hl with h' | ⟨k, hk, e⟩
      · exact absurd h' hold
      · exact ⟨o, ho, k, hk, e⟩
  · exfalso
    push Not at hend
    obtain ⟨r, hr'⟩ := hend
    apply hold
    unfold Host.advance at hl
    dsimp only at hl
    rw [hr'] at hl
    cases r with
    | some p => exact hl
    | none =>
      dsimp only at hl
      split at hl
      · rename_i ch cs hp
        obtain ⟨A, don, hin, _⟩ := h.loop hr'
        obtain ⟨m, b, e, _⟩ := hin.pending ch (by rw [hp]; exact List.mem_cons_self)
        rw [e] at hl
        exact hl
      · split at hl
        · exact hl
        · split at hl
          · exact hl
          · exact hl

/-- Folders that are new are on the way of a process that is past the check. -/
theorem exec_made {D : Disk} (hD : D.Sound) (hc : D.isDir H.cwd = true) {jobs : ι → Job} (hr : ∀ i, (jobs i).Ready H D) (ha : JobsApart H D jobs)
    (w : List ι) :
    let s := TreeStage.exec H jobs D w
    ∀ l, s.disk.isDir l = true → D.isDir l = true ∨ ∃ i, (s.proc i).prep.past = true ∧ (jobs i).Passes H l := by
  induction w using List.reverseRecOn with
  | nil => exact fun l h => .inl h
  | append_singleton w i ih =>
    have e : TreeStage.exec H jobs D (w ++ [i]) = (TreeStage.exec H jobs D w).step H jobs i := by
      unfold TreeStage.exec
      rw [List.foldl_append]
      rfl
    have hinv := exec_inv H hD hc hr ha w
    rw [e]
    generalize TreeStage.exec H jobs D w = s at ih hinv
    obtain ⟨g1, g2, g3⟩ := hinv
    obtain ⟨p1, p2⟩ := advance_past H (jobs i) s.disk (s.proc i)
    intro s' l hl
    have hl' : (H.advance (jobs i) (s.disk, s.proc i)).1.isDir l = true := hl
    by_cases hold : s.disk.isDir l = true
    · rcases ih l hold with h | ⟨j, h1, h2⟩
      · exact .inl h
      · refine .inr ⟨j, ?_, h2⟩
        show (if j = i then (H.advance (jobs i) (s.disk, s.proc i)).2 else s.proc j).prep.past = true
        by_cases hji : j = i
        · subst hji
          rw [if_pos rfl]
          exact p1 h1
        · rw [if_neg hji]
          exact h1
    · refine .inr ⟨i, ?_, ?_⟩
      · show (if i = i then (H.advance (jobs i) (s.disk, s.proc i)).2 else s.proc i).prep.past = true
        rw [if_pos rfl]
        exact (p2 l hl').resolve_left hold
      · exact advance_made H hc hr ha g1 g2 i (s.proc i) _ (g3 i) l hl' hold

/-- C99: a process whose output folder was there at the beginning, or is not on the way to the output folder of another process (or which has
no `-o`), never gives up: after the bounded number of steps it is done, as it would be alone. -/
theorem tree_processes_apart (D : Disk) (hD : D.Sound) (hc : D.isDir H.cwd = true) (jobs : ι → Job) (hr : ∀ i, (jobs i).Ready H D)
    (ha : JobsApart H D jobs) (w : List ι) (i : ι)
    (hi : D.isDir (outDir H (jobs i)) = true ∨ ∀ j, j ≠ i → ¬ (jobs j).Passes H (outDir H (jobs i)))
    (hw : 3 * (parsePath ((jobs i).output.getD [])).parts.length + 5 + (jobs i).inputs.length +
      (H.process D (jobs i).inputs (some (jobs i).suffix) (jobs i).output).1.length ≤ w.count i) :
    let s := TreeStage.exec H jobs D w
    let alone := H.process D (jobs i).inputs (some (jobs i).suffix) (jobs i).output
    (s.proc i).Done ∧ (s.proc i).stop = alone.2 ∧
      ∀ l, (jobs i).Writes H l ∨ (jobs i).Reads H D l → s.disk.content l = (D.changes alone.1).content l := by
  intro s alone
  have hdone : (s.proc i).Done := by
    rcases tree_processes_end H D hD hc jobs hr ha w i hw with h | ⟨h, hd⟩
    · exact h
    · exfalso
      rcases hi with hi | hi
      · rw [hd] at hi
        cases hi
      · have hinv := (exec_inv H hD hc hr ha w).2.2 i
        have hx : s.disk.isDir (outDir H (jobs i)) = true := by
          cases ho : (jobs i).output with
          | none =>
            have := hinv.noOut ho
            rw [h] at this
            cases this
          | some o =>
            have hf := hinv.fine o ho
            rw [h] at hf
            unfold outDir
            rw [ho]
            exact hf.2.2
        rcases exec_made H hD hc hr ha w _ hx with h' | ⟨j, hp, hpass⟩
        · rw [hd] at h'
          cases h'
        · by_cases hji : j = i
          · subst hji
            rw [h] at hp
            cases hp
          · exact hi j hji hpass
  exact ⟨hdone, (tree_processes_alone H D hD hc jobs hr ha w i).2.1 hdone⟩

/-- C99: when all processes are done, the tree does not depend on the schedule: the folders are those there were and those on the ways; the
files are those there were, and the outputs as each process makes them alone. -/
theorem tree_processes_result (D : Disk) (hD : D.Sound) (hc : D.isDir H.cwd = true) (jobs : ι → Job) (hr : ∀ i, (jobs i).Ready H D)
    (ha : JobsApart H D jobs) (w : List ι) (hdone : ∀ i, ((TreeStage.exec H jobs D w).proc i).Done) :
    let s := TreeStage.exec H jobs D w
    (∀ l, s.disk.isDir l = true ↔ D.isDir l = true ∨ ∃ i, (jobs i).Passes H l) ∧
    ∀ w', (∀ i, ((TreeStage.exec H jobs D w').proc i).Done) → (TreeStage.exec H jobs D w').disk = s.disk := by
  have dirs : ∀ w, (∀ i, ((TreeStage.exec H jobs D w).proc i).Done) →
      ∀ l, (TreeStage.exec H jobs D w).disk.isDir l = true ↔ D.isDir l = true ∨ ∃ i, (jobs i).Passes H l := by
    intro w hd l
    obtain ⟨g1, g2, g3⟩ := exec_inv H hD hc hr ha w
    refine ⟨g1.made l, fun h => ?_⟩
    rcases h with h | ⟨i, o, ho, k, hk, rfl⟩
    · exact g1.grows l h
    · obtain ⟨A, don, hl, _⟩ := (g3 i).loop (hd i).1
      have hdir := hl.dir
      have hod : outDir H (jobs i) = onWay H (parsePath o) k ++ (parsePath o).parts.drop k := by
        unfold outDir onWay
        rw [ho]
        show wayEnd H (parsePath o) = _
        unfold wayEnd
        rw [List.append_assoc, List.take_append_drop]
      rw [hod] at hdir
      exact g1.sound.above _ _ hdir
  intro s
  refine ⟨dirs w hdone, fun w' hd' => ?_⟩
  have e1 : (TreeStage.exec H jobs D w').disk.isDir = s.disk.isDir := by
    funext l
    rw [Bool.eq_iff_iff]
    exact (dirs w' hd' l).trans (dirs w hdone l).symm
  have e2 : (TreeStage.exec H jobs D w').disk.content = s.disk.content := by
    funext l
    by_cases hx : ∃ i, (jobs i).Writes H l
    · obtain ⟨i, hi⟩ := hx
      rw [((tree_processes_alone H D hD hc jobs hr ha w' i).2.1 (hd' i)).2 l (.inl hi),
        ((tree_processes_alone H D hD hc jobs hr ha w i).2.1 (hdone i)).2 l (.inl hi)]
    · have h1 := (exec_inv H hD hc hr ha w').2.1 l
      have h2 := (exec_inv H hD hc hr ha w).2.1 l
      have h1' : (TreeStage.exec H jobs D w').disk.content l = D.content l := by
        by_contra h
        exact hx (h1 h)
      have h2' : s.disk.content l = D.content l := by
        by_contra h
        exact hx (h2 h)
      rw [h1', h2']
  cases hA : (TreeStage.exec H jobs D w').disk with
  | mk a b =>
    cases hB : s.disk with
    | mk a' b' =>
      rw [hA, hB] at e1 e2
      dsimp only at e1 e2
      rw [e1, e2]

end

/-- Two commands, `sia in/a.png -s wm -o new/a` and `sia in/b.png -s wm -o new/b`. -/
def toyJobs (b : Bool) : Job :=
  if b then ⟨["in/a.png".toList], "wm".toList, some "new/a".toList⟩ else ⟨["in/b.png".toList], "wm".toList, some "new/b".toList⟩

theorem toyJobs_dir (b : Bool) : outDir toyHost (toyJobs b) = ["home".toList, "new".toList, if b then "a".toList else "b".toList] := by
  cases b
  · have : parsePath "new/b".toList = ⟨false, ["new".toList, "b".toList]⟩ := by decide
    show wayEnd toyHost (parsePath "new/b".toList) = _
    rw [this]
    rfl
  · have : parsePath "new/a".toList = ⟨false, ["new".toList, "a".toList]⟩ := by decide
    show wayEnd toyHost (parsePath "new/a".toList) = _
    rw [this]
    rfl

theorem toyJobs_find (b : Bool) : ∀ input ∈ (toyJobs b).inputs, toyTree.find toyHost.cwd (parsePath input) =
    .ok ["home".toList, "in".toList, if b then "a.png".toList else "b.png".toList] := by
  intro input hi
  cases b
  · rw [List.mem_singleton.mp hi]
    have : parsePath "in/b.png".toList = ⟨false, ["in".toList, "b.png".toList]⟩ := by decide
    rw [this]
    rfl
  · rw [List.mem_singleton.mp hi]
    have : parsePath "in/a.png".toList = ⟨false, ["in".toList, "a.png".toList]⟩ := by decide
    rw [this]
    rfl

theorem toyJobs_ready (b : Bool) : (toyJobs b).Ready toyHost toyTree where
  way o ho := by
    cases b
    · cases ho
      have : parsePath "new/b".toList = ⟨false, ["new".toList, "b".toList]⟩ := by decide
      exact ⟨by decide, this ▸ toyHost_way _ (by decide)⟩
    · cases ho
      have : parsePath "new/a".toList = ⟨false, ["new".toList, "a".toList]⟩ := by decide
      exact ⟨by decide, this ▸ toyHost_way _ (by decide)⟩
  suffix := by cases b <;> decide
  inputs input hi := ⟨_, toyJobs_find b input hi, by cases b <;> decide⟩

theorem toyJobs_passes (b : Bool) (l : Place) (h : (toyJobs b).Passes toyHost l) :
    ∃ k ≤ 2, l = "home".toList :: ["new".toList, if b then "a".toList else "b".toList].take k := by
  obtain ⟨o, ho, k, hk, rfl⟩ := h
  cases b
  · cases ho
    have : parsePath "new/b".toList = ⟨false, ["new".toList, "b".toList]⟩ := by decide
    rw [this] at hk ⊢
    exact ⟨k, hk, rfl⟩
  · cases ho
    have : parsePath "new/a".toList = ⟨false, ["new".toList, "a".toList]⟩ := by decide
    rw [this] at hk ⊢
    exact ⟨k, hk, rfl⟩

theorem toyJobs_apart : JobsApart toyHost toyTree toyJobs := by
  intro i j hij l hl
  obtain ⟨x, _, stem, ext, _, e⟩ := hl
  rw [toyJobs_dir] at e
  refine ⟨?_, ?_, fun h => ?_⟩
  · rintro ⟨x', _, stem', ext', _, e'⟩
    rw [toyJobs_dir, e] at e'
    have := (List.append_inj' e' rfl).1
    cases i <;> cases j <;> first | exact hij rfl | simp at this
  · rintro ⟨x', hx', hf⟩
    rw [toyJobs_find j x' hx', e] at hf
    have := congrArg (fun r : Except Trouble Place => (r.toOption.map List.length)) hf
    simp [Except.toOption] at this
  · obtain ⟨k, hk, e'⟩ := toyJobs_passes j l h
    rw [e] at e'
    have := congrArg List.length e'
    simp only [List.length_append, List.length_cons, List.length_take, List.length_nil] at this
    omega

/-- Both commands at the same time, in any order of their steps: each ends as it would alone, and its outputs are the same. -/
example (w : List Bool)
    (h : ∀ b, 12 + (toyHost.process toyTree (toyJobs b).inputs (some (toyJobs b).suffix) (toyJobs b).output).1.length ≤ w.count b) (b : Bool) :
    let s := TreeStage.exec toyHost toyJobs toyTree w
    let alone := toyHost.process toyTree (toyJobs b).inputs (some (toyJobs b).suffix) (toyJobs b).output
    (s.proc b).Done ∧ (s.proc b).stop = alone.2 ∧
      ∀ l, (toyJobs b).Writes toyHost l ∨ (toyJobs b).Reads toyHost toyTree l → s.disk.content l = (toyTree.changes alone.1).content l := by
  refine tree_processes_apart toyHost toyTree toyTree_sound (by decide) toyJobs toyJobs_ready toyJobs_apart w b (.inr fun j hj hp => ?_) ?_
  · obtain ⟨k, hk, e⟩ := toyJobs_passes j _ hp
    rw [toyJobs_dir] at e
    have hk' : k = 0 ∨ k = 1 ∨ k = 2 := by omega
    rcases hk' with rfl | rfl | rfl <;> cases b <;> cases j <;> first | exact hj rfl | simp at e
  · refine le_trans ?_ (h b)
    have : 3 * (parsePath ((toyJobs b).output.getD [])).parts.length + 5 + (toyJobs b).inputs.length = 12 := by
      cases b <;> decide
    omega

end Sia
