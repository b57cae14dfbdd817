import Verif.Spec.TreeProcessesSpec
import Verif.Props.FolderRaceSafety
import Verif.Props.TreeSafetyProps

/-! C99: several processes of the tool on one tree. -/
namespace Sia

section
variable {F : Type} [FloatOps F] (H : Host F)

/-- The end of a round, for a given place. -/
def storeAt (out : PathStr) (l : Place) (marked : DynamicImage) (d : Place → Bool) : List Change × Option Panic :=
  if !d l && H.allowed l then
    match H.formatOf out with
    | none => ([.file l []], some .fileError)
    | some format =>
      let (contents, ok) := H.encode format marked
      (.file l [] :: contents.map (.file l), if ok then none else some .fileError)
  else ([], some .fileError)

/-- A round, for the content of the input and the folders there are. -/
def roundAt (j : Job) (x : PathStr) (content : Option (List UInt8)) (d : Place → Bool) : List Change × Option Panic :=
  match content with
  | none => ([], some .fileError)
  | some content =>
    match H.decode x content with
    | none => ([], some .fileError)
    | some image =>
      match watermark H.deps image (FloatOps.ofInt 100) (FloatOps.ofInt 1) 11 with
      | .error p => ([], some p)
      | .ok marked =>
        match (fileName x).bind stemExt with
        | none => ([], some .unwrapNone)
        | some (stem, ext) =>
          storeAt H (outputPath stem ext j.suffix (j.output.map fun _ => absolute (outDir H j)))
            (outDir H j ++ [stem ++ '-' :: j.suffix ++ '.' :: ext]) marked d

theorem storeAt_changes (out : PathStr) (l : Place) (marked : DynamicImage) (d : Place → Bool) :
    ∀ c ∈ (storeAt H out l marked d).1, (∃ b, c = .file l b) ∧ d l = false := by
  intro c hc
  unfold storeAt at hc
  split at hc
  · rename_i h
    rw [Bool.and_eq_true] at h
    refine ⟨?_, by simpa using h.1⟩
    split at hc
    · exact ⟨_, List.mem_singleton.mp hc⟩
    · rcases List.mem_cons.mp hc with h | h
      · exact ⟨_, h⟩
      · obtain ⟨b, _, e⟩ := List.mem_map.mp h
        exact ⟨b, e.symm⟩
  · cases hc

theorem roundAt_changes (j : Job) (x : PathStr) (hx : x ∈ j.inputs) (content : Option (List UInt8)) (d : Place → Bool) :
    ∀ c ∈ (roundAt H j x content d).1, ∃ l b, c = .file l b ∧ j.Writes H l ∧ d l = false := by
  intro c hc
  unfold roundAt at hc
  split at hc
  · cases hc
  · split at hc
    · cases hc
    · split at hc
      · cases hc
      · split at hc
        · cases hc
        · rename_i stem ext he
          obtain ⟨⟨b, h1⟩, h2⟩ := storeAt_changes H _ _ _ _ c hc
          exact ⟨_, b, h1, ⟨x, hx, stem, ext, (namedAs_iff x stem ext).mpr he, rfl⟩, h2⟩

theorem roundAt_congr (j : Job) (x : PathStr) (hx : x ∈ j.inputs) (content : Option (List UInt8)) (d d' : Place → Bool)
    (h : ∀ l, j.Writes H l → d l = d' l) : roundAt H j x content d = roundAt H j x content d' := by
  unfold roundAt
  split
  · rfl
  · split
    · rfl
    · split
      · rfl
      · split
        · rfl
        · rename_i stem ext he
          unfold storeAt
          rw [h _ ⟨x, hx, stem, ext, (namedAs_iff x stem ext).mpr he, rfl⟩]

omit [FloatOps F] in
theorem find_way {D : Disk} (hD : D.Sound) (p : RawPath) (hn : ∀ n ∈ p.parts, ProperName n) (he : p.isEmpty = false)
    (h : D.isDir (wayEnd H p) = true) : D.find H.cwd p = .ok (wayEnd H p) := by
  unfold Disk.find
  rw [he]
  simp only [Bool.false_eq_true, if_false]
  rw [← onWay_last] at h
  have := walk_way H hD p hn p.parts.length h
  rw [onWay_last, List.take_length] at this
  exact this

/-- A round in a tree in which the input is found and the output folder is there. -/
theorem input_round {D T : Disk} (hT : T.Sound) (hg : ∀ l, D.isDir l = true → T.isDir l = true) (hc : T.isDir H.cwd = true) (j : Job)
    (hj : j.Ready H D) (hd : T.isDir (outDir H j) = true) (x : PathStr) (lx : Place)
    (hx : D.find H.cwd (parsePath x) = .ok lx) : H.input T j.suffix j.output x = roundAt H j x (T.content lx) T.isDir := by
  unfold Host.input roundAt
  rw [find_grows hg hx]
  dsimp only
  cases T.content lx with
  | none => rfl
  | some content =>
    dsimp only
    cases H.decode x content with
    | none => rfl
    | some image =>
      dsimp only
      cases watermark H.deps image (FloatOps.ofInt 100) (FloatOps.ofInt 1) 11 with
      | error p => rfl
      | ok marked =>
        dsimp only
        cases he : (fileName x).bind stemExt with
        | none => rfl
        | some se =>
          obtain ⟨stem, ext⟩ := se
          dsimp only
          have hname := output_name_proper x stem ext j.suffix ((namedAs_iff x stem ext).mpr he) hj.suffix
          have hnm : stem ++ ['-'] ++ j.suffix ++ ['.'] ++ ext = stem ++ '-' :: j.suffix ++ '.' :: ext := by simp
          cases ho : j.output with
          | none =>
            dsimp only [Option.map]
            have hf : T.find H.cwd (parsePath (outputPath stem ext j.suffix none)) = .ok (outDir H j ++ [stem ++ '-' :: j.suffix ++ '.' :: ext]) := by
              unfold outputPath outDir
              rw [ho, hnm]
              exact find_here T H.cwd hc _ hname
            unfold Host.store storeAt
            rw [hf]
            rfl
          | some o =>
            obtain ⟨hne, hw⟩ := hj.way o ho
            have hod : outDir H j = wayEnd H (parsePath o) := by
              unfold outDir
              rw [ho]
            have hcan : H.canonicalize T o = some (absolute (outDir H j)) := by
              unfold Host.canonicalize
              rw [find_way H hT (parsePath o) hw.names (parse_nonempty o hne) (hod ▸ hd), hod]
              dsimp only
              rw [if_pos]
              unfold Disk.occupied
              rw [← hod, hd, Bool.true_or]
            dsimp only [Option.map]
            rw [hcan]
            have hf : T.find H.cwd (parsePath (outputPath stem ext j.suffix (some (absolute (outDir H j))))) =
                .ok (outDir H j ++ [stem ++ '-' :: j.suffix ++ '.' :: ext]) := by
              unfold outputPath
              dsimp only
              rw [hnm]
              exact find_inside hT H.cwd (outDir H j) hd _ hname
            dsimp only
            unfold Host.store storeAt
            rw [hf]
            rfl

variable {ι : Type}

/-- A tree that has grown out of `D` only by folders on the ways of the processes (and by files). -/
structure GrownOnWays (D : Disk) (jobs : ι → Job) (T : Disk) : Prop where
  sound : T.Sound
  grows : ∀ l, D.isDir l = true → T.isDir l = true
  made : ∀ l, T.isDir l = true → D.isDir l = true ∨ ∃ i, (jobs i).Passes H l

omit [FloatOps F] in
theorem writes_not_passed (j : Job) (l : Place) (h : j.Writes H l) : ¬ j.Passes H l := by
  rintro ⟨o, ho, k, hk, rfl⟩
  obtain ⟨x, _, stem, ext, _, e⟩ := h
  have hod : outDir H j = wayEnd H (parsePath o) := by
    unfold outDir
    rw [ho]
  rw [hod] at e
  have := congrArg List.length e
  unfold onWay wayEnd at this
  simp only [List.length_append, List.length_take, List.length_singleton] at this
  omega

omit [FloatOps F] in
/-- At an output there is a folder only if there was one at the beginning. -/
theorem writes_isDir {D T : Disk} {jobs : ι → Job} (ha : JobsApart H D jobs) (hT : GrownOnWays H D jobs T) (i : ι) (l : Place)
    (hl : (jobs i).Writes H l) : T.isDir l = D.isDir l := by
  cases h : D.isDir l with
  | true => exact hT.grows l h
  | false =>
    rw [Bool.eq_false_iff]
    intro ht
    rcases hT.made l ht with h' | ⟨j, hj⟩
    · rw [h] at h'
      cases h'
    · by_cases e : i = j
      · subst e
        exact writes_not_passed H _ l hl hj
      · exact (ha i j e l hl).2.2 hj

omit [FloatOps F] in
/-- Writing an output leaves such a tree. -/
theorem grown_put {D T : Disk} {jobs : ι → Job} (ha : JobsApart H D jobs) (hT : GrownOnWays H D jobs T) (i : ι) (hr : (jobs i).Ready H D) (l : Place)
    (hl : (jobs i).Writes H l) (hd : D.isDir l = false) (hdir : T.isDir (outDir H (jobs i)) = true) (b : List UInt8) :
    GrownOnWays H D jobs (T.put l b) := by
  refine ⟨put_sound hT.sound l ⟨?_, ?_⟩ b, hT.grows, hT.made⟩
  · rw [writes_isDir H ha hT i l hl]
    exact hd
  · obtain ⟨x, _, stem, ext, hn, rfl⟩ := hl
    exact ⟨_, _, rfl, hdir, output_name_proper x stem ext _ hn hr.suffix⟩

/-- The tree a process finds when its output folder has been made, if it is alone. -/
theorem prepared_facts {D : Disk} (hD : D.Sound) (hc : D.isDir H.cwd = true) (jobs : ι → Job) (i : ι) (hr : (jobs i).Ready H D) :
    let A := H.prepared D (jobs i).output
    GrownOnWays H D jobs A ∧ A.content = D.content ∧ A.isDir (outDir H (jobs i)) = true ∧
      ∀ o, (jobs i).output = some o → (H.createDirAll D (parsePath o)).2 = none ∧
        (!D.dirAt H.cwd (parsePath o) && D.existsAt H.cwd (parsePath o)) = false := by
  intro A
  cases ho : (jobs i).output with
  | none =>
    have e : A = D := by
      show H.prepared D (jobs i).output = D
      rw [ho]
      rfl
    rw [e]
    refine ⟨⟨hD, fun _ h => h, fun _ h => .inl h⟩, rfl, ?_, fun _ h => by cases h⟩
    unfold outDir
    rw [ho]
    exact hc
  | some o =>
    obtain ⟨hne, hw⟩ := hr.way o ho
    obtain ⟨m1, m2, _⟩ := folder_made_iff H D hD (parsePath o).abs (parsePath o).parts hw.names hc
    have hok : (H.createDirAll D (parsePath o)).2 = none := m1.mpr fun k hk => ⟨hw.noFile k hk, hw.mayMake k hk⟩
    have hmem := m2 hok
    have e : A = D.addDirs (H.createDirAll D (parsePath o)).1 := by
      show H.prepared D (jobs i).output = _
      rw [ho]
      rfl
    have hsound := (tree_sound H D hD hc [] (some []) (some o) ((H.createDirAll D (parsePath o)).1.map .folder) (by
      unfold Host.process
      dsimp only
      split
      · rename_i hb
        rw [Bool.and_eq_true] at hb
        exfalso
        have h1 := existsAt_way H (parsePath o) hw hb.2
        have h2 := dirAt_way H hD (parsePath o) hw.names (parsePath o).parts.length (by rw [wayPath_last]; exact parse_nonempty o hne) (by rw [onWay_last]; exact h1)
        rw [wayPath_last] at h2
        rw [h2] at hb
        cases hb.1
      · split
        · rename_i h
          rw [h] at hok
          cases hok
        · rename_i ls h
          rw [h]
          exact List.prefix_append _ _)).1
    rw [changes_folders] at hsound
    refine ⟨⟨e ▸ hsound, fun l h => ?_, fun l h => ?_⟩, ?_, ?_, ?_⟩
    · rw [e]
      exact (addDirs_isDir D _ l).mpr (.inl h)
    · rw [e] at h
      rcases (addDirs_isDir D _ l).mp h with h | h
      · exact .inl h
      · obtain ⟨_, k, hk, el⟩ := (hmem l).mp h
        exact .inr ⟨i, o, ho, k, hk, el⟩
    · rw [e]
      exact addDirs_content D _
    · have hod : outDir H (jobs i) = wayEnd H (parsePath o) := by
        unfold outDir
        rw [ho]
      rw [e, hod, addDirs_isDir]
      by_cases hx : D.isDir (wayEnd H (parsePath o)) = true
      · exact .inl hx
      · exact .inr ((hmem _).mpr ⟨by simpa using hx, _, le_rfl, (onWay_last H (parsePath o)).symm⟩)
    · intro o' ho'
      cases ho'
      refine ⟨hok, ?_⟩
      rw [Bool.eq_false_iff]
      intro hb
      rw [Bool.and_eq_true] at hb
      have h1 := existsAt_way H (parsePath o) hw hb.2
      have h2 := dirAt_way H hD (parsePath o) hw.names (parsePath o).parts.length (by rw [wayPath_last]; exact parse_nonempty o hne) (by rw [onWay_last]; exact h1)
      rw [wayPath_last] at h2
      rw [h2] at hb
      cases hb.1

/-- What a process does alone: its folders, and then the loop. -/
theorem process_ready {D : Disk} (hD : D.Sound) (hc : D.isDir H.cwd = true) (j : Job) (hr : j.Ready H D) :
    H.process D j.inputs (some j.suffix) j.output =
      ((H.madeFor D j.output).map .folder ++ (H.inputs j.suffix j.output (H.prepared D j.output) j.inputs).1,
        (H.inputs j.suffix j.output (H.prepared D j.output) j.inputs).2) := by
  obtain ⟨_, _, _, h⟩ := prepared_facts H hD hc (fun _ : Unit => j) () hr
  unfold Host.process Host.prepared Host.madeFor
  cases ho : j.output with
  | none => rfl
  | some o =>
    obtain ⟨h1, h2⟩ := h o ho
    dsimp only
    rw [h2]
    simp only [Bool.false_eq_true, if_false]
    cases hm : H.createDirAll D (parsePath o) with
    | mk ls e =>
      rw [hm] at h1
      dsimp only at h1
      subst h1
      rfl

end
end Sia
