import Verif.Model.CliTree
import Verif.Props.TreeExamples
import Verif.Props.ExitProps

/-! C97: the tool from its command line to the tree. -/
namespace Sia

section
variable {F : Type} [FloatOps F] (H : Host F)

/-- The path leads to a file. -/
def NamesFile (D : Disk) (o : PathStr) : Prop := ∃ l, D.find H.cwd (parsePath o) = .ok l ∧ D.content l ≠ none

omit [FloatOps F] in
theorem namesFile_iff (D : Disk) (hD : D.Sound) (o : PathStr) :
    (!D.dirAt H.cwd (parsePath o) && D.existsAt H.cwd (parsePath o)) = true ↔ NamesFile H D o := by
  unfold Disk.dirAt Disk.existsAt Disk.occupied NamesFile
  cases hf : D.find H.cwd (parsePath o) with
  | error e => simp
  | ok l =>
    simp only [Bool.and_eq_true, Bool.not_eq_true', Bool.or_eq_true, Except.ok.injEq, exists_eq_left', Option.isSome_iff_ne_none]
    constructor
    · rintro ⟨h1, h2 | h2⟩
      · rw [h1] at h2
        cases h2
      · exact h2
    · intro h
      refine ⟨?_, Or.inr h⟩
      rw [Bool.eq_false_iff]
      exact fun hd => h (hD.apart l hd)

/-- With an empty `-o` a round ends before the output is made. -/
theorem input_empty_output (D : Disk) (suffix : List Char) (i : PathStr) :
    ∃ p, p ≠ .exitOne ∧ H.input D suffix (some []) i = ([], some p) := by
  have hfind : ∀ D : Disk, D.find H.cwd (parsePath []) = .error .notFound := fun D => rfl
  unfold Host.input
  split
  · exact ⟨_, by decide, rfl⟩
  · split
    · exact ⟨_, by decide, rfl⟩
    · split
      · exact ⟨_, by decide, rfl⟩
      · rename_i image _
        have hq := quiet_watermark H.deps image (FloatOps.ofInt 100) (FloatOps.ofInt 1) 11
        split
        · rename_i p hp
          rw [hp] at hq
          exact ⟨_, fun h => hq (by rw [h]), rfl⟩
        · split
          · exact ⟨_, by decide, rfl⟩
          · have : H.canonicalize D [] = none := by
              unfold Host.canonicalize
              rw [hfind]
            dsimp only
            rw [this]
            exact ⟨_, by decide, rfl⟩

theorem process_empty_output (D : Disk) (inputs : List PathStr) (hi : inputs ≠ []) (suffix : List Char) :
    ∃ p, p ≠ .exitOne ∧ H.process D inputs (some suffix) (some []) = ([], some p) := by
  have hfind : ∀ D : Disk, D.find H.cwd (parsePath []) = .error .notFound := fun D => rfl
  have h1 : D.dirAt H.cwd (parsePath []) = false := by
    unfold Disk.dirAt
    rw [hfind]
  have h2 : D.existsAt H.cwd (parsePath []) = false := by
    unfold Disk.existsAt
    rw [hfind]
  have h3 : H.createDirAll D (parsePath []) = ([], none) := by
    rw [Host.createDirAll]
    rfl
  obtain ⟨i, rest, rfl⟩ := List.exists_cons_of_ne_nil hi
  obtain ⟨p, hp0, hp⟩ := input_empty_output H (D.addDirs []) suffix i
  refine ⟨p, hp0, ?_⟩
  unfold Host.process
  dsimp only
  rw [h1, h2, h3]
  simp only [Bool.not_false, Bool.and_false, Bool.false_eq_true, if_false]
  unfold Host.inputs
  rw [hp]
  rfl

/-- How `process` ends on a tree. -/
theorem process_ends (D : Disk) (hD : D.Sound) (hc : D.isDir H.cwd = true) (inputs : List PathStr) (hi : inputs ≠ []) (suffix : List Char)
    (output : Option PathStr) :
    let run := H.process D inputs (some suffix) output
    (run.2 = none ↔ output ≠ some [] ∧ (∀ o, output = some o → (H.createDirAll D (parsePath o)).2 = none) ∧
      ∃ dir fs', OutputsIn H (H.prepared D output) output dir ∧
        InTurn (H.world (H.prepared D output)) suffix (output.map fun _ => absolute dir) D.files inputs fs') ∧
    (run.2 = some .exitOne ↔ ∃ o, output = some o ∧ NamesFile H D o) ∧
    (run.2 = some .exitOne → run.1 = []) ∧
    ∀ dir fs', output ≠ some [] → (∀ o, output = some o → (H.createDirAll D (parsePath o)).2 = none) →
      OutputsIn H (H.prepared D output) output dir →
      InTurn (H.world (H.prepared D output)) suffix (output.map fun _ => absolute dir) D.files inputs fs' →
      ∀ l, (D.changes run.1).content l = fs' (some l) := by
  intro run
  by_cases hout : output = some []
  · subst hout
    obtain ⟨p, hp0, hp⟩ := process_empty_output H D inputs hi suffix
    have hrun : run = ([], some p) := hp
    rw [hrun]
    refine ⟨⟨fun h => by simp at h, fun h => absurd rfl h.1⟩, ⟨fun h => ?_, ?_⟩, fun _ => rfl, fun _ _ h => absurd rfl h⟩
    · simp only [Option.some.injEq] at h
      exact absurd h hp0
    · rintro ⟨o, ho, l, hl, _⟩
      cases ho
      cases hl
  · obtain ⟨t1, t2⟩ := tree_process H D hD hc inputs suffix output hout
    by_cases hok : ∀ o, output = some o → (H.createDirAll D (parsePath o)).2 = none
    · obtain ⟨hS, hG, dir, h1, h2, h3, _, h4⟩ := t2 hok
      have hdir : ∀ d, OutputsIn H (H.prepared D output) output d → d = dir := by
        intro d hd
        cases output with
        | none => exact Eq.trans (show d = H.cwd from hd) (show dir = H.cwd from h1).symm
        | some o =>
          have a1 : (H.prepared D (some o)).find H.cwd (parsePath o) = .ok d := hd
          have a2 : (H.prepared D (some o)).find H.cwd (parsePath o) = .ok dir := h1
          rw [a1] at a2
          cases a2
          rfl
      have h5 : run.2 = (processInputs (H.world (H.prepared D output)) suffix (output.map fun _ => absolute dir) D.files inputs).2 :=
        congrArg Prod.snd h3
      obtain ⟨n1, n2⟩ := processInputs_none (H.world (H.prepared D output)) suffix (output.map fun _ => absolute dir) inputs D.files
      have hno : ¬ ∃ o, output = some o ∧ NamesFile H D o := by
        rintro ⟨o, rfl, l, hl, hcl⟩
        have hl' := find_grows hG.1 hl
        have a2 : (H.prepared D (some o)).find H.cwd (parsePath o) = .ok dir := h1
        rw [hl'] at a2
        cases a2
        have := hS.apart _ h2
        rw [hG.2] at this
        exact hcl this
      have hne : run.2 ≠ some .exitOne := by
        rw [h5]
        exact processInputs_quiet _ _ _ _ _
      refine ⟨?_, ⟨fun h => absurd h hne, fun h => absurd h hno⟩, fun h => absurd h hne, ?_⟩
      · rw [h5, n1]
        constructor
        · rintro ⟨fs', h⟩
          exact ⟨hout, hok, dir, fs', h1, h⟩
        · rintro ⟨_, _, d, fs', hd, h⟩
          rw [hdir d hd] at h
          exact ⟨fs', h⟩
      · intro d fs' _ _ hd h l
        rw [hdir d hd] at h
        rw [← n2 fs' h]
        exact h4 l
    · have hok' : ∃ o, output = some o ∧ (H.createDirAll D (parsePath o)).2 ≠ none := by
        push Not at hok
        exact hok
      obtain ⟨f1, f2, f3⟩ := t1 hok'
      obtain ⟨o, rfl, ho⟩ := hok'
      refine ⟨⟨fun h => absurd h f1, fun h => absurd h.2.1 hok⟩, ?_, ?_, fun _ _ _ h => absurd h hok⟩
      · have hrun : run = H.process D inputs (some suffix) (some o) := rfl
        unfold Host.process at hrun
        dsimp only at hrun
        by_cases hb : (!D.dirAt H.cwd (parsePath o) && D.existsAt H.cwd (parsePath o)) = true
        · rw [if_pos hb] at hrun
          rw [hrun]
          exact ⟨fun _ => ⟨o, rfl, (namesFile_iff H D hD o).mp hb⟩, fun _ => rfl⟩
        · rw [if_neg hb] at hrun
          rcases hm : H.createDirAll D (parsePath o) with ⟨ls, r⟩
          rw [hm] at hrun ho
          cases r with
          | none => exact absurd rfl ho
          | some e =>
            dsimp only at hrun
            rw [hrun]
            refine ⟨fun h => (by cases h), ?_⟩
            rintro ⟨o', ho', hn⟩
            cases ho'
            exact absurd ((namesFile_iff H D hD o).mpr hn) hb
      · have hrun : run = H.process D inputs (some suffix) (some o) := rfl
        unfold Host.process at hrun
        dsimp only at hrun
        by_cases hb : (!D.dirAt H.cwd (parsePath o) && D.existsAt H.cwd (parsePath o)) = true
        · rw [if_pos hb] at hrun
          rw [hrun]
          exact fun _ => rfl
        · rw [if_neg hb] at hrun
          rcases hm : H.createDirAll D (parsePath o) with ⟨ls, r⟩
          rw [hm] at hrun ho
          cases r with
          | none => exact absurd rfl ho
          | some e =>
            dsimp only at hrun
            rw [hrun]
            intro h
            cases h

/-- How a run goes, case by case. -/
theorem main_cases (D : Disk) (program : List Char) (args : List (List Char)) :
    ((¬ ∃ is m, CommandLine is args ∧ Means is m) ∧ H.main D (program :: args) = ⟨[], none, some .badArguments⟩) ∨
    ∃ is m, CommandLine is args ∧ Means is m ∧ parseArgs args = .ok m ∧
      (((Item.help ∈ is ∨ fileNames is = []) ∧ H.main D (program :: args) = ⟨[], some (usageText program), none⟩) ∨
        (Item.help ∉ is ∧ fileNames is ≠ [] ∧ H.main D (program :: args) =
          ⟨(H.process D (fileNames is) m.suffix m.output).1, none, (H.process D (fileNames is) m.suffix m.output).2⟩)) := by
  cases hp : parseArgs args with
  | error e =>
    refine .inl ⟨?_, by unfold Host.main; dsimp only; rw [hp]⟩
    rintro ⟨is, m, hc, hm⟩
    have := (command_line_read args m).mpr ⟨is, hc, hm⟩
    rw [hp] at this
    cases this
  | ok m =>
    obtain ⟨is, hc, hm⟩ := (command_line_read args m).mp hp
    refine .inr ⟨is, m, hc, hm, rfl, ?_⟩
    have hr : H.main D (program :: args) = if m.help then ⟨[], some (usageText program), none⟩
      else if m.free = [] then ⟨[], some (usageText program), none⟩
      else ⟨(H.process D m.free m.suffix m.output).1, none, (H.process D m.free m.suffix m.output).2⟩ := by
      unfold Host.main
      dsimp only
      rw [hp]
    by_cases h1 : m.help = true
    · exact .inl ⟨.inl (hm.help.mp h1), by rw [hr, if_pos h1]⟩
    · have h1' : Item.help ∉ is := fun h => h1 (hm.help.mpr h)
      rw [if_neg h1] at hr
      by_cases h2 : m.free = []
      · exact .inl ⟨.inr (by rw [← hm.files, h2]), by rw [hr, if_pos h2]⟩
      · rw [if_neg h2, hm.files] at hr
        exact .inr ⟨h1', by rw [← hm.files]; exact h2, hr⟩

/-- C97: the exit status of a run on a tree. It is 0 exactly if the command line was understood and asked for no work, or the `-o` folder (if
any) can be made and every input, in turn, is read, decoded, marked and stored; 1 exactly if there is work and `-o` names a file, and then
nothing has changed; 101 in every other case. -/
theorem main_status (D : Disk) (hD : D.Sound) (hc : D.isDir H.cwd = true) (program : List Char) (args : List (List Char)) :
    let run := H.main D (program :: args)
    (exitStatus run.stop = 0 ↔ ∃ is m, CommandLine is args ∧ Means is m ∧
      ((Item.help ∈ is ∨ fileNames is = [] ∨ suffixValues is = []) ∨
        ∃ suffix output, suffixValues is = [suffix] ∧ outputValues is = Option.toList output ∧ output ≠ some [] ∧
          (∀ o, output = some o → (H.createDirAll D (parsePath o)).2 = none) ∧
          ∃ dir fs', OutputsIn H (H.prepared D output) output dir ∧
            InTurn (H.world (H.prepared D output)) suffix (output.map fun _ => absolute dir) D.files (fileNames is) fs')) ∧
    (exitStatus run.stop = 1 ↔ ∃ is m, CommandLine is args ∧ Means is m ∧
      Item.help ∉ is ∧ fileNames is ≠ [] ∧ suffixValues is ≠ [] ∧ ∃ o, outputValues is = [o] ∧ NamesFile H D o) ∧
    (exitStatus run.stop = 1 → run.changes = []) ∧
    (exitStatus run.stop = 0 ∨ exitStatus run.stop = 1 ∨ exitStatus run.stop = 101) := by
  intro run
  have hrun : run = H.main D (program :: args) := rfl
  refine ⟨?_, ?_, ?_, (exitStatus_values _).2.2⟩
  all_goals simp only [(exitStatus_values _).1, (exitStatus_values _).2.1]
  all_goals
    rcases main_cases H D program args with ⟨hno, hr⟩ | ⟨is, m, hcl, hm, hp, ⟨hw, hr⟩ | ⟨hw1, hw2, hr⟩⟩
  all_goals rw [hrun, hr]
  · refine ⟨fun h => (by cases h), ?_⟩
    rintro ⟨is, m, hcl, hm, _⟩
    exact (hno ⟨is, m, hcl, hm⟩).elim
  · refine ⟨fun _ => ⟨is, m, hcl, hm, .inl ?_⟩, fun _ => rfl⟩
    rcases hw with h | h
    · exact .inl h
    · exact .inr (.inl h)
  · rw [read_as args m hp (fun help files suffixes outputs => (help ∨ files = [] ∨ suffixes = []) ∨ ∃ suffix output, suffixes = [suffix] ∧
        outputs = Option.toList output ∧ output ≠ some [] ∧ (∀ o, output = some o → (H.createDirAll D (parsePath o)).2 = none) ∧
          ∃ dir fs', OutputsIn H (H.prepared D output) output dir ∧
            InTurn (H.world (H.prepared D output)) suffix (output.map fun _ => absolute dir) D.files files fs')]
    cases hs : m.suffix with
    | none => exact ⟨fun _ => .inl (.inr (.inr rfl)), fun _ => rfl⟩
    | some s =>
      obtain ⟨e1, _⟩ := process_ends H D hD hc (fileNames is) hw2 s m.output
      rw [show (TreeRun.mk (H.process D (fileNames is) (some s) m.output).1 none (H.process D (fileNames is) (some s) m.output).2).stop =
        (H.process D (fileNames is) (some s) m.output).2 from rfl, e1, hm.files]
      constructor
      · rintro ⟨a, b, c⟩
        exact .inr ⟨s, m.output, rfl, rfl, a, b, c⟩
      · rintro ((h | h | h) | ⟨s', output, h1, h2, h3⟩)
        · exact absurd (hm.help.mp h) hw1
        · exact absurd h hw2
        · cases h
        · cases h1
          have : m.output = output := by
            cases ho : m.output with
            | none =>
              rw [ho] at h2
              cases output with
              | none => rfl
              | some o => cases h2
            | some o =>
              rw [ho] at h2
              cases output with
              | none => cases h2
              | some o' =>
                cases h2
                rfl
          rw [this]
          exact h3
  · refine ⟨fun h => (by cases h), ?_⟩
    rintro ⟨is, m, hcl, hm, _⟩
    exact (hno ⟨is, m, hcl, hm⟩).elim
  · rw [read_as args m hp (fun help files suffixes outputs => ¬ help ∧ files ≠ [] ∧ suffixes ≠ [] ∧ ∃ o, outputs = [o] ∧ NamesFile H D o)]
    refine ⟨fun h => (by cases h), ?_⟩
    rintro ⟨h1, h2, _⟩
    rcases hw with h | h
    · exact absurd (hm.help.mpr h) h1
    · exact absurd (hm.files.trans h) h2
  · rw [read_as args m hp (fun help files suffixes outputs => ¬ help ∧ files ≠ [] ∧ suffixes ≠ [] ∧ ∃ o, outputs = [o] ∧ NamesFile H D o)]
    cases hs : m.suffix with
    | none => exact ⟨fun h => (by cases h), fun h => absurd rfl h.2.2.1⟩
    | some s =>
      obtain ⟨_, e2, _⟩ := process_ends H D hD hc (fileNames is) hw2 s m.output
      rw [show (TreeRun.mk (H.process D (fileNames is) (some s) m.output).1 none (H.process D (fileNames is) (some s) m.output).2).stop =
        (H.process D (fileNames is) (some s) m.output).2 from rfl, e2]
      constructor
      · rintro ⟨o, ho, hn⟩
        refine ⟨fun h => hw1 (hm.help.mp h), fun h => hw2 (hm.files.symm.trans h), fun h => (by cases h), o, by rw [ho]; rfl, hn⟩
      · rintro ⟨_, _, _, o, ho, hn⟩
        refine ⟨o, ?_, hn⟩
        cases ho' : m.output with
        | none =>
          rw [ho'] at ho
          cases ho
        | some o' =>
          rw [ho'] at ho
          cases ho
          rfl
  · exact fun _ => rfl
  · exact fun _ => rfl
  · cases hs : m.suffix with
    | none => exact fun _ => rfl
    | some s => exact (process_ends H D hD hc (fileNames is) hw2 s m.output).2.2.1

/-- C97: a program started with no words at all, not even its own name, fails and changes nothing. -/
theorem main_no_words (D : Disk) : exitStatus (H.main D []).stop = 101 ∧ (H.main D []).changes = [] ∧ (H.main D []).usage = none :=
  ⟨rfl, rfl, rfl⟩

/-- C97: after a run that ended with status 0 having had work to do, the files are as the inputs, completed in turn, leave them. -/
theorem main_result (D : Disk) (hD : D.Sound) (hc : D.isDir H.cwd = true) (program : List Char) (args : List (List Char)) (is : List Item)
    (m : Matches) (hcl : CommandLine is args) (hm : Means is m) (hh : Item.help ∉ is) (hf : fileNames is ≠ []) (suffix : List Char)
    (hs : suffixValues is = [suffix]) (output : Option PathStr) (ho : outputValues is = output.toList) (hne : output ≠ some [])
    (hok : ∀ o, output = some o → (H.createDirAll D (parsePath o)).2 = none) (dir : Place)
    (hdir : OutputsIn H (H.prepared D output) output dir) (fs' : Option Place → Option (List UInt8))
    (ht : InTurn (H.world (H.prepared D output)) suffix (output.map fun _ => absolute dir) D.files (fileNames is) fs') :
    let run := H.main D (program :: args)
    run.stop = none ∧ run.usage = none ∧ (∀ l, (D.changes run.changes).content l = fs' (some l)) ∧
      ∀ l, (D.changes run.changes).isDir l = true ↔ (H.prepared D output).isDir l = true := by
  intro run
  have hrun : run = H.main D (program :: args) := rfl
  rcases main_cases H D program args with ⟨hno, hr⟩ | ⟨is', m', hcl', hm', hp, hr⟩
  · exact absurd ⟨is, m, hcl, hm⟩ hno
  have e := (command_line_read args m).mpr ⟨is, hcl, hm⟩
  rw [hp] at e
  cases e
  have ef : fileNames is' = fileNames is := hm'.files.symm.trans hm.files
  have eh : Item.help ∉ is' := fun h => hh (hm.help.mp (hm'.help.mpr h))
  have es : m.suffix = some suffix := by
    have := hm.suffix.trans hs
    cases h : m.suffix with
    | none =>
      rw [h] at this
      cases this
    | some s =>
      rw [h] at this
      cases this
      rfl
  have eo : m.output = output := by
    have := hm.output.trans ho
    cases h : m.output with
    | none =>
      rw [h] at this
      cases output with
      | none => rfl
      | some o => cases this
    | some o =>
      rw [h] at this
      cases output with
      | none => cases this
      | some o' =>
        cases this
        rfl
  rw [ef, es, eo] at hr
  rcases hr with ⟨hw, _⟩ | ⟨_, _, hr⟩
  · rcases hw with h | h
    · exact absurd h eh
    · exact absurd h hf
  · obtain ⟨e1, _, _, e4⟩ := process_ends H D hD hc (fileNames is) hf suffix output
    rw [hrun, hr]
    refine ⟨e1.mpr ⟨hne, hok, dir, fs', hdir, ht⟩, rfl, e4 dir fs' hne hok hdir ht, fun l => ?_⟩
    obtain ⟨_, _, _, _, _, _, ⟨cs, hcs, e5⟩, _⟩ := (tree_process H D hD hc (fileNames is) suffix output hne).2 hok
    show (D.changes (H.process D (fileNames is) (some suffix) output).1).isDir l = true ↔ _
    rw [e5, changes_append, changes_folders]
    rw [(changes_files H (D0 := D) (H.world D) rfl _ cs hcs).1]
    rfl

/-- C97: the usage text, word for word, for every name of the program. -/
theorem usage_text (program : List Char) : usageText program = "Usage: ".toList ++ program ++
    (" FILE [options]\n\nOptions:\n" ++
     "    -s SUFFIX           set watermarked images filenames suffix\n" ++
     "    -o OUT              set watermarked images output folder\n" ++
     "    -h, --help          print this help menu\n").toList := by
  have key : " FILE [options]".toList ++ "\n\nOptions:\n".toList ++
    ['\n'].intercalate (cliOptions.map fun g => g.line (cliOptions.any fun g => !g.short.isEmpty)) ++ ['\n'] =
    (" FILE [options]\n\nOptions:\n" ++
     "    -s SUFFIX           set watermarked images filenames suffix\n" ++
     "    -o OUT              set watermarked images output folder\n" ++
     "    -h, --help          print this help menu\n").toList := by decide +kernel
  rw [← key]
  unfold usageText usageOf
  simp only [List.append_assoc]

/-- C97: the usage text is printed exactly if the command line was understood and asks for help or names no file; then the run ends with status
0 and changes nothing. -/
theorem main_usage (D : Disk) (program : List Char) (args : List (List Char)) (t : List Char) :
    let run := H.main D (program :: args)
    (run.usage = some t ↔ t = usageText program ∧ ∃ is m, CommandLine is args ∧ Means is m ∧ (Item.help ∈ is ∨ fileNames is = [])) ∧
    (run.usage ≠ none → run.changes = [] ∧ run.stop = none) := by
  intro run
  have hrun : run = H.main D (program :: args) := rfl
  rcases main_cases H D program args with ⟨hno, hr⟩ | ⟨is, m, hcl, hm, hp, ⟨hw, hr⟩ | ⟨hw1, hw2, hr⟩⟩
  all_goals rw [hrun, hr]
  · refine ⟨⟨fun h => (by cases h), ?_⟩, fun h => absurd rfl h⟩
    rintro ⟨_, is, m, hcl, hm, _⟩
    exact (hno ⟨is, m, hcl, hm⟩).elim
  · refine ⟨⟨fun h => ?_, ?_⟩, fun _ => ⟨rfl, rfl⟩⟩
    · cases h
      exact ⟨rfl, is, m, hcl, hm, hw⟩
    · rintro ⟨rfl, _⟩
      rfl
  · refine ⟨⟨fun h => (by cases h), ?_⟩, fun h => absurd rfl h⟩
    rw [read_as args m hp (fun help files _ _ => help ∨ files = [])]
    rintro ⟨_, h | h⟩
    · exact absurd (hm.help.mp h) hw1
    · exact absurd (hm.files.symm.trans h) hw2

/-- C97: whatever the command line, at whatever point the run is interrupted: the tree is a tree, no folder and no file is gone, new folders
are those made for the value of `-o`, and a file that has changed is the output, for one of the files named, of a command line that was
understood — in the output folder, if the suffix has no slash. -/
theorem main_safe (D : Disk) (hD : D.Sound) (hc : D.isDir H.cwd = true) (argv : List (List Char)) (cs : List Change)
    (hcs : cs <+: (H.main D argv).changes) :
    (D.changes cs).Sound ∧ (∀ l, D.isDir l = true → (D.changes cs).isDir l = true) ∧
    (∀ l, D.content l ≠ none → (D.changes cs).content l ≠ none) ∧
    (cs ≠ [] → ∃ program args is m suffix, argv = program :: args ∧ CommandLine is args ∧ Means is m ∧ Item.help ∉ is ∧
      suffixValues is = [suffix] ∧
      (∀ l, (D.changes cs).isDir l = true → D.isDir l = true ∨ ∃ o, outputValues is = [o] ∧ l ∈ H.madeFor D (some o)) ∧
      ∀ l, '/' ∉ suffix → (D.changes cs).content l ≠ D.content l → ∃ output dir, outputValues is = Option.toList output ∧
        OutputsIn H (H.prepared D output) output dir ∧ (H.prepared D output).isDir dir = true ∧
        ∃ input ∈ fileNames is, ∃ stem ext, NamedAs input stem ext ∧ l = dir ++ [stem ++ '-' :: suffix ++ '.' :: ext]) := by
  by_cases hnil : (H.main D argv).changes = []
  · rw [hnil, List.prefix_nil] at hcs
    subst hcs
    exact ⟨hD, fun _ h => h, fun _ h => h, fun h => absurd rfl h⟩
  cases argv with
  | nil => exact absurd rfl hnil
  | cons program args =>
    rcases main_cases H D program args with ⟨hno, hr⟩ | ⟨is, m, hcl, hm, hp, ⟨hw, hr⟩ | ⟨hw1, hw2, hr⟩⟩
    · exact absurd (by rw [hr]) hnil
    · exact absurd (by rw [hr]) hnil
    · rw [hr] at hcs hnil
      have hcs' : cs <+: (H.process D (fileNames is) m.suffix m.output).1 := hcs
      obtain ⟨s1, s2, s3, s4⟩ := tree_sound H D hD hc (fileNames is) m.suffix m.output cs hcs'
      refine ⟨s1, s2, s4, fun _ => ?_⟩
      cases hs : m.suffix with
      | none =>
        rw [hs] at hnil
        exact absurd rfl hnil
      | some suffix =>
        rw [hs] at hcs'
        refine ⟨program, args, is, m, suffix, rfl, hcl, hm, hw1, ?_, fun l hl => ?_, fun l hsl hl => ?_⟩
        · rw [← hm.suffix, hs]
          rfl
        · rcases s3 l hl with h | h
          · exact .inl h
          · refine .inr ?_
            cases ho : m.output with
            | none =>
              rw [ho] at h
              exact absurd h List.not_mem_nil
            | some o =>
              rw [ho] at h
              exact ⟨o, by rw [← hm.output, ho]; rfl, h⟩
        · by_cases hout : m.output = some []
          · obtain ⟨p, _, hp'⟩ := process_empty_output H D (fileNames is) hw2 suffix
            rw [hout, hp', List.prefix_nil] at hcs'
            rw [hcs'] at hl
            exact absurd rfl hl
          · obtain ⟨dir, d1, d2, d3⟩ := outputs_in_folder H D hD hc (fileNames is) suffix m.output hout hsl cs hcs' l hl
            exact ⟨m.output, dir, hm.output.symm, d1, d2, d3⟩

/-- C97: the usual command line, with files before, between and after the options. -/
theorem main_usual (D : Disk) (program : List Char) (f1 f2 f3 : List (List Char)) (h1 : ∀ f ∈ f1 ++ f2 ++ f3, f.head? ≠ some '-')
    (hne : f1 ++ f2 ++ f3 ≠ []) (suffix out : List Char) :
    H.main D (program :: (f1 ++ ["-s".toList, suffix] ++ f2 ++ ["-o".toList, out] ++ f3)) =
      ⟨(H.process D (f1 ++ f2 ++ f3) (some suffix) (some out)).1, none, (H.process D (f1 ++ f2 ++ f3) (some suffix) (some out)).2⟩ := by
  unfold Host.main
  dsimp only
  rw [usual_command_line f1 f2 f3 h1 suffix out]
  dsimp only
  rw [if_neg (by simp), if_neg hne]

end

/-- From `process` to `main`. -/
theorem toyHost_main_facts (run : TreeRun) (p : List Change × Option Panic) (h : run = ⟨p.1, none, p.2⟩) (hb : ∃ v,
    p.2 = none ∧
      (toyTree.changes p.1).content ["home".toList, "new".toList, "dir".toList, "a-wm.png".toList] = some [1, v] ∧
      (toyTree.changes p.1).content ["home".toList, "new".toList, "dir".toList, "b-wm.png".toList] = some [1, v] ∧
      (toyTree.changes p.1).content ["home".toList, "in".toList, "a.png".toList] = some [7]) : ∃ v,
    exitStatus run.stop = 0 ∧
      (toyTree.changes run.changes).content ["home".toList, "new".toList, "dir".toList, "a-wm.png".toList] = some [1, v] ∧
      (toyTree.changes run.changes).content ["home".toList, "new".toList, "dir".toList, "b-wm.png".toList] = some [1, v] ∧
      (toyTree.changes run.changes).content ["home".toList, "in".toList, "a.png".toList] = some [7] := by
  subst h
  obtain ⟨v, b1, b2⟩ := hb
  exact ⟨v, (exitStatus_values _).1.mpr b1, b2⟩

/-- `sia in/a.png -s wm -o new/dir in/b.png` on the tree of the examples: status 0, both outputs in the new folder. -/
theorem toyHost_main : ∃ v,
    let run := toyHost.main toyTree ("sia".toList :: (["in/a.png".toList] ++ ["-s".toList, "wm".toList] ++ [] ++ ["-o".toList, "new/dir".toList] ++
      ["in/b.png".toList]))
    exitStatus run.stop = 0 ∧
      (toyTree.changes run.changes).content ["home".toList, "new".toList, "dir".toList, "a-wm.png".toList] = some [1, v] ∧
      (toyTree.changes run.changes).content ["home".toList, "new".toList, "dir".toList, "b-wm.png".toList] = some [1, v] ∧
      (toyTree.changes run.changes).content ["home".toList, "in".toList, "a.png".toList] = some [7] := by
  have e : ["in/a.png".toList] ++ [] ++ ["in/b.png".toList] = ["in/a.png".toList, "in/b.png".toList] := by decide
  have h := main_usual toyHost toyTree "sia".toList ["in/a.png".toList] [] ["in/b.png".toList] (by decide) (by decide) "wm".toList
    "new/dir".toList
  rw [e] at h
  exact toyHost_main_facts _ _ h toyHost_batch

/-- `sia -h in/a.png`: the usage text, nothing else. -/
example : (toyHost.main toyTree ["sia".toList, "-h".toList, "in/a.png".toList]).usage = some (usageText "sia".toList) :=
  ((main_usage toyHost toyTree "sia".toList ["-h".toList, "in/a.png".toList] _).1).mpr
    ⟨rfl, [.help, .file "in/a.png".toList], ⟨true, none, none, ["in/a.png".toList]⟩,
      CommandLine.more [.help] _ ["-h".toList] _ (by have := Words.flags 1 le_rfl; exact this)
        (CommandLine.more [_] [] [_] [] (.file _ (.inl (by decide))) .done),
      ⟨rfl, rfl, rfl, by simp, by decide⟩, .inl (by simp)⟩

/-- `sia in/a.png -s wm -o note`: status 1. -/
example : exitStatus (toyHost.main toyTree ("sia".toList :: (["in/a.png".toList] ++ ["-s".toList, "wm".toList] ++ [] ++
    ["-o".toList, "note".toList] ++ []))).stop = 1 := by
  rw [main_usual toyHost toyTree "sia".toList ["in/a.png".toList] [] [] (by decide) (by decide) "wm".toList "note".toList]
  have e : ["in/a.png".toList] ++ [] ++ [] = ["in/a.png".toList] := by decide
  rw [e, output_is_file toyHost toyTree toyTree_sound _ _ _ ["home".toList, "note".toList] (by
    have : parsePath "note".toList = ⟨false, ["note".toList]⟩ := by decide
    rw [this]
    rfl) (by decide)]
  rfl

end Sia
