import Verif.Spec.LinkMainSpec
import Verif.Props.LinkRunExamples
import Verif.Props.TreeMainProps

/-! C104: the tool from its command line to a tree with symbolic links. -/
namespace Sia

section
variable {F : Type} (H : Host F) {T : LinkDisk}

/-- The folder the outputs go to is one place. -/
theorem linkOutputsIn_one (output : Option PathStr) (d dir : Place) (h1 : LinkOutputsIn H T output d) (h2 : LinkOutputsIn H T output dir) :
    d = dir := by
  cases output with
  | none => exact Eq.trans h1.2 h2.2.symm
  | some o =>
    have a1 : T.find H.cwd (parsePath o) = .ok d := h1.2
    have a2 : T.find H.cwd (parsePath o) = .ok dir := h2.2
    rw [a1] at a2
    exact Except.ok.inj a2

variable [FloatOps F]

theorem link_blocked_iff (hT : T.Sound) (o : PathStr) : (H.linkWorld T).blocked o = true ↔ LinkNamesFile H T o := by
  show (match T.find H.cwd (parsePath o) with | .ok l => !T.isDir l && T.occupied l | .error _ => false) = true ↔ _
  unfold LinkNamesFile
  cases T.find H.cwd (parsePath o) with
  | error e => simp
  | ok l =>
    simp only [Except.ok.injEq, exists_eq_left', Disk.occupied, Bool.and_eq_true, Bool.not_eq_true', Bool.or_eq_true, Option.isSome_iff_ne_none]
    constructor
    · rintro ⟨h1, h2 | h2⟩
      · rw [h1] at h2
        cases h2
      · exact h2
    · intro h
      refine ⟨?_, Or.inr h⟩
      rw [Bool.eq_false_iff]
      exact fun hd => h (hT.tree.apart l hd)

/-- C104: with an empty `-o` nothing is made or changed, and the run fails. -/
theorem link_empty_output (inputs : List PathStr) (suffix : List Char) :
    H.linkProcess T inputs (some suffix) (some []) = ([], [], some .fileError) := by
  have hfind : ∀ T : LinkDisk, T.find H.cwd (parsePath []) = .error .notFound := fun T => rfl
  have hb : ∀ T : LinkDisk, (H.linkWorld T).blocked [] = false := by
    intro T
    show (match T.find H.cwd (parsePath []) with | .ok l => !T.isDir l && T.occupied l | .error _ => false) = false
    rw [hfind]
  have hf : ∀ T : LinkDisk, (H.linkWorld T).folder [] = none := by
    intro T
    show (match T.find H.cwd (parsePath []) with | .ok l => if T.occupied l then some (absolute l) else none | .error _ => none) = none
    rw [hfind]
  have h3 : H.linkCreateDirAll T (parsePath []) = ([], none) := by
    rw [Host.linkCreateDirAll]
    rfl
  unfold Host.linkProcess
  dsimp only
  rw [if_neg (fun h' => by
    have h'' : (H.linkWorld T).blocked [] = true := h'
    rw [hb] at h''
    cases h''), h3]
  dsimp only
  rw [process_missing _ _ inputs suffix [] (hb _) (hf _)]

/-- How `process` ends on a tree with links. -/
theorem link_process_ends (hT : T.Sound) (hc : T.isDir H.cwd = true) (inputs : List PathStr) (suffix : List Char) (output : Option PathStr) :
    let run := H.linkProcess T inputs (some suffix) output
    let ready := H.linkPrepared T output
    (run.2.2 = none ↔ (∀ o, output = some o → (H.linkCreateDirAll T (parsePath o)).2 = none) ∧
      ∃ dir fs', LinkOutputsIn H ready output dir ∧
        InTurn (H.linkWorld ready) suffix (output.map fun _ => absolute dir) T.files inputs fs') ∧
    (run.2.2 = some .exitOne ↔ ∃ o, output = some o ∧ LinkNamesFile H T o) ∧
    (run.2.2 = some .exitOne → run.1 = [] ∧ run.2.1 = []) ∧
    ∀ dir fs', (∀ o, output = some o → (H.linkCreateDirAll T (parsePath o)).2 = none) → LinkOutputsIn H ready output dir →
      InTurn (H.linkWorld ready) suffix (output.map fun _ => absolute dir) T.files inputs fs' →
      T.addDirs run.1 = ready ∧ (H.linkWorld ready).after T.files run.2.1 = fs' := by
  intro run ready
  have hgo : ∀ ls, run = (ls, process (H.linkWorld ready) T.files inputs (some suffix) output) → T.addDirs ls = ready →
      (∀ o, output = some o → (H.linkCreateDirAll T (parsePath o)).2 = none) → (∃ dir, LinkOutputsIn H ready output dir) →
      (¬ ∃ o, output = some o ∧ LinkNamesFile H T o) →
      (run.2.2 = none ↔ (∀ o, output = some o → (H.linkCreateDirAll T (parsePath o)).2 = none) ∧
        ∃ dir fs', LinkOutputsIn H ready output dir ∧
          InTurn (H.linkWorld ready) suffix (output.map fun _ => absolute dir) T.files inputs fs') ∧
      (run.2.2 = some .exitOne ↔ ∃ o, output = some o ∧ LinkNamesFile H T o) ∧
      (run.2.2 = some .exitOne → run.1 = [] ∧ run.2.1 = []) ∧
      ∀ dir fs', (∀ o, output = some o → (H.linkCreateDirAll T (parsePath o)).2 = none) → LinkOutputsIn H ready output dir →
        InTurn (H.linkWorld ready) suffix (output.map fun _ => absolute dir) T.files inputs fs' →
        T.addDirs run.1 = ready ∧ (H.linkWorld ready).after T.files run.2.1 = fs' := by
    rintro ls hrun hls hok ⟨dir, hdir⟩ hno
    rw [link_process H ready inputs suffix output dir hdir] at hrun
    obtain ⟨n1, n2⟩ := processInputs_none (H.linkWorld ready) suffix (output.map fun _ => absolute dir) inputs T.files
    have hne : run.2.2 ≠ some .exitOne := by
      rw [hrun]
      exact processInputs_quiet _ _ _ _ _
    refine ⟨?_, ⟨fun h => absurd h hne, fun h => absurd h hno⟩, fun h => absurd h hne, ?_⟩
    · rw [hrun]
      constructor
      · intro h
        obtain ⟨fs', h⟩ := n1.mp h
        exact ⟨hok, dir, fs', hdir, h⟩
      · rintro ⟨_, d, fs', hd, h⟩
        rw [linkOutputsIn_one H output d dir hd hdir] at h
        exact n1.mpr ⟨fs', h⟩
    · intro d fs' _ hd h
      rw [linkOutputsIn_one H output d dir hd hdir] at h
      rw [hrun]
      exact ⟨hls, n2 fs' h⟩
  cases output with
  | none => exact hgo [] (link_run_here H inputs suffix) rfl (fun o h => by cases h) ⟨H.cwd, hc, rfl⟩ (by rintro ⟨o, h, _⟩; cases h)
  | some o =>
    by_cases ho : o = []
    · subst ho
      have hrun : run = ([], [], some .fileError) := link_empty_output H inputs suffix
      have hnone : ∀ dir, ¬ LinkOutputsIn H ready (some []) dir := by
        rintro dir ⟨_, h⟩
        have h' : ready.find H.cwd (parsePath []) = .ok dir := h
        have : ready.find H.cwd (parsePath []) = .error .notFound := rfl
        rw [this] at h'
        cases h'
      rw [hrun]
      refine ⟨⟨fun h => (by cases h), ?_⟩, ⟨fun h => (by cases h), ?_⟩, fun h => (by cases h), fun dir _ _ h => absurd h (hnone dir)⟩
      · rintro ⟨_, dir, _, h, _⟩
        exact absurd h (hnone dir)
      · rintro ⟨o, ho, l, hl, _⟩
        cases ho
        cases hl
    · by_cases h : (H.linkCreateDirAll T (parsePath o)).2 = none
      · obtain ⟨hS, hdir, hrun⟩ := link_run H hT inputs suffix o ho h
        have hw := addDirs_files T (H.linkCreateDirAll T (parsePath o)).1
        rw [hw] at hrun
        refine hgo _ hrun rfl (fun o' e => by cases e; exact h) hdir ?_
        rintro ⟨o', e, l, hl, hcl⟩
        cases e
        obtain ⟨dir, hd, hf⟩ := hdir
        have hl' : (T.addDirs (H.linkCreateDirAll T (parsePath o)).1).find H.cwd (parsePath o) = .ok l := by
          unfold LinkDisk.find at hl ⊢
          rw [parse_nonempty o ho] at hl ⊢
          exact follow_grows (fun m hm => (linkAddDirs_isDir T _ m).mpr (Or.inl hm)) rfl hl
        have hf' : (T.addDirs (H.linkCreateDirAll T (parsePath o)).1).find H.cwd (parsePath o) = .ok dir := hf
        rw [hl'] at hf'
        cases Except.ok.inj hf'
        have := hS.tree.apart _ hd
        have e : (T.addDirs (H.linkCreateDirAll T (parsePath o)).1).content l = T.content l := congrFun hw (some l)
        rw [e] at this
        exact hcl this
      · have hno : ¬ ∀ o', some o = some o' → (H.linkCreateDirAll T (parsePath o')).2 = none := fun h' => h (h' o rfl)
        have hrun0 : run = H.linkProcess T inputs (some suffix) (some o) := rfl
        unfold Host.linkProcess at hrun0
        dsimp only at hrun0
        by_cases hb : (H.linkWorld T).blocked o = true
        · rw [if_pos hb] at hrun0
          rw [hrun0]
          exact ⟨⟨fun h => (by cases h), fun h => absurd h.1 hno⟩, ⟨fun _ => ⟨o, rfl, (link_blocked_iff H hT o).mp hb⟩, fun _ => rfl⟩,
            fun _ => ⟨rfl, rfl⟩, fun _ _ h => absurd h hno⟩
        · rw [if_neg hb] at hrun0
          rcases hm : H.linkCreateDirAll T (parsePath o) with ⟨ls, r⟩
          rw [hm] at hrun0 h
          cases r with
          | none => exact absurd rfl h
          | some e =>
            dsimp only at hrun0
            rw [hrun0]
            refine ⟨⟨fun h => (by cases h), fun h => absurd h.1 hno⟩, ⟨fun h => (by cases h), ?_⟩, fun h => (by cases h),
              fun _ _ h => absurd h hno⟩
            rintro ⟨o', e', hn⟩
            cases e'
            exact absurd ((link_blocked_iff H hT o).mpr hn) hb

/-- How a run goes, case by case. -/
theorem link_main_cases (T : LinkDisk) (program : List Char) (args : List (List Char)) :
    ((¬ ∃ is m, CommandLine is args ∧ Means is m) ∧ H.linkMain T (program :: args) = ⟨[], [], none, some .badArguments⟩) ∨
    ∃ is m, CommandLine is args ∧ Means is m ∧ parseArgs args = .ok m ∧
      (((Item.help ∈ is ∨ fileNames is = []) ∧ H.linkMain T (program :: args) = ⟨[], [], some (usageText program), none⟩) ∨
        (Item.help ∉ is ∧ fileNames is ≠ [] ∧ H.linkMain T (program :: args) =
          ⟨(H.linkProcess T (fileNames is) m.suffix m.output).1, (H.linkProcess T (fileNames is) m.suffix m.output).2.1, none,
            (H.linkProcess T (fileNames is) m.suffix m.output).2.2⟩)) := by
  cases hp : parseArgs args with
  | error e =>
    refine .inl ⟨?_, by unfold Host.linkMain; dsimp only; rw [hp]⟩
    rintro ⟨is, m, hc, hm⟩
    have := (command_line_read args m).mpr ⟨is, hc, hm⟩
    rw [hp] at this
    cases this
  | ok m =>
    obtain ⟨is, hc, hm⟩ := (command_line_read args m).mp hp
    refine .inr ⟨is, m, hc, hm, rfl, ?_⟩
    have hr : H.linkMain T (program :: args) = if m.help then ⟨[], [], some (usageText program), none⟩
      else if m.free = [] then ⟨[], [], some (usageText program), none⟩
      else ⟨(H.linkProcess T m.free m.suffix m.output).1, (H.linkProcess T m.free m.suffix m.output).2.1, none,
        (H.linkProcess T m.free m.suffix m.output).2.2⟩ := by
      unfold Host.linkMain
      dsimp only
      rw [hp]
    by_cases h1 : m.help = true
    · exact .inl ⟨.inl (hm.help.mp h1), by rw [hr, if_pos h1]⟩
    · have h1' : Item.help ∉ is := fun h => h1 (hm.help.mpr h)
      rw [if_neg h1] at hr
      by_cases h2 : m.free = []
      · exact .inl ⟨.inr (by rw [← hm.files, h2]), by rw [hr, if_pos h2]⟩
      · rw [if_neg h2, hm.files] at hr
        exact .inr ⟨h1', by rw [← hm.files]; exact h2, hr⟩

/-- C104: the exit status of a run on a tree with links. It is 0 exactly if the command line was understood and asked for no work, or the `-o`
folder (if any) can be made or is there and every input, in turn, is read, decoded, marked and stored, links followed; 1 exactly if there is
work and `-o` leads to a file, and then nothing has changed; 101 in every other case. -/
theorem link_main_status (hT : T.Sound) (hc : T.isDir H.cwd = true) (program : List Char) (args : List (List Char)) :
    let run := H.linkMain T (program :: args)
    (exitStatus run.stop = 0 ↔ ∃ is m, CommandLine is args ∧ Means is m ∧
      ((Item.help ∈ is ∨ fileNames is = [] ∨ suffixValues is = []) ∨
        ∃ suffix output, suffixValues is = [suffix] ∧ outputValues is = Option.toList output ∧
          (∀ o, output = some o → (H.linkCreateDirAll T (parsePath o)).2 = none) ∧
          ∃ dir fs', LinkOutputsIn H (H.linkPrepared T output) output dir ∧
            InTurn (H.linkWorld (H.linkPrepared T output)) suffix (output.map fun _ => absolute dir) T.files (fileNames is) fs')) ∧
    (exitStatus run.stop = 1 ↔ ∃ is m, CommandLine is args ∧ Means is m ∧
      Item.help ∉ is ∧ fileNames is ≠ [] ∧ suffixValues is ≠ [] ∧ ∃ o, outputValues is = [o] ∧ LinkNamesFile H T o) ∧
    (exitStatus run.stop = 1 → run.made = [] ∧ run.changes = []) ∧
    (exitStatus run.stop = 0 ∨ exitStatus run.stop = 1 ∨ exitStatus run.stop = 101) := by
  intro run
  have hrun : run = H.linkMain T (program :: args) := rfl
  refine ⟨?_, ?_, ?_, (exitStatus_values _).2.2⟩
  all_goals simp only [(exitStatus_values _).1, (exitStatus_values _).2.1]
  all_goals
    rcases link_main_cases H T program args with ⟨hno, hr⟩ | ⟨is, m, hcl, hm, hp, ⟨hw, hr⟩ | ⟨hw1, hw2, hr⟩⟩
  all_goals rw [hrun, hr]
  · refine ⟨fun h => (by cases h), ?_⟩
    rintro ⟨is, m, hcl, hm, _⟩
    exact (hno ⟨is, m, hcl, hm⟩).elim
  · refine ⟨fun _ => ⟨is, m, hcl, hm, .inl ?_⟩, fun _ => rfl⟩
    rcases hw with h | h
    · exact .inl h
    · exact .inr (.inl h)
  · rw [read_as args m hp (fun help files suffixes outputs => (help ∨ files = [] ∨ suffixes = []) ∨ ∃ suffix output, suffixes = [suffix] ∧
        outputs = Option.toList output ∧ (∀ o, output = some o → (H.linkCreateDirAll T (parsePath o)).2 = none) ∧
          ∃ dir fs', LinkOutputsIn H (H.linkPrepared T output) output dir ∧
            InTurn (H.linkWorld (H.linkPrepared T output)) suffix (output.map fun _ => absolute dir) T.files files fs')]
    cases hs : m.suffix with
    | none => exact ⟨fun _ => .inl (.inr (.inr rfl)), fun _ => by unfold Host.linkProcess; rfl⟩
    | some s =>
      obtain ⟨e1, _⟩ := link_process_ends H hT hc (fileNames is) s m.output
      refine e1.trans ?_
      rw [hm.files]
      constructor
      · rintro ⟨b, c⟩
        exact .inr ⟨s, m.output, rfl, rfl, b, c⟩
      · rintro ((h | h | h) | ⟨s', output, h1, h2, h3⟩)
        · exact absurd (hm.help.mp h) hw1
        · exact absurd h hw2
        · cases h
        · cases h1
          have : m.output = output := by
            cases ho : m.output with
            | none =>
              rw [ho] at h2
              cases output with
              | none => rfl
              | some o => cases h2
            | some o =>
              rw [ho] at h2
              cases output with
              | none => cases h2
              | some o' =>
                cases h2
                rfl
          rw [this]
          exact h3
  · refine ⟨fun h => (by cases h), ?_⟩
    rintro ⟨is, m, hcl, hm, _⟩
    exact (hno ⟨is, m, hcl, hm⟩).elim
  · rw [read_as args m hp (fun help files suffixes outputs => ¬ help ∧ files ≠ [] ∧ suffixes ≠ [] ∧ ∃ o, outputs = [o] ∧ LinkNamesFile H T o)]
    refine ⟨fun h => (by cases h), ?_⟩
    rintro ⟨h1, h2, _⟩
    rcases hw with h | h
    · exact absurd (hm.help.mpr h) h1
    · exact absurd (hm.files.trans h) h2
  · rw [read_as args m hp (fun help files suffixes outputs => ¬ help ∧ files ≠ [] ∧ suffixes ≠ [] ∧ ∃ o, outputs = [o] ∧ LinkNamesFile H T o)]
    cases hs : m.suffix with
    | none => exact ⟨fun h => (by unfold Host.linkProcess at h; cases h), fun h => absurd rfl h.2.2.1⟩
    | some s =>
      obtain ⟨_, e2, _⟩ := link_process_ends H hT hc (fileNames is) s m.output
      refine e2.trans ?_
      constructor
      · rintro ⟨o, ho, hn⟩
        refine ⟨fun h => hw1 (hm.help.mp h), fun h => hw2 (hm.files.symm.trans h), fun h => (by cases h), o, by rw [ho]; rfl, hn⟩
      · rintro ⟨_, _, _, o, ho, hn⟩
        refine ⟨o, ?_, hn⟩
        cases ho' : m.output with
        | none =>
          rw [ho'] at ho
          cases ho
        | some o' =>
          rw [ho'] at ho
          cases ho
          rfl
  · exact fun _ => ⟨rfl, rfl⟩
  · exact fun _ => ⟨rfl, rfl⟩
  · cases hs : m.suffix with
    | none => exact fun h => (by unfold Host.linkProcess at h; cases h)
    | some s => exact (link_process_ends H hT hc (fileNames is) s m.output).2.2.1

/-- C104: a program started with no words at all, not even its own name, fails and changes nothing. -/
theorem link_main_no_words (T : LinkDisk) : exitStatus (H.linkMain T []).stop = 101 ∧ (H.linkMain T []).made = [] ∧
    (H.linkMain T []).changes = [] ∧ (H.linkMain T []).usage = none :=
  ⟨rfl, rfl, rfl, rfl⟩

/-- C104: the usage text is printed exactly if the command line was understood and asks for help or names no file; then the run ends with
status 0 and changes nothing. -/
theorem link_main_usage (T : LinkDisk) (program : List Char) (args : List (List Char)) (t : List Char) :
    let run := H.linkMain T (program :: args)
    (run.usage = some t ↔ t = usageText program ∧ ∃ is m, CommandLine is args ∧ Means is m ∧ (Item.help ∈ is ∨ fileNames is = [])) ∧
    (run.usage ≠ none → run.made = [] ∧ run.changes = [] ∧ run.stop = none) := by
  intro run
  have hrun : run = H.linkMain T (program :: args) := rfl
  rcases link_main_cases H T program args with ⟨hno, hr⟩ | ⟨is, m, hcl, hm, hp, ⟨hw, hr⟩ | ⟨hw1, hw2, hr⟩⟩
  all_goals rw [hrun, hr]
  · refine ⟨⟨fun h => (by cases h), ?_⟩, fun h => absurd rfl h⟩
    rintro ⟨_, is, m, hcl, hm, _⟩
    exact (hno ⟨is, m, hcl, hm⟩).elim
  · refine ⟨⟨fun h => ?_, ?_⟩, fun _ => ⟨rfl, rfl, rfl⟩⟩
    · cases h
      exact ⟨rfl, is, m, hcl, hm, hw⟩
    · rintro ⟨rfl, _⟩
      rfl
  · refine ⟨⟨fun h => (by cases h), ?_⟩, fun h => absurd rfl h⟩
    rw [read_as args m hp (fun help files _ _ => help ∨ files = [])]
    rintro ⟨_, h | h⟩
    · exact absurd (hm.help.mp h) hw1
    · exact absurd (hm.files.symm.trans h) hw2

/-- C104: after a run that ended with status 0 having had work to do, the folders and files are as the inputs, completed in turn, leave them,
and the links are as before. -/
theorem link_main_result (hT : T.Sound) (hc : T.isDir H.cwd = true) (program : List Char) (args : List (List Char)) (is : List Item)
    (m : Matches) (hcl : CommandLine is args) (hm : Means is m) (hh : Item.help ∉ is) (hf : fileNames is ≠ []) (suffix : List Char)
    (hs : suffixValues is = [suffix]) (output : Option PathStr) (ho : outputValues is = output.toList)
    (hok : ∀ o, output = some o → (H.linkCreateDirAll T (parsePath o)).2 = none) (dir : Place)
    (hdir : LinkOutputsIn H (H.linkPrepared T output) output dir) (fs' : Option Place → Option (List UInt8))
    (ht : InTurn (H.linkWorld (H.linkPrepared T output)) suffix (output.map fun _ => absolute dir) T.files (fileNames is) fs') :
    let run := H.linkMain T (program :: args)
    run.stop = none ∧ run.usage = none ∧ T.addDirs run.made = H.linkPrepared T output ∧
      (H.linkWorld (T.addDirs run.made)).after T.files run.changes = fs' := by
  intro run
  have hrun : run = H.linkMain T (program :: args) := rfl
  rcases link_main_cases H T program args with ⟨hno, hr⟩ | ⟨is', m', hcl', hm', hp, hr⟩
  · exact absurd ⟨is, m, hcl, hm⟩ hno
  have e := (command_line_read args m).mpr ⟨is, hcl, hm⟩
  rw [hp] at e
  cases e
  have ef : fileNames is' = fileNames is := hm'.files.symm.trans hm.files
  have eh : Item.help ∉ is' := fun h => hh (hm.help.mp (hm'.help.mpr h))
  have es : m.suffix = some suffix := by
    have := hm.suffix.trans hs
    cases h : m.suffix with
    | none =>
      rw [h] at this
      cases this
    | some s =>
      rw [h] at this
      cases this
      rfl
  have eo : m.output = output := by
    have := hm.output.trans ho
    cases h : m.output with
    | none =>
      rw [h] at this
      cases output with
      | none => rfl
      | some o => cases this
    | some o =>
      rw [h] at this
      cases output with
      | none => cases this
      | some o' =>
        cases this
        rfl
  rw [ef, es, eo] at hr
  rcases hr with ⟨hw, _⟩ | ⟨_, _, hr⟩
  · rcases hw with h | h
    · exact absurd h eh
    · exact absurd h hf
  · obtain ⟨e1, _, _, e4⟩ := link_process_ends H hT hc (fileNames is) suffix output
    obtain ⟨e5, e6⟩ := e4 dir fs' hok hdir ht
    rw [hrun, hr]
    refine ⟨e1.mpr ⟨hok, dir, fs', hdir, ht⟩, rfl, e5, ?_⟩
    dsimp only
    rw [e5]
    exact e6

/-- C104: whatever the command line, at whatever point the run is interrupted, while folders are made or after: folders, files and links are a
tree, only folders where nothing was have been added, and only for the value of `-o`, no link has changed, and a changed file is where the
path of an output, for one of the files named, of a command line that was understood, leads. -/
theorem link_main_safe (hT : T.Sound) (hc : T.isDir H.cwd = true) (argv : List (List Char)) :
    let run := H.linkMain T argv
    let ready := T.addDirs run.made
    (∀ n, (T.addDirs (run.made.take n)).Sound) ∧ (∀ l ∈ run.made, T.occupied l = false ∧ T.link l = none) ∧
    (∀ es, es <+: run.changes → (ready.holding ((H.linkWorld ready).after T.files es)).Sound) ∧
    (run.made ≠ [] ∨ run.changes ≠ [] → ∃ program args is m suffix output, argv = program :: args ∧ CommandLine is args ∧ Means is m ∧
      Item.help ∉ is ∧ suffixValues is = [suffix] ∧ outputValues is = Option.toList output ∧ (output = none → run.made = []) ∧
      ∀ es, es <+: run.changes → ∀ l, (H.linkWorld ready).after T.files es (some l) ≠ T.content l → ∃ dir, LinkOutputsIn H ready output dir ∧
        ∃ i ∈ fileNames is, ∃ stem ext, NamedAs i stem ext ∧
          ready.find H.cwd (parsePath (OutName stem ext suffix (output.map fun _ => absolute dir))) = .ok l) := by
  intro run ready
  have hnil : run.made = [] → run.changes = [] → (∀ n, (T.addDirs (run.made.take n)).Sound) ∧
      (∀ l ∈ run.made, T.occupied l = false ∧ T.link l = none) ∧
      (∀ es, es <+: run.changes → (ready.holding ((H.linkWorld ready).after T.files es)).Sound) := by
    intro h1 h2
    have hready : ready = T := by
      show T.addDirs run.made = T
      rw [h1]
      rfl
    rw [hready, h1, h2]
    refine ⟨fun n => by rw [List.take_nil]; exact hT, by simp, fun es hes => ?_⟩
    rw [List.prefix_nil.mp hes]
    exact hT
  cases argv with
  | nil =>
    obtain ⟨a, b, c⟩ := hnil rfl rfl
    exact ⟨a, b, c, fun h => by rcases h with h | h <;> exact absurd rfl h⟩
  | cons program args =>
    have hrun : run = H.linkMain T (program :: args) := rfl
    rcases link_main_cases H T program args with ⟨hno, hr⟩ | ⟨is, m, hcl, hm, hp, ⟨hw, hr⟩ | ⟨hw1, hw2, hr⟩⟩
    · have h1 : run.made = [] := by rw [hrun, hr]
      have h2 : run.changes = [] := by rw [hrun, hr]
      obtain ⟨a, b, c⟩ := hnil h1 h2
      exact ⟨a, b, c, fun h => by rcases h with h | h <;> contradiction⟩
    · have h1 : run.made = [] := by rw [hrun, hr]
      have h2 : run.changes = [] := by rw [hrun, hr]
      obtain ⟨a, b, c⟩ := hnil h1 h2
      exact ⟨a, b, c, fun h => by rcases h with h | h <;> contradiction⟩
    · cases hs : m.suffix with
      | none =>
        rw [hs] at hr
        have h1 : run.made = [] := by rw [hrun, hr]; unfold Host.linkProcess; rfl
        have h2 : run.changes = [] := by rw [hrun, hr]; unfold Host.linkProcess; rfl
        obtain ⟨a, b, c⟩ := hnil h1 h2
        exact ⟨a, b, c, fun h => by rcases h with h | h <;> contradiction⟩
      | some suffix =>
        have hsv : suffixValues is = [suffix] := by
          rw [← hm.suffix, hs]
          rfl
        rw [hs] at hr
        have hmade : run.made = (H.linkProcess T (fileNames is) (some suffix) m.output).1 := by rw [hrun, hr]
        have hchanges : run.changes = (H.linkProcess T (fileNames is) (some suffix) m.output).2.1 := by rw [hrun, hr]
        have hready : ready = T.addDirs (H.linkProcess T (fileNames is) (some suffix) m.output).1 := by
          show T.addDirs run.made = _
          rw [hmade]
        cases ho : m.output with
        | none =>
          rw [ho] at hmade hchanges hready
          rw [link_run_here H (fileNames is) suffix] at hmade hchanges hready
          have hready' : ready = T := hready
          dsimp only at hmade hchanges
          rw [hready', hmade, hchanges]
          have hS := links_safe H T hT hc (fileNames is) suffix none
          refine ⟨fun n => by rw [List.take_nil]; exact hT, by simp, fun es hes => (hS es hes).1, fun _ => ?_⟩
          refine ⟨program, args, is, m, suffix, none, rfl, hcl, hm, hw1, hsv, ?_, fun _ => rfl, fun es hes l hl => (hS es hes).2 l hl⟩
          rw [← hm.output, ho]
        | some o =>
          rw [ho] at hmade hchanges hready
          by_cases hoe : o = []
          · subst hoe
            rw [link_empty_output H (fileNames is) suffix] at hmade hchanges
            obtain ⟨a, b, c⟩ := hnil hmade hchanges
            exact ⟨a, b, c, fun h => by rcases h with h | h <;> contradiction⟩
          · obtain ⟨s1, s2, s3⟩ := link_run_safe H hT hc (fileNames is) suffix o hoe
            rw [hready, hmade, hchanges]
            refine ⟨s1, s2, fun es hes => (s3 es hes).1, fun _ => ?_⟩
            refine ⟨program, args, is, m, suffix, some o, rfl, hcl, hm, hw1, hsv, ?_, fun h => (by cases h),
              fun es hes l hl => (s3 es hes).2 l hl⟩
            rw [← hm.output, ho]

/-- C104: which file a run can have changed when it ends or is killed, for a suffix without a slash: one of the outputs directly in the output
folder, or, if a link has the name of that output, the file where the link leads, seen from the output folder. -/
theorem link_main_changed (hT : T.Sound) (hc : T.isDir H.cwd = true) (argv : List (List Char)) :
    let run := H.linkMain T argv
    let ready := T.addDirs run.made
    ∀ es, es <+: run.changes → ∀ l, (H.linkWorld ready).after T.files es (some l) ≠ T.content l →
      ∃ program args is m suffix output dir, argv = program :: args ∧ CommandLine is args ∧ Means is m ∧ Item.help ∉ is ∧
        suffixValues is = [suffix] ∧ outputValues is = Option.toList output ∧ LinkOutputsIn H ready output dir ∧
        ∃ i ∈ fileNames is, ∃ stem ext, NamedAs i stem ext ∧ ('/' ∉ suffix →
          (T.link (dir ++ [stem ++ '-' :: suffix ++ '.' :: ext]) = none ∧ l = dir ++ [stem ++ '-' :: suffix ++ '.' :: ext]) ∨
          ∃ text, T.link (dir ++ [stem ++ '-' :: suffix ++ '.' :: ext]) = some text ∧
            ∃ k ≤ 39, LeadsTo ready k (if (parsePath text).abs then [] else dir) (parsePath text).parts l) := by
  intro run ready es hes l hl
  obtain ⟨s1, -, -, s4⟩ := link_main_safe H hT hc argv
  have hS : ready.Sound := by
    have := s1 run.made.length
    rwa [List.take_length] at this
  have hne : run.changes ≠ [] := by
    intro h
    rw [h, List.prefix_nil] at hes
    rw [hes] at hl
    exact hl rfl
  obtain ⟨program, args, is, m, suffix, output, a1, a2, a3, a4, a5, a6, -, a8⟩ := s4 (.inr hne)
  obtain ⟨dir, d1, i, hi, stem, ext, hn, hf⟩ := a8 es hes l hl
  refine ⟨program, args, is, m, suffix, output, dir, a1, a2, a3, a4, a5, a6, d1, i, hi, stem, ext, hn, fun hs => ?_⟩
  have hres : (H.linkWorld ready).resolve (OutName stem ext suffix (output.map fun _ => absolute dir)) = some l := (toOption_eq_some _ _).mpr hf
  cases hk : T.link (dir ++ [stem ++ '-' :: suffix ++ '.' :: ext]) with
  | none =>
    refine .inl ⟨rfl, ?_⟩
    have := link_output_there H ready hS output dir d1 i stem ext suffix hs hn hk
    rw [hres] at this
    exact Option.some.inj this
  | some text =>
    exact .inr ⟨text, rfl, (link_output_follows H ready hS output dir d1 i stem ext suffix hs hn text hk l).mp hres⟩

/-- On a tree without links the rounds and the files are those of the tree. -/
theorem link_rounds_none (h : ∀ l, T.link l = none) (suffix : List Char) (folder : Option PathStr) (fs : Files (Option Place))
    (inputs : List PathStr) : processInputs (H.linkWorld T) suffix folder fs inputs = processInputs (H.world T.toDisk) suffix folder fs inputs := by
  have e : HEq (processInputs (H.linkWorld T) suffix folder) (processInputs (H.world T.toDisk) suffix folder) := by rw [links_none H T h]
  exact congrFun (congrFun (eq_of_heq e) fs) inputs

theorem link_after_none (h : ∀ l, T.link l = none) (fs : Files (Option Place)) (es : List (Option Place × List UInt8)) :
    (H.linkWorld T).after fs es = (H.world T.toDisk).after fs es := by
  have e : HEq (World.after (H.linkWorld T)) (World.after (H.world T.toDisk)) := by rw [links_none H T h]
  exact congrFun (congrFun (eq_of_heq e) fs) es

theorem same_status (a b : Option Panic) (h0 : a = none ↔ b = none) (h1 : a = some .exitOne ↔ b = some .exitOne) : exitStatus a = exitStatus b := by
  rw [← (exitStatus_values a).1, ← (exitStatus_values b).1] at h0
  rw [← (exitStatus_values a).2.1, ← (exitStatus_values b).2.1] at h1
  rcases (exitStatus_values a).2.2 with ha | ha | ha <;> rcases (exitStatus_values b).2.2 with hb | hb | hb <;> omega

/-- The run on a tree without links is the one on the tree. -/
theorem link_process_none (hT : T.Sound) (hc : T.isDir H.cwd = true) (h : ∀ l, T.link l = none) (inputs : List PathStr) (hi : inputs ≠ [])
    (suffix : List Char) (output : Option PathStr) :
    exitStatus (H.linkProcess T inputs (some suffix) output).2.2 = exitStatus (H.process T.toDisk inputs (some suffix) output).2 ∧
    (∀ l, (T.addDirs (H.linkProcess T inputs (some suffix) output).1).isDir l =
      (T.toDisk.changes (H.process T.toDisk inputs (some suffix) output).1).isDir l) ∧
    ∀ l, (H.linkWorld (T.addDirs (H.linkProcess T inputs (some suffix) output).1)).after T.files
      (H.linkProcess T inputs (some suffix) output).2.1 (some l) =
      (T.toDisk.changes (H.process T.toDisk inputs (some suffix) output).1).content l := by
  by_cases hout : output = some []
  · subst hout
    obtain ⟨p, hp0, hp⟩ := process_empty_output H T.toDisk inputs hi suffix
    have hl : H.linkProcess T inputs (some suffix) (some []) = ([], [], some .fileError) := link_empty_output H inputs suffix
    rw [hl, hp]
    exact ⟨same_status _ _ (by simp) (by simp [hp0]), fun _ => rfl, fun _ => rfl⟩
  · obtain ⟨t1, t2⟩ := tree_process H T.toDisk hT.tree hc inputs suffix output hout
    by_cases hok : ∀ o, output = some o → (H.createDirAll T.toDisk (parsePath o)).2 = none
    · obtain ⟨hS, hG, dir, d1, d2, d3, ⟨cs, hcs, d4⟩, d5⟩ := t2 hok
      have hlink : ∀ l, (H.linkPrepared T output).link l = none := by
        intro l
        cases output <;> exact h l
      have hdisk : (H.linkPrepared T output).toDisk = H.prepared T.toDisk output := by
        cases output with
        | none => rfl
        | some o =>
          show T.toDisk.addDirs (H.linkCreateDirAll T (parsePath o)).1 = T.toDisk.addDirs (H.madeFor T.toDisk (some o))
          rw [link_folders_none H T h]
          rfl
      have hrun : H.linkProcess T inputs (some suffix) output = (H.madeFor T.toDisk output,
          processInputs (H.linkWorld (H.linkPrepared T output)) suffix (output.map fun _ => absolute dir) T.files inputs) := by
        cases output with
        | none => exact link_run_here H inputs suffix
        | some o =>
          have hok' : (H.linkCreateDirAll T (parsePath o)).2 = none := by
            rw [link_folders_none H T h]
            exact hok o rfl
          obtain ⟨_, ⟨dir', e2⟩, e3⟩ := link_run H hT inputs suffix o (fun e => hout (by rw [e])) hok'
          have hdd : dir' = dir := by
            have a1 : (H.linkPrepared T (some o)).find H.cwd (parsePath o) = .ok dir' := e2.2
            have a2 : (H.prepared T.toDisk (some o)).find H.cwd (parsePath o) = .ok dir := d1
            rw [← hdisk] at a2
            have a3 : (H.linkPrepared T (some o)).find H.cwd (parsePath o) = (H.linkPrepared T (some o)).toDisk.find H.cwd (parsePath o) := by
              unfold LinkDisk.find Disk.find
              rw [follow_no_links _ hlink]
            rw [a3, a2] at a1
            exact (Except.ok.inj a1).symm
          subst hdd
          have hm : H.madeFor T.toDisk (some o) = (H.linkCreateDirAll T (parsePath o)).1 := by
            rw [link_folders_none H T h]
            rfl
          rw [hm, e3, link_process H _ inputs suffix (some o) dir' e2, addDirs_files]
          rfl
      have hr := link_rounds_none H hlink suffix (output.map fun _ => absolute dir) T.files inputs
      rw [hdisk] at hr
      have hr' := hrun.trans (congrArg (Prod.mk (H.madeFor T.toDisk output)) hr)
      rw [hr']
      refine ⟨congrArg exitStatus (congrArg Prod.snd d3).symm, fun l => ?_, fun l => ?_⟩
      · rw [d4, changes_append, changes_folders]
        rw [(changes_files H (D0 := T.toDisk) (H.world T.toDisk) rfl _ cs hcs).1]
        rfl
      · rw [d5 l]
        exact congrFun (link_after_none H (T := T.addDirs (H.madeFor T.toDisk output)) h _ _) (some l)
    · push Not at hok
      obtain ⟨o, rfl, ho⟩ := hok
      have hrun : H.linkProcess T inputs (some suffix) (some o) = if (H.linkWorld T).blocked o then ([], [], some .exitOne)
          else ((H.createDirAll T.toDisk (parsePath o)).1, [], some .fileError) := by
        unfold Host.linkProcess
        dsimp only
        rw [link_folders_none H T h]
        rcases hm : H.createDirAll T.toDisk (parsePath o) with ⟨ls, r⟩
        rw [hm] at ho
        cases r with
        | none => exact absurd rfl ho
        | some e => rfl
      have hplain : H.process T.toDisk inputs (some suffix) (some o) =
          if !T.toDisk.dirAt H.cwd (parsePath o) && T.toDisk.existsAt H.cwd (parsePath o) then ([], some .exitOne)
          else ((H.createDirAll T.toDisk (parsePath o)).1.map .folder, some .fileError) := by
        unfold Host.process
        dsimp only
        rcases hm : H.createDirAll T.toDisk (parsePath o) with ⟨ls, r⟩
        rw [hm] at ho
        cases r with
        | none => exact absurd rfl ho
        | some e => rfl
      have hb : (H.linkWorld T).blocked o = (!T.toDisk.dirAt H.cwd (parsePath o) && T.toDisk.existsAt H.cwd (parsePath o)) := by
        rw [links_none H T h]
      rw [hrun, hplain, hb]
      split_ifs
      · exact ⟨rfl, fun _ => rfl, fun _ => rfl⟩
      · refine ⟨rfl, fun l => ?_, fun l => ?_⟩
        · rw [changes_folders]
          rfl
        · rw [changes_folders]
          exact (congrFun (addDirs_content T.toDisk _) l).symm

/-- C104: on a tree without links, the run is the one of C97: the same end, the same usage text, the same folders and the same files. -/
theorem link_main_none (hT : T.Sound) (hc : T.isDir H.cwd = true) (h : ∀ l, T.link l = none) (argv : List (List Char)) :
    let run := H.linkMain T argv
    let plain := H.main T.toDisk argv
    exitStatus run.stop = exitStatus plain.stop ∧ run.usage = plain.usage ∧
      (∀ l, (T.addDirs run.made).isDir l = (T.toDisk.changes plain.changes).isDir l) ∧
      ∀ l, (H.linkWorld (T.addDirs run.made)).after T.files run.changes (some l) = (T.toDisk.changes plain.changes).content l := by
  intro run plain
  cases argv with
  | nil => exact ⟨rfl, rfl, fun _ => rfl, fun _ => rfl⟩
  | cons program args =>
    have hrun : run = H.linkMain T (program :: args) := rfl
    have hplain : plain = H.main T.toDisk (program :: args) := rfl
    cases hp : parseArgs args with
    | error e =>
      have h1 : run = ⟨[], [], none, some .badArguments⟩ := by rw [hrun]; unfold Host.linkMain; dsimp only; rw [hp]
      have h2 : plain = ⟨[], none, some .badArguments⟩ := by rw [hplain]; unfold Host.main; dsimp only; rw [hp]
      rw [h1, h2]
      exact ⟨rfl, rfl, fun _ => rfl, fun _ => rfl⟩
    | ok m =>
      have h1 : run = if m.help then ⟨[], [], some (usageText program), none⟩
          else if m.free = [] then ⟨[], [], some (usageText program), none⟩
          else ⟨(H.linkProcess T m.free m.suffix m.output).1, (H.linkProcess T m.free m.suffix m.output).2.1, none,
            (H.linkProcess T m.free m.suffix m.output).2.2⟩ := by
        rw [hrun]
        unfold Host.linkMain
        dsimp only
        rw [hp]
      have h2 : plain = if m.help then ⟨[], some (usageText program), none⟩
          else if m.free = [] then ⟨[], some (usageText program), none⟩
          else ⟨(H.process T.toDisk m.free m.suffix m.output).1, none, (H.process T.toDisk m.free m.suffix m.output).2⟩ := by
        rw [hplain]
        unfold Host.main
        dsimp only
        rw [hp]
      by_cases c1 : m.help = true
      · rw [if_pos c1] at h1 h2
        rw [h1, h2]
        exact ⟨rfl, rfl, fun _ => rfl, fun _ => rfl⟩
      rw [if_neg c1] at h1 h2
      by_cases c2 : m.free = []
      · rw [if_pos c2] at h1 h2
        rw [h1, h2]
        exact ⟨rfl, rfl, fun _ => rfl, fun _ => rfl⟩
      rw [if_neg c2] at h1 h2
      cases hs : m.suffix with
      | none =>
        rw [hs] at h1 h2
        have e1 : H.linkProcess T m.free none m.output = ([], [], none) := by unfold Host.linkProcess; rfl
        have e2 : H.process T.toDisk m.free none m.output = ([], none) := rfl
        rw [e1] at h1
        rw [e2] at h2
        rw [h1, h2]
        exact ⟨rfl, rfl, fun _ => rfl, fun _ => rfl⟩
      | some suffix =>
        rw [hs] at h1 h2
        obtain ⟨q1, q2, q3⟩ := link_process_none H hT hc h m.free c2 suffix m.output
        rw [h1, h2]
        exact ⟨q1, rfl, q2, q3⟩

/-- C104: the usual command line, with files before, between and after the options. -/
theorem link_main_usual (T : LinkDisk) (program : List Char) (f1 f2 f3 : List (List Char)) (h1 : ∀ f ∈ f1 ++ f2 ++ f3, f.head? ≠ some '-')
    (hne : f1 ++ f2 ++ f3 ≠ []) (suffix out : List Char) :
    H.linkMain T (program :: (f1 ++ ["-s".toList, suffix] ++ f2 ++ ["-o".toList, out] ++ f3)) =
      ⟨(H.linkProcess T (f1 ++ f2 ++ f3) (some suffix) (some out)).1, (H.linkProcess T (f1 ++ f2 ++ f3) (some suffix) (some out)).2.1, none,
        (H.linkProcess T (f1 ++ f2 ++ f3) (some suffix) (some out)).2.2⟩ := by
  unfold Host.linkMain
  dsimp only
  rw [usual_command_line f1 f2 f3 h1 suffix out]
  dsimp only
  rw [if_neg (by simp), if_neg hne]

end

/-- From `process` to `main`. -/
theorem toyLinks_main_facts (run : LinkRun) (p : List Place × List (Option Place × List UInt8) × Option Panic) (h : run = ⟨p.1, p.2.1, none, p.2.2⟩)
    (hb : ∃ v, p.2.2 = none ∧ p.1 = [["out".toList, "new".toList]] ∧
      (toyHost.linkWorld (toyLinks.addDirs p.1)).after toyLinks.files p.2.1 (some ["out".toList, "new".toList, "shot-wm.png".toList]) =
        some [1, v] ∧
      (toyHost.linkWorld (toyLinks.addDirs p.1)).after toyLinks.files p.2.1 (some ["home".toList, "in".toList, "a.png".toList]) =
        some [7]) : ∃ v, exitStatus run.stop = 0 ∧ run.made = [["out".toList, "new".toList]] ∧
      (toyHost.linkWorld (toyLinks.addDirs run.made)).after toyLinks.files run.changes (some ["out".toList, "new".toList, "shot-wm.png".toList]) =
        some [1, v] ∧
      (toyHost.linkWorld (toyLinks.addDirs run.made)).after toyLinks.files run.changes (some ["home".toList, "in".toList, "a.png".toList]) =
        some [7] := by
  subst h
  obtain ⟨v, b1, b2⟩ := hb
  exact ⟨v, (exitStatus_values _).1.mpr b1, b2⟩

/-- `sia shot.png -s wm -o results/new`, where `results` is a link to `/out` and `shot.png` one to `in/a.png`: status 0, `/out/new` is made and
the output is in it. -/
theorem toyLinks_main : ∃ v,
    let run := toyHost.linkMain toyLinks ("sia".toList :: (["shot.png".toList] ++ ["-s".toList, "wm".toList] ++ [] ++
      ["-o".toList, "results/new".toList] ++ []))
    exitStatus run.stop = 0 ∧ run.made = [["out".toList, "new".toList]] ∧
      (toyHost.linkWorld (toyLinks.addDirs run.made)).after toyLinks.files run.changes (some ["out".toList, "new".toList, "shot-wm.png".toList]) =
        some [1, v] ∧
      (toyHost.linkWorld (toyLinks.addDirs run.made)).after toyLinks.files run.changes (some ["home".toList, "in".toList, "a.png".toList]) =
        some [7] := by
  have h := link_main_usual toyHost toyLinks "sia".toList ["shot.png".toList] [] [] (by decide) (by decide) "wm".toList "results/new".toList
  have e : ["shot.png".toList] ++ [] ++ [] = ["shot.png".toList] := by decide
  rw [e] at h
  exact toyLinks_main_facts _ _ h toyLinks_run

/-- `sia in/a.png -s wm -o shot.png`, where `shot.png` is a link to a file: status 1, nothing changed. -/
example : exitStatus (toyHost.linkMain toyLinks ("sia".toList :: (["in/a.png".toList] ++ ["-s".toList, "wm".toList] ++ [] ++
    ["-o".toList, "shot.png".toList] ++ []))).stop = 1 := by
  rw [link_main_usual toyHost toyLinks "sia".toList ["in/a.png".toList] [] [] (by decide) (by decide) "wm".toList "shot.png".toList]
  refine (exitStatus_values _).2.1.mpr ?_
  exact ((link_process_ends toyHost toyLinks_sound (by decide) (["in/a.png".toList] ++ [] ++ []) "wm".toList (some "shot.png".toList)).2.1).mpr
    ⟨_, rfl, _, toyLinks_shot, by decide⟩

/-- `sia -h shot.png`: the usage text, nothing else. -/
example : (toyHost.linkMain toyLinks ["sia".toList, "-h".toList, "shot.png".toList]).usage = some (usageText "sia".toList) :=
  ((link_main_usage toyHost toyLinks "sia".toList ["-h".toList, "shot.png".toList] _).1).mpr
    ⟨rfl, [.help, .file "shot.png".toList], ⟨true, none, none, ["shot.png".toList]⟩,
      CommandLine.more [.help] _ ["-h".toList] _ (by have := Words.flags 1 le_rfl; exact this)
        (CommandLine.more [_] [] [_] [] (.file _ (.inl (by decide))) .done),
      ⟨rfl, rfl, rfl, by simp, by decide⟩, .inl (by simp)⟩

end Sia
