import Verif.Props.CliReportProps
import Verif.Props.CommandLineProps

/-! C74: the exit status of the command line tool. -/
namespace Sia

/-- The library call did not ask the process to exit. -/
def Quiet {α : Type} (r : Res α) : Prop := r ≠ .error .exitOne

theorem quiet_ok {α : Type} (a : α) : Quiet (.ok a : Res α) := by unfold Quiet; simp
theorem quiet_pure {α : Type} (a : α) : Quiet (pure a : Res α) := quiet_ok a
theorem quiet_error {α : Type} (p : Panic) (h : p ≠ .exitOne) : Quiet (.error p : Res α) := by
  unfold Quiet; simpa using h
theorem quiet_bind {α β : Type} (a : Res α) (f : α → Res β) (ha : Quiet a) (hf : ∀ x, Quiet (f x)) : Quiet (a >>= f) := by
  cases a with
  | error e => exact fun h => ha (by simpa [bind, Except.bind] using h)
  | ok x => exact hf x
theorem quiet_mapM {α β : Type} (f : α → Res β) (hf : ∀ x, Quiet (f x)) (l : List α) : Quiet (l.mapM f) := by
  induction l with
  | nil => exact quiet_pure _
  | cons x l ih =>
    rw [List.mapM_cons]
    exact quiet_bind _ _ (hf x) fun y => quiet_bind _ _ ih fun z => quiet_pure _
theorem quiet_foldlM {α β : Type} (f : β → α → Res β) (hf : ∀ b x, Quiet (f b x)) (l : List α) (b : β) : Quiet (l.foldlM f b) := by
  induction l generalizing b with
  | nil => exact quiet_pure _
  | cons x l ih =>
    rw [List.foldlM_cons]
    exact quiet_bind _ _ (hf b x) fun y => ih y

section
variable {F : Type} [FloatOps F]

theorem quiet_fromShapeVec {α : Type} [Inhabited α] (r c : Nat) (v : List α) : Quiet (fromShapeVec r c v) := by
  unfold fromShapeVec
  split_ifs
  · exact quiet_ok _
  · exact quiet_error _ (by decide)

theorem quiet_features (D : Deps F) (c : GrayImage) (a : Nat) : Quiet (equalizedFeatures D c a) := by
  unfold equalizedFeatures channelFeatures orderByFeaturesAmount
  refine quiet_bind _ _ (quiet_fromShapeVec _ _ _) fun m => quiet_bind _ _ ?_ fun o => quiet_mapM _ (fun i => ?_) _
  · split_ifs
    · exact quiet_error _ (by decide)
    · exact quiet_ok _
  · split_ifs
    · exact quiet_error _ (by decide)
    · exact quiet_ok _

theorem quiet_quantization (fs : List F) (step : F) : Quiet (threeBitQuantization fs step) := by
  unfold threeBitQuantization
  refine quiet_bind _ _ (quiet_mapM _ (fun x => ?_) _) fun _ => quiet_pure _
  obtain ⟨f, q⟩ := x
  unfold featureBits
  dsimp only
  split_ifs
  · exact quiet_error _ (by decide)
  · exact quiet_ok _

theorem quiet_strSlice (l : List UInt8) (a b : Nat) : Quiet (strSlice l a b) := by
  unfold strSlice
  split_ifs
  · exact quiet_ok _
  · exact quiet_error _ (by decide)

theorem quiet_decodeHexUnwrap (s : List UInt8) : Quiet (decodeHexUnwrap s) := by
  unfold decodeHexUnwrap
  refine quiet_bind _ _ ?_ fun o => ?_
  · unfold decodeHex
    generalize (List.range ((s.length + 1) / 2)).map (2 * ·) = l
    induction l with
    | nil => exact quiet_ok _
    | cons i l ih =>
      unfold decodeHexLoop
      refine quiet_bind _ _ (quiet_strSlice _ _ _) fun t => ?_
      cases u8FromStrRadix16 t with
      | none => exact quiet_ok _
      | some b =>
        refine quiet_bind _ _ ih fun o => ?_
        cases o <;> exact quiet_ok _
  · cases o
    · exact quiet_error _ (by decide)
    · exact quiet_ok _

theorem quiet_sign (E : Ed25519) (data k p : List UInt8) : Quiet (sign E data k p) := by
  unfold sign
  refine quiet_bind _ _ (quiet_decodeHexUnwrap _) fun a => quiet_bind _ _ (quiet_decodeHexUnwrap _) fun b => ?_
  dsimp only
  split_ifs
  · exact quiet_pure _
  · exact quiet_error _ (by decide)

theorem quiet_serialize (w : Watermark) : Quiet w.serialize := by
  unfold Watermark.serialize
  dsimp only
  split_ifs <;> first | exact quiet_ok _ | exact quiet_error _ (by decide)

theorem quiet_dwt (m : Mat F) (l : Nat) (b : Bool) : Quiet (dwt2d m l b) := by
  unfold dwt2d
  split_ifs with h
  · exact quiet_error _ (by decide)
  all_goals
    refine quiet_foldlM _ (fun m i => ?_) _ _
    unfold dwtIteration
    dsimp only
    split_ifs <;> first | exact quiet_ok _ | exact quiet_error _ (by decide)

theorem quiet_embed (L : Ldpc) (image : Mat UInt8) (bytes : List UInt8) (depth : F) (levels : Nat) :
    Quiet (embed L image bytes depth levels) := by
  unfold embed
  refine quiet_bind _ _ (quiet_dwt _ _ _) fun m => ?_
  dsimp only
  split_ifs
  · exact (fun h => by cases h)
  refine quiet_bind _ _ ?_ fun cap => quiet_bind _ _ ?_ fun ser => quiet_bind _ _ ?_ fun ll => quiet_bind _ _ (quiet_dwt _ _ _) fun r =>
    quiet_pure _
  · unfold getDomainCapacity
    dsimp only
    split
    · exact quiet_error _ (by decide)
    · exact quiet_ok _
  · unfold dataSerialize
    split_ifs
    · exact quiet_error _ (by decide)
    · exact quiet_ok _
  · unfold write
    dsimp only
    have hbits : ∀ st : Nat × Mat F, Quiet ((bytesBits (encode L ser cap)).foldlM (writeBit depth) st) := by
      refine fun st => quiet_foldlM _ (fun b x => ?_) _ _
      unfold writeBit
      dsimp only
      split_ifs
      · exact quiet_ok _
      · exact quiet_error _ (by decide)
    split_ifs
    · exact quiet_bind _ _ (quiet_error _ (by decide)) fun _ => quiet_bind _ _ (hbits _) fun _ => quiet_pure _
    · exact quiet_bind _ _ (hbits _) fun _ => quiet_pure _

theorem quiet_watermarkChannel (D : Deps F) (c : GrayImage) (depth step : F) (a l : Nat) : Quiet (watermarkChannel D c depth step a l) := by
  unfold watermarkChannel
  refine quiet_bind _ _ (quiet_fromShapeVec _ _ _) fun _ => quiet_bind _ _ (quiet_features _ _ _) fun _ =>
    quiet_bind _ _ (quiet_quantization _ _) fun q => quiet_bind _ _ (quiet_sign _ _ _ _) fun _ =>
    quiet_bind _ _ (quiet_serialize _) fun _ => quiet_bind _ _ (quiet_embed _ _ _ _ _) fun _ => ?_
  unfold GrayImage.fromRaw
  split_ifs
  · exact quiet_ok _
  · exact quiet_error _ (by decide)

theorem quiet_watermark (D : Deps F) (image : DynamicImage) (depth step : F) (a : Nat) : Quiet (watermark D image depth step a) := by
  unfold watermark
  dsimp only
  refine quiet_bind _ _ (quiet_watermarkChannel _ _ _ _ _ _) fun _ => ?_
  split_ifs
  · exact quiet_bind _ _ (quiet_watermarkChannel _ _ _ _ _ _) fun _ => quiet_bind _ _ (quiet_watermarkChannel _ _ _ _ _ _) fun _ =>
      quiet_pure _
  · exact quiet_pure _


variable (W : World F)

/-- A round ends normally exactly if its input is completed; its changes leave the output there and nothing else different. -/
theorem processInput_none (fs : Files W.Loc) (suffix : List Char) (folder : Option PathStr) (input : PathStr) :
    ((processInput W fs suffix folder input).2 = none ↔
      ∃ content loc final, fs (W.resolve input) = some content ∧ Completes W suffix folder input content loc final) ∧
    ∀ content loc final, fs (W.resolve input) = some content → Completes W suffix folder input content loc final →
      W.after fs (processInput W fs suffix folder input).1 loc = some final ∧
      ∀ l, l ≠ loc → W.after fs (processInput W fs suffix folder input).1 l = fs l := by
  have main : ∀ content loc final, fs (W.resolve input) = some content → Completes W suffix folder input content loc final →
      (processInput W fs suffix folder input).2 = none ∧
      W.after fs (processInput W fs suffix folder input).1 loc = some final ∧
      ∀ l, l ≠ loc → W.after fs (processInput W fs suffix folder input).1 l = fs l := by
    rintro content loc final hc ⟨image, marked, stem, ext, format, contents, h1, h2, h3, h4, h5, h6, h7, h8⟩
    rw [namedAs_iff] at h3
    rw [← outputPath_eq] at h4 h6
    subst h4
    have e : processInput W fs suffix folder input = ((W.resolve (outputPath stem ext suffix folder), []) ::
        contents.map fun c => (W.resolve (outputPath stem ext suffix folder), c), none) := by
      unfold processInput
      simp only [hc, h1, h2, h3, h5, h6, h7, if_true]
    rw [e]
    refine ⟨rfl, ?_, fun l hl => after_untouched W fs _ l ?_⟩
    · rcases List.eq_nil_or_concat contents with rfl | ⟨cs, c, rfl⟩
      · have := after_last W fs [] (W.resolve (outputPath stem ext suffix folder)) []
        rw [h8]; exact this
      · have := after_last W fs ((W.resolve (outputPath stem ext suffix folder), []) ::
          cs.map fun c => (W.resolve (outputPath stem ext suffix folder), c)) (W.resolve (outputPath stem ext suffix folder)) c
        rw [h8, List.concat_eq_append, List.map_append, List.getLastD_eq_getLast?, List.getLast?_append]
        simpa using this
    · intro e he
      rcases List.mem_cons.mp he with rfl | he'
      · exact hl.symm
      · obtain ⟨c, _, rfl⟩ := List.mem_map.mp he'
        exact hl.symm
  refine ⟨⟨?_, ?_⟩, fun content loc final hc h => (main content loc final hc h).2⟩
  · intro h
    unfold processInput at h
    cases h1 : fs (W.resolve input) with
    | none => rw [h1] at h; simp at h
    | some content =>
    rw [h1] at h
    dsimp only at h
    cases h2 : W.decode input content with
    | none => rw [h2] at h; simp at h
    | some image =>
    rw [h2] at h
    dsimp only at h
    cases h3 : watermark W.deps image (FloatOps.ofInt 100) (FloatOps.ofInt 1) 11 with
    | error p => rw [h3] at h; simp at h
    | ok marked =>
    rw [h3] at h
    dsimp only at h
    cases h4 : (fileName input).bind stemExt with
    | none => rw [h4] at h; simp at h
    | some se =>
    obtain ⟨stem, ext⟩ := se
    rw [h4] at h
    dsimp only at h
    split_ifs at h with h5
    cases h6 : W.formatOf (outputPath stem ext suffix folder) with
    | none => rw [h6] at h; simp at h
    | some format =>
    rw [h6] at h
    dsimp only at h
    split_ifs at h with h7
    refine ⟨content, _, _, rfl, image, marked, stem, ext, format, (W.encode format marked).1, h2, h3,
      (namedAs_iff _ _ _).mpr h4, rfl, ?_, ?_, ?_, rfl⟩
    · rw [← outputPath_eq]; exact h5
    · rw [← outputPath_eq]; exact h6
    · exact Prod.ext rfl h7
  · rintro ⟨content, loc, final, hc, h⟩
    exact (main content loc final hc h).1

/-- The loop ends normally exactly if its inputs are completed in turn, and then leaves the files as this says. -/
theorem processInputs_none (suffix : List Char) (folder : Option PathStr) (inputs : List PathStr) : ∀ fs : Files W.Loc,
    ((processInputs W suffix folder fs inputs).2 = none ↔ ∃ fs', InTurn W suffix folder fs inputs fs') ∧
    ∀ fs', InTurn W suffix folder fs inputs fs' → W.after fs (processInputs W suffix folder fs inputs).1 = fs' := by
  induction inputs with
  | nil =>
    intro fs
    refine ⟨⟨fun _ => ⟨fs, .done fs⟩, fun _ => rfl⟩, fun fs' h => ?_⟩
    cases h
    rfl
  | cons i rest ih =>
    intro fs
    obtain ⟨p1, p2⟩ := processInput_none W fs suffix folder i
    have main : ∀ fs', InTurn W suffix folder fs (i :: rest) fs' →
        (processInputs W suffix folder fs (i :: rest)).2 = none ∧
        W.after fs (processInputs W suffix folder fs (i :: rest)).1 = fs' := by
      intro fs' h
      cases h with
      | next _ between _ _ _ content loc final hc hcomp hb1 hb2 hrest =>
      have hn := p1.2 ⟨content, loc, final, hc, hcomp⟩
      obtain ⟨q1, q2⟩ := p2 content loc final hc hcomp
      have hbet : W.after fs (processInput W fs suffix folder i).1 = between := by
        funext l
        by_cases hl : l = loc
        · rw [hl, q1, hb1]
        · rw [q2 l hl, hb2 l hl]
      conv => unfold processInputs
      cases hp : processInput W fs suffix folder i with
      | mk es r =>
      rw [hp] at hn hbet
      dsimp only at hn hbet
      subst hn
      dsimp only
      rw [hbet]
      obtain ⟨i1, i2⟩ := ih between
      refine ⟨i1.2 ⟨fs', hrest⟩, ?_⟩
      rw [after_append, hbet]
      exact i2 fs' hrest
    refine ⟨⟨fun h => ?_, fun ⟨fs', h⟩ => (main fs' h).1⟩, fun fs' h => (main fs' h).2⟩
    unfold processInputs at h
    cases hp : processInput W fs suffix folder i with
    | mk es r =>
    rw [hp] at h
    cases r with
    | some p => simp at h
    | none =>
    dsimp only at h
    obtain ⟨content, loc, final, hc, hcomp⟩ := p1.1 (by rw [hp])
    obtain ⟨q1, q2⟩ := p2 content loc final hc hcomp
    rw [hp] at q1 q2
    obtain ⟨fs', h'⟩ := (ih _).1.1 h
    exact ⟨fs', .next fs _ fs' i rest content loc final hc hcomp q1 q2 h'⟩

theorem processInputs_quiet (suffix : List Char) (folder : Option PathStr) (inputs : List PathStr) : ∀ fs : Files W.Loc,
    (processInputs W suffix folder fs inputs).2 ≠ some .exitOne := by
  induction inputs with
  | nil => intro fs; simp [processInputs]
  | cons i rest ih =>
    intro fs
    have h1 : (processInput W fs suffix folder i).2 ≠ some .exitOne := by
      unfold processInput
      cases fs (W.resolve i) with
      | none => simp
      | some content =>
      dsimp only
      cases W.decode i content with
      | none => simp
      | some image =>
      dsimp only
      have hq := quiet_watermark W.deps image (FloatOps.ofInt 100) (FloatOps.ofInt 1) 11
      cases h3 : watermark W.deps image (FloatOps.ofInt 100) (FloatOps.ofInt 1) 11 with
      | error p =>
        rw [h3] at hq
        intro h
        exact hq (by rw [Option.some_inj.1 h])
      | ok marked =>
      dsimp only
      cases (fileName i).bind stemExt with
      | none => simp
      | some se =>
      obtain ⟨stem, ext⟩ := se
      dsimp only
      split_ifs with h5
      · cases W.formatOf (outputPath stem ext suffix folder) with
        | none => simp
        | some format =>
          dsimp only
          split_ifs <;> simp
      · simp
    unfold processInputs
    cases hp : processInput W fs suffix folder i with
    | mk es r =>
    rw [hp] at h1
    cases r with
    | some p => exact h1
    | none => exact ih _

theorem exitStatus_values (r : Option Panic) : (exitStatus r = 0 ↔ r = none) ∧ (exitStatus r = 1 ↔ r = some .exitOne) ∧
    (exitStatus r = 0 ∨ exitStatus r = 1 ∨ exitStatus r = 101) := by
  cases r with
  | none => simp [exitStatus]
  | some p => cases p <;> simp [exitStatus]

/-- How a run goes, case by case. -/
theorem run_cases (fs : Files W.Loc) (args : List (List Char)) :
    ((¬ ∃ is m, CommandLine is args ∧ Means is m) ∧ cliRun W fs args = ([], some .badArguments)) ∨
    ∃ m, parseArgs args = .ok m ∧
      (((m.help = true ∨ m.free = [] ∨ m.suffix = none) ∧ cliRun W fs args = ([], none)) ∨
      ∃ s, m.help = false ∧ m.free ≠ [] ∧ m.suffix.toList = [s] ∧
        ((m.output.toList = [] ∧ cliRun W fs args = processInputs W s none fs m.free) ∨
        (∃ o, m.output.toList = [o] ∧ W.blocked o = true ∧ cliRun W fs args = ([], some .exitOne)) ∨
        (∃ o, m.output.toList = [o] ∧ W.blocked o = false ∧ W.folder o = none ∧ cliRun W fs args = ([], some .fileError)) ∨
        ∃ o f, m.output.toList = [o] ∧ W.blocked o = false ∧ W.folder o = some f ∧
          cliRun W fs args = processInputs W s (some f) fs m.free)) := by
  cases hp : parseArgs args with
  | error e =>
    refine .inl ⟨?_, by unfold cliRun; rw [hp]; rfl⟩
    rintro ⟨is, m, hc, hm⟩
    have := (command_line_read args m).mpr ⟨is, hc, hm⟩
    rw [hp] at this
    cases this
  | ok m =>
    refine .inr ⟨m, rfl, ?_⟩
    have hr : cliRun W fs args = if m.help = true then ([], none) else if m.free = [] then ([], none)
        else process W fs m.free m.suffix m.output := by
      unfold cliRun; rw [hp]; rfl
    by_cases h1 : m.help = true
    · exact .inl ⟨.inl h1, by rw [hr, if_pos h1]⟩
    by_cases h2 : m.free = []
    · exact .inl ⟨.inr (.inl h2), by rw [hr, if_neg h1, if_pos h2]⟩
    rw [if_neg h1, if_neg h2] at hr
    cases h3 : m.suffix with
    | none => exact .inl ⟨.inr (.inr rfl), by rw [hr, h3]; rfl⟩
    | some s =>
      refine .inr ⟨s, by simpa using h1, h2, rfl, ?_⟩
      rw [h3] at hr
      cases h4 : m.output with
      | none => exact .inl ⟨rfl, by rw [hr, h4]; rfl⟩
      | some o =>
        have hpr : process W fs m.free (some s) (some o) = if W.blocked o = true then ([], some .exitOne) else
          match W.folder o with
          | none => ([], some .fileError)
          | some f => processInputs W s (some f) fs m.free := rfl
        rw [h4, hpr] at hr
        by_cases hb : W.blocked o = true
        · exact .inr (.inl ⟨o, rfl, hb, by rw [hr, if_pos hb]⟩)
        · have hb' : W.blocked o = false := by simpa using hb
          rw [if_neg hb] at hr
          cases hf : W.folder o with
          | none => exact .inr (.inr (.inl ⟨o, rfl, hb', hf, by rw [hr, hf]⟩))
          | some f => exact .inr (.inr (.inr ⟨o, f, rfl, hb', hf, by rw [hr, hf]⟩))

theorem read_as (args : List (List Char)) (m : Matches) (h : parseArgs args = .ok m)
    (Q : Prop → List (List Char) → List (List Char) → List (List Char) → Prop) :
    (∃ is m', CommandLine is args ∧ Means is m' ∧ Q (Item.help ∈ is) (fileNames is) (suffixValues is) (outputValues is)) ↔
      Q (m.help = true) m.free m.suffix.toList m.output.toList := by
  constructor
  · rintro ⟨is, m', hc, hm, hq⟩
    have := (command_line_read args m').mpr ⟨is, hc, hm⟩
    rw [h] at this
    cases this
    rw [hm.files, hm.suffix, hm.output, propext hm.help]
    exact hq
  · intro hq
    obtain ⟨is, hc, hm⟩ := (command_line_read args m).mp h
    rw [hm.files, hm.suffix, hm.output, propext hm.help] at hq
    exact ⟨is, m, hc, hm, hq⟩

/-- C74: a run exits with status 0 exactly if the command line was understood and asked for no work, or named a usable folder (or
none) and every input was completed in turn; with status 1 exactly if there was work and the output exists and is not a folder, in
which case no file was changed; and with status 101 otherwise. -/
theorem exit_status (fs : Files W.Loc) (args : List (List Char)) :
    (exitStatus (cliRun W fs args).2 = 0 ↔ ∃ is m, CommandLine is args ∧ Means is m ∧
      ((Item.help ∈ is ∨ fileNames is = [] ∨ suffixValues is = []) ∨ ∃ suffix, suffixValues is = [suffix] ∧
        ((outputValues is = [] ∧ ∃ fs', InTurn W suffix none fs (fileNames is) fs') ∨
          ∃ o f, outputValues is = [o] ∧ W.blocked o = false ∧ W.folder o = some f ∧
            ∃ fs', InTurn W suffix (some f) fs (fileNames is) fs'))) ∧
    (exitStatus (cliRun W fs args).2 = 1 ↔ ∃ is m, CommandLine is args ∧ Means is m ∧
      Item.help ∉ is ∧ fileNames is ≠ [] ∧ suffixValues is ≠ [] ∧ ∃ o, outputValues is = [o] ∧ W.blocked o = true) ∧
    (exitStatus (cliRun W fs args).2 = 1 → (cliRun W fs args).1 = []) ∧
    (exitStatus (cliRun W fs args).2 = 0 ∨ exitStatus (cliRun W fs args).2 = 1 ∨ exitStatus (cliRun W fs args).2 = 101) := by
  refine ⟨?_, ?_, ?_, (exitStatus_values _).2.2⟩
  all_goals simp only [(exitStatus_values _).1, (exitStatus_values _).2.1]
  all_goals
    rcases run_cases W fs args with ⟨hno, hr⟩ | ⟨m, hp, hr⟩
  · rw [hr]
    refine ⟨fun h => (by cases h), ?_⟩
    rintro ⟨is, m, hc, hm, _⟩
    exact (hno ⟨is, m, hc, hm⟩).elim
  · rw [read_as args m hp (fun help files suffixes outputs => (help ∨ files = [] ∨ suffixes = []) ∨ ∃ suffix, suffixes = [suffix] ∧
        ((outputs = [] ∧ ∃ fs', InTurn W suffix none fs files fs') ∨
          ∃ o f, outputs = [o] ∧ W.blocked o = false ∧ W.folder o = some f ∧ ∃ fs', InTurn W suffix (some f) fs files fs'))]
    rcases hr with ⟨h, hr⟩ | ⟨s, h1, h2, h3, hr⟩
    · rw [hr]
      refine ⟨fun _ => .inl ?_, fun _ => rfl⟩
      rcases h with h | h | h
      · exact .inl h
      · exact .inr (.inl h)
      · exact .inr (.inr (by rw [h]; rfl))
    have hl : ¬ (m.help = true ∨ m.free = [] ∨ m.suffix.toList = []) := by
      rintro (h | h | h)
      · rw [h1] at h; cases h
      · exact h2 h
      · rw [h3] at h; cases h
    rw [or_iff_right hl, h3]
    rcases hr with ⟨ho, hr⟩ | ⟨o, ho, hb, hr⟩ | ⟨o, ho, hb, hf, hr⟩ | ⟨o, f, ho, hb, hf, hr⟩
    · rw [hr, ho, (processInputs_none W s none m.free fs).1]
      constructor
      · exact fun h => ⟨s, rfl, .inl ⟨rfl, h⟩⟩
      · rintro ⟨s', h, ⟨_, h'⟩ | ⟨o, f, h', _⟩⟩
        · cases h; exact h'
        · cases h'
    · rw [hr, ho]
      refine ⟨fun h => (by cases h), ?_⟩
      rintro ⟨s', h, ⟨h', _⟩ | ⟨o', f, h', h'', _⟩⟩
      · cases h'
      · cases h'; rw [hb] at h''; cases h''
    · rw [hr, ho]
      refine ⟨fun h => (by cases h), ?_⟩
      rintro ⟨s', h, ⟨h', _⟩ | ⟨o', f, h', _, h'', _⟩⟩
      · cases h'
      · cases h'; rw [hf] at h''; cases h''
    · rw [hr, ho, (processInputs_none W s (some f) m.free fs).1]
      constructor
      · exact fun h => ⟨s, rfl, .inr ⟨o, f, rfl, hb, hf, h⟩⟩
      · rintro ⟨s', h, ⟨h', _⟩ | ⟨o', f', h', _, h'', h9⟩⟩
        · cases h'
        · cases h; cases h'; rw [hf] at h''; cases h''; exact h9
  · rw [hr]
    refine ⟨fun h => (by cases h), ?_⟩
    rintro ⟨is, m, hc, hm, _⟩
    exact (hno ⟨is, m, hc, hm⟩).elim
  · rw [read_as args m hp (fun help files suffixes outputs => ¬ help ∧ files ≠ [] ∧ suffixes ≠ [] ∧ ∃ o, outputs = [o] ∧
        W.blocked o = true)]
    rcases hr with ⟨h, hr⟩ | ⟨s, h1, h2, h3, hr⟩
    · rw [hr]
      refine ⟨fun h => (by cases h), fun ⟨g1, g2, g3, _⟩ => ?_⟩
      rcases h with h | h | h
      · exact absurd h g1
      · exact absurd h g2
      · rw [h] at g3; exact absurd rfl g3
    have hg : ¬ m.help = true ∧ m.free ≠ [] ∧ m.suffix.toList ≠ [] := ⟨by rw [h1]; decide, h2, by rw [h3]; simp⟩
    rcases hr with ⟨ho, hr⟩ | ⟨o, ho, hb, hr⟩ | ⟨o, ho, hb, hf, hr⟩ | ⟨o, f, ho, hb, hf, hr⟩
    · rw [hr, ho]
      refine ⟨fun h => absurd h (processInputs_quiet W s none m.free fs), ?_⟩
      rintro ⟨_, _, _, o, h, _⟩
      cases h
    · rw [hr, ho]
      exact ⟨fun _ => ⟨hg.1, hg.2.1, hg.2.2, o, rfl, hb⟩, fun _ => rfl⟩
    · rw [hr, ho]
      refine ⟨fun h => (by cases h), ?_⟩
      rintro ⟨_, _, _, o', h, h'⟩
      cases h; rw [hb] at h'; cases h'
    · rw [hr, ho]
      refine ⟨fun h => absurd h (processInputs_quiet W s (some f) m.free fs), ?_⟩
      rintro ⟨_, _, _, o', h, h'⟩
      cases h; rw [hb] at h'; cases h'
  · intro _; rw [hr]
  · intro hx
    rcases hr with ⟨h, hr⟩ | ⟨s, h1, h2, h3, hr⟩
    · rw [hr]
    rcases hr with ⟨ho, hr⟩ | ⟨o, ho, hb, hr⟩ | ⟨o, ho, hb, hf, hr⟩ | ⟨o, f, ho, hb, hf, hr⟩
    · rw [hr] at hx; exact absurd hx (processInputs_quiet W s none m.free fs)
    · rw [hr]
    · rw [hr]
    · rw [hr] at hx; exact absurd hx (processInputs_quiet W s (some f) m.free fs)

/-- C74: what status 0 after work means for the files: they are as completing the inputs in turn leaves them. -/
theorem exit_zero_files (fs : Files W.Loc) (args : List (List Char)) (is : List Item) (hc : CommandLine is args)
    (hhelp : Item.help ∉ is) (hfiles : fileNames is ≠ []) (suffix : List Char) (hs : suffixValues is = [suffix])
    (folder : Option PathStr) (ho : (outputValues is = [] ∧ folder = none) ∨
      ∃ o f, outputValues is = [o] ∧ W.blocked o = false ∧ W.folder o = some f ∧ folder = some f) :
    (exitStatus (cliRun W fs args).2 = 0 ↔ ∃ fs', InTurn W suffix folder fs (fileNames is) fs') ∧
    ∀ fs', InTurn W suffix folder fs (fileNames is) fs' → W.after fs (cliRun W fs args).1 = fs' := by
  obtain ⟨r1, r2⟩ := run_processes W fs args is hc suffix hhelp hfiles hs
  have hr : cliRun W fs args = processInputs W suffix folder fs (fileNames is) := by
    rcases ho with ⟨h, rfl⟩ | ⟨o, f, h, hb, hf, rfl⟩
    · exact r1 h
    · exact r2 o f h hb hf
  rw [hr, (exitStatus_values _).1]
  exact processInputs_none W suffix folder (fileNames is) fs

/-- C74: on status 1 the only line printed says so. -/
theorem blocked_message (clock : Nat → Nat × Nat) (fs : Files W.Loc) (inputs : List PathStr) (suffix : List Char) (o : PathStr)
    (hb : W.blocked o = true) :
    Action.lines (processActions W clock fs inputs (some suffix) (some o)).1 = [String.ofList o ++ " is not a folder"] ∧
      Action.writes (processActions W clock fs inputs (some suffix) (some o)).1 = [] := by
  have : processActions W clock fs inputs (some suffix) (some o) =
      ([.print (String.ofList o ++ " is not a folder")], some .exitOne) := by
    show (if W.blocked o = true then _ else _) = _
    rw [if_pos hb]
  rw [this]
  exact ⟨rfl, rfl⟩

end

theorem inTurn_of_cleanBatch {F : Type} [FloatOps F] (W : World F) (suffix : List Char) (folder : Option PathStr)
    (inputs : List PathStr) (fs : Files W.Loc) (results : List (W.Loc × List UInt8))
    (h : CleanBatch W suffix folder fs inputs results) : ∃ fs', InTurn W suffix folder fs inputs fs' :=
  ((processInputs_none W suffix folder inputs fs).1).1 (batch_completes W suffix folder fs inputs results h).1

/-- The toy world, where the name "file" is that of a file. -/
noncomputable def fileWorld : World ℝ := { toyWorld with blocked := fun o => decide (o = "file".toList) }

theorem fileWorld_clean : ∃ results, CleanBatch fileWorld "wm".toList (some "out".toList) (fun _ => some [7])
    ["in/a.png".toList, "in/b.png".toList] results := by
  obtain ⟨v, h1, h2, h3⟩ := toyWorld_clean
  exact ⟨_, h1, h2, h3⟩

/-- The three statuses occur: two files that are marked, a folder name that is a file, and an option nobody knows. -/
example :
    exitStatus (cliRun fileWorld (fun _ => some [7]) ["-s".toList, "wm".toList, "in/a.png".toList, "in/b.png".toList, "-oout".toList]).2 = 0 ∧
    exitStatus (cliRun fileWorld (fun _ => some [7]) ["-s".toList, "wm".toList, "in/a.png".toList, "-ofile".toList]).2 = 1 ∧
    exitStatus (cliRun fileWorld (fun _ => some [7]) ["-x".toList]).2 = 101 := by
  refine ⟨?_, ?_, ?_⟩
  · obtain ⟨results, h⟩ := fileWorld_clean
    have hc : CommandLine [.suffix "wm".toList, .file "in/a.png".toList, .file "in/b.png".toList, .output "out".toList]
        ["-s".toList, "wm".toList, "in/a.png".toList, "in/b.png".toList, "-oout".toList] :=
      .more _ _ _ _ (.separate 0 's' .suffix _ .s) (.more [_] _ [_] _ (.file _ (.inl (by decide))) (.more [_] _ [_] _ (.file _ (.inl (by decide)))
        (.more _ _ _ _ (.joined 0 'o' .output "out".toList .o (by decide)) .done)))
    exact (exit_zero_files fileWorld (fun _ => some [7]) _ _ hc (by decide) (by decide) "wm".toList rfl (some "out".toList)
      (.inr ⟨"out".toList, "out".toList, rfl, rfl, rfl, rfl⟩)).1.2 (inTurn_of_cleanBatch fileWorld _ _ _ _ _ h)
  · have hc : CommandLine [.suffix "wm".toList, .file "in/a.png".toList, .output "file".toList]
        ["-s".toList, "wm".toList, "in/a.png".toList, "-ofile".toList] :=
      .more _ _ _ _ (.separate 0 's' .suffix _ .s) (.more [_] _ [_] _ (.file _ (.inl (by decide)))
        (.more _ _ _ _ (.joined 0 'o' .output "file".toList .o (by decide)) .done))
    have hm : Means [.suffix "wm".toList, .file "in/a.png".toList, .output "file".toList]
        ⟨false, some "wm".toList, some "file".toList, ["in/a.png".toList]⟩ :=
      ⟨rfl, rfl, rfl, by decide, by decide⟩
    exact (exit_status fileWorld _ _).2.1.2 ⟨_, _, hc, hm, by decide, by decide, by decide, "file".toList, rfl, rfl⟩
  · have : parseArgs ["-x".toList] = .error (.unrecognizedOption ['x']) := by
      simp [parseArgs, parseLoop, isOptArg, optionWord, collectShorts, findShort]
    unfold cliRun
    rw [this]
    rfl

end Sia
