import Verif.Model.CliReport
import Verif.Props.CliExamples

/-! C70: the tool's report. A line is printed only for a file that has been written completely. -/
namespace Sia

section
variable {F : Type} [FloatOps F] (W : World F)

theorem writes_map (es : List (Event W)) : Action.writes (es.map Action.write) = es := by
  induction es with
  | nil => rfl
  | cons e es ih => simp only [List.map_cons, Action.writes, List.filterMap_cons]; exact congrArg _ ih

theorem writes_append (as bs : List (Action W)) : Action.writes (as ++ bs) = Action.writes as ++ Action.writes bs :=
  List.filterMap_append

theorem lines_append (as bs : List (Action W)) : Action.lines (as ++ bs) = Action.lines as ++ Action.lines bs :=
  List.filterMap_append

theorem lines_map (es : List (Event W)) : Action.lines (es.map Action.write) = [] := by
  induction es with
  | nil => rfl
  | cons e es ih => simp only [List.map_cons, Action.lines, List.filterMap_cons]; exact ih

/-- What a round that ends without a panic has done. -/
theorem processInput_ok (fs : Files W.Loc) (suffix : List Char) (folder : Option PathStr) (input : PathStr) (es : List (Event W))
    (h : processInput W fs suffix folder input = (es, none)) :
    ∃ content image marked stem ext format contents, fs (W.resolve input) = some content ∧ W.decode input content = some image ∧
      watermark W.deps image (FloatOps.ofInt 100) (FloatOps.ofInt 1) 11 = .ok marked ∧ NamedAs input stem ext ∧
      W.creatable (W.resolve (OutName stem ext suffix folder)) = true ∧ W.formatOf (OutName stem ext suffix folder) = some format ∧
      W.encode format marked = (contents, true) ∧
      es = ([] :: contents).map fun c => (W.resolve (OutName stem ext suffix folder), c) := by
  unfold processInput at h
  cases h1 : fs (W.resolve input) with
  | none => rw [h1] at h; simp at h
  | some content =>
  rw [h1] at h
  dsimp only at h
  cases h2 : W.decode input content with
  | none => rw [h2] at h; simp at h
  | some image =>
  rw [h2] at h
  dsimp only at h
  cases h3 : watermark W.deps image (FloatOps.ofInt 100) (FloatOps.ofInt 1) 11 with
  | error p => rw [h3] at h; simp at h
  | ok marked =>
  rw [h3] at h
  dsimp only at h
  cases h4 : (fileName input).bind stemExt with
  | none => rw [h4] at h; simp at h
  | some se =>
  obtain ⟨stem, ext⟩ := se
  rw [h4] at h
  dsimp only at h
  rw [outputPath_eq] at h
  split_ifs at h with h5
  · cases h6 : W.formatOf (OutName stem ext suffix folder) with
    | none => rw [h6] at h; simp at h
    | some format =>
      rw [h6] at h
      simp only at h
      cases h7 : W.encode format marked with
      | mk contents ok =>
        have e1 : (W.encode format marked).1 = contents := by rw [h7]
        have e2 : (W.encode format marked).2 = ok := by rw [h7]
        change ((W.resolve (OutName stem ext suffix folder), []) ::
          List.map (fun c => (W.resolve (OutName stem ext suffix folder), c)) (W.encode format marked).1,
          if (W.encode format marked).2 = true then none else some Panic.fileError) = (es, none) at h
        rw [e1, e2] at h
        cases ok with
        | false => simp at h
        | true =>
          refine ⟨content, image, marked, stem, ext, format, contents, rfl, h2, h3, (namedAs_iff _ _ _).mpr h4, h5, h6, h7, ?_⟩
          rw [← (Prod.mk.inj h).1]
          rfl
  · simp at h

/-- A round prints its line at the end, and only if it succeeded. -/
theorem processInputActions_eq (fs : Files W.Loc) (suffix : List Char) (folder : Option PathStr) (elapsed : Nat × Nat)
    (input : PathStr) (es : List (Event W)) (r : Option Panic) (h : processInput W fs suffix folder input = (es, r)) :
    (∃ p, r = some p ∧ processInputActions W fs suffix folder elapsed input = (es.map .write, some p)) ∨
    (r = none ∧ ∃ content image marked stem ext format contents, fs (W.resolve input) = some content ∧
      W.decode input content = some image ∧
      watermark W.deps image (FloatOps.ofInt 100) (FloatOps.ofInt 1) 11 = .ok marked ∧ NamedAs input stem ext ∧
      W.formatOf (OutName stem ext suffix folder) = some format ∧ W.encode format marked = (contents, true) ∧
      es = ([] :: contents).map (fun c => (W.resolve (OutName stem ext suffix folder), c)) ∧
      processInputActions W fs suffix folder elapsed input = (es.map .write ++ [.print (reportLine (OutName stem ext suffix folder)
        image.color.channelCount marked.color.channelCount elapsed)], none)) := by
  cases r with
  | some p => left; exact ⟨p, rfl, by unfold processInputActions; rw [h]⟩
  | none =>
    right
    obtain ⟨content, image, marked, stem, ext, format, contents, h1, h2, h3, h4, h5, h6, h7, h8⟩ :=
      processInput_ok W fs suffix folder input es h
    refine ⟨rfl, content, image, marked, stem, ext, format, contents, h1, h2, h3, h4, h6, h7, h8, ?_⟩
    unfold processInputActions
    rw [h]
    dsimp only
    have hb : (fs (W.resolve input)).bind (W.decode input) = some image := by rw [h1]; exact h2
    rw [hb]
    dsimp only
    rw [h3, (namedAs_iff _ _ _).mp h4]
    dsimp only
    rw [outputPath_eq]

/-- The model with output makes the same changes, and ends in the same way, as the one without. -/
theorem report_same_changes (suffix : List Char) (folder : Option PathStr) (inputs : List PathStr) :
    ∀ (clock : Nat → Nat × Nat) (fs : Files W.Loc),
      Action.writes (processInputsActions W suffix folder clock fs inputs).1 = (processInputs W suffix folder fs inputs).1 ∧
      (processInputsActions W suffix folder clock fs inputs).2 = (processInputs W suffix folder fs inputs).2 := by
  induction inputs with
  | nil => intro clock fs; exact ⟨rfl, rfl⟩
  | cons i inputs ih =>
    intro clock fs
    unfold processInputsActions processInputs
    cases hp : processInput W fs suffix folder i with
    | mk es r =>
      rcases processInputActions_eq W fs suffix folder (clock 0) i es r hp with ⟨p, rfl, hq⟩ |
        ⟨rfl, content, image, marked, stem, ext, format, contents, _, _, _, _, _, _, _, hq⟩
      · rw [hq]; exact ⟨writes_map W es, rfl⟩
      · rw [hq]
        dsimp only
        have hw : Action.writes (es.map Action.write ++ [Action.print (W := W) (reportLine (OutName stem ext suffix folder)
            image.color.channelCount marked.color.channelCount (clock 0))]) = es := by
          rw [writes_append, writes_map]; exact List.append_nil _
        rw [hw]
        obtain ⟨i1, i2⟩ := ih (fun k => clock (k + 1)) (W.after fs es)
        refine ⟨?_, i2⟩
        rw [writes_append, hw, i1]

theorem channelCount_kept (D : Deps F) (image out : DynamicImage) (depth step : F) (a : Nat)
    (h : watermark D image depth step a = .ok out) : out.color.channelCount = image.color.channelCount := by
  obtain ⟨_, _, hc, _⟩ := watermark_keeps_shape_and_alpha D image out depth step a h
  rw [hc]
  cases image.color <;> rfl

/-- The number of channels of a picture: three or one for the colour, one more for transparency. -/
def channels (image : DynamicImage) : Nat := (if image.color.hasColor then 3 else 1) + (if image.color.hasAlpha then 1 else 0)

theorem channelCount_spec (image : DynamicImage) : image.color.channelCount = channels image := by
  unfold channels
  cases image.color <;> rfl

/-- C70: whenever a line is printed, it is the line of the next input in order, it names that input's output file, that file holds
at this moment everything the encoder wrote for the watermarked image (made from what the input held when its round began), and the
two channel counts it gives are equal. -/
theorem report_is_true (suffix : List Char) (folder : Option PathStr) (inputs : List PathStr) :
    ∀ (clock : Nat → Nat × Nat) (fs : Files W.Loc) (pre post : List (Action W)) (line : String),
      (processInputsActions W suffix folder clock fs inputs).1 = pre ++ .print line :: post →
      ∃ input content image marked stem ext format contents,
        inputs[(Action.lines pre).length]? = some input ∧ NamedAs input stem ext ∧
        line = "Watermarked " ++ String.ofList (OutName stem ext suffix folder) ++ " (" ++ toString (channels image) ++
          " -> " ++ toString (channels image) ++ " channels) in " ++
          displayElapsed (clock (Action.lines pre).length).1 (clock (Action.lines pre).length).2 ∧
        (∃ begun rest, Action.writes pre = begun ++ rest ∧ W.after fs begun (W.resolve input) = some content) ∧
        W.decode input content = some image ∧
        watermark W.deps image (FloatOps.ofInt 100) (FloatOps.ofInt 1) 11 = .ok marked ∧
        W.formatOf (OutName stem ext suffix folder) = some format ∧ W.encode format marked = (contents, true) ∧
        W.after fs (Action.writes pre) (W.resolve (OutName stem ext suffix folder)) = some (contents.getLastD []) := by
  induction inputs with
  | nil =>
    intro clock fs pre post line h
    unfold processInputsActions at h
    exact absurd (congrArg List.length h) (by simp)
  | cons i inputs ih =>
    intro clock fs pre post line h
    unfold processInputsActions at h
    have hnop : ∀ (es : List (Event W)) (bs pre post : List (Action W)) (line : String),
        es.map Action.write ++ bs = pre ++ Action.print line :: post → ∃ pre', pre = es.map Action.write ++ pre' ∧
          bs = pre' ++ Action.print line :: post := by
      intro es
      induction es with
      | nil => intro bs pre post line h; exact ⟨pre, rfl, h⟩
      | cons e es ihe =>
        intro bs pre post line h
        cases pre with
        | nil => simp only [List.map_cons, List.cons_append, List.nil_append, List.cons.injEq] at h; cases h.1
        | cons a pre =>
          simp only [List.map_cons, List.cons_append, List.cons.injEq] at h
          obtain ⟨pre', e1, e2⟩ := ihe bs pre post line h.2
          exact ⟨pre', by rw [e1, ← h.1]; rfl, e2⟩
    cases hp : processInput W fs suffix folder i with
    | mk es r =>
      rcases processInputActions_eq W fs suffix folder (clock 0) i es r hp with ⟨p, rfl, hq⟩ |
        ⟨rfl, content, image, marked, stem, ext, format, contents, h1, h2, h3, h4, h5, h6, h7, hq⟩
      · rw [hq] at h
        dsimp only at h
        obtain ⟨pre', _, e2⟩ := hnop es [] pre post line (by rw [List.append_nil]; exact h)
        exact absurd (congrArg List.length e2) (by simp)
      · rw [hq] at h
        dsimp only at h
        rw [List.append_assoc] at h
        obtain ⟨pre', e1, e2⟩ := hnop es _ pre post line h
        have hw : Action.writes (es.map Action.write ++ [Action.print (W := W) (reportLine (OutName stem ext suffix folder)
            image.color.channelCount marked.color.channelCount (clock 0))]) = es := by
          rw [writes_append, writes_map]; exact List.append_nil _
        cases pre' with
        | nil =>
          simp only [List.nil_append, List.singleton_append, List.cons.injEq, Action.print.injEq] at e2
          rw [List.append_nil] at e1
          have hl0 : (Action.lines pre).length = 0 := by rw [e1, lines_map]; rfl
          have hw0 : Action.writes pre = es := by rw [e1, writes_map]
          rw [hl0, hw0]
          refine ⟨i, content, image, marked, stem, ext, format, contents, rfl, h4, ?_, ⟨[], es, rfl, h1⟩, h2, h3, h5, h6, ?_⟩
          · rw [← e2.1, channelCount_kept W.deps image marked _ _ 11 h3, channelCount_spec]
            rfl
          · rw [h7]
            rcases List.eq_nil_or_concat' contents with rfl | ⟨cs, c, rfl⟩
            · exact after_last W fs [] _ []
            · have hrew : (([] : List UInt8) :: (cs ++ [c])).map (fun c => (W.resolve (OutName stem ext suffix folder), c)) =
                  (([] : List UInt8) :: cs).map (fun c => (W.resolve (OutName stem ext suffix folder), c)) ++
                    [(W.resolve (OutName stem ext suffix folder), c)] := by
                rw [← List.cons_append, List.map_append]; rfl
              rw [hrew, after_last W fs _ _ c]
              simp
        | cons a pre'' =>
          simp only [List.singleton_append, List.cons_append, List.cons.injEq] at e2
          obtain ⟨ea, e2⟩ := e2
          rw [hw] at e2
          obtain ⟨input', content', image', marked', stem', ext', format', contents', g1, g2, g3, g4, g5, g6, g7, g8, g9⟩ :=
            ih (fun k => clock (k + 1)) (W.after fs es) pre'' post line e2
          have hl : (Action.lines pre).length = (Action.lines pre'').length + 1 := by
            rw [e1, lines_append, lines_map, ← ea]
            simp [Action.lines]
          have hwr : Action.writes pre = es ++ Action.writes pre'' := by
            rw [e1, writes_append, writes_map, ← ea]
            simp [Action.writes]
          rw [hl, hwr, after_append]
          obtain ⟨begun, rest, b1, b2⟩ := g4
          refine ⟨input', content', image', marked', stem', ext', format', contents', g1, g2, g3,
            ⟨es ++ begun, rest, by rw [b1, List.append_assoc], by rw [after_append]; exact b2⟩, g5, g6, g7, g8, g9⟩

/-- C70: as many lines are printed as inputs were finished: all of them if the run ends normally, fewer otherwise. -/
theorem report_counts (suffix : List Char) (folder : Option PathStr) (inputs : List PathStr) :
    ∀ (clock : Nat → Nat × Nat) (fs : Files W.Loc),
      ((processInputs W suffix folder fs inputs).2 = none →
        (Action.lines (processInputsActions W suffix folder clock fs inputs).1).length = inputs.length) ∧
      ((processInputs W suffix folder fs inputs).2 ≠ none →
        (Action.lines (processInputsActions W suffix folder clock fs inputs).1).length < inputs.length) := by
  induction inputs with
  | nil => intro clock fs; exact ⟨fun _ => rfl, fun h => absurd rfl h⟩
  | cons i inputs ih =>
    intro clock fs
    unfold processInputsActions processInputs
    cases hp : processInput W fs suffix folder i with
    | mk es r =>
      rcases processInputActions_eq W fs suffix folder (clock 0) i es r hp with ⟨p, rfl, hq⟩ |
        ⟨rfl, content, image, marked, stem, ext, format, contents, _, _, _, _, _, _, _, hq⟩
      · rw [hq]
        dsimp only
        refine ⟨fun h => (by cases h), fun _ => ?_⟩
        rw [lines_map]
        simp
      · rw [hq]
        dsimp only
        have hw : Action.writes (es.map Action.write ++ [Action.print (W := W) (reportLine (OutName stem ext suffix folder)
            image.color.channelCount marked.color.channelCount (clock 0))]) = es := by
          rw [writes_append, writes_map]; exact List.append_nil _
        rw [hw, lines_append, lines_append, lines_map]
        obtain ⟨i1, i2⟩ := ih (fun k => clock (k + 1)) (W.after fs es)
        refine ⟨fun h => ?_, fun h => ?_⟩
        · have := i1 h
          simp only [Action.lines, List.filterMap_cons, List.filterMap_nil, List.nil_append, List.singleton_append,
            List.length_cons] at this ⊢
          omega
        · have := i2 h
          simp only [Action.lines, List.filterMap_cons, List.filterMap_nil, List.nil_append, List.singleton_append,
            List.length_cons] at this ⊢
          omega

/-- C70: the whole `process` with its output: same changes, same end as without; without a suffix only one line. -/
theorem report_process (clock : Nat → Nat × Nat) (fs : Files W.Loc) (inputs : List PathStr) (suffix : Option (List Char))
    (output : Option PathStr) :
    Action.writes (processActions W clock fs inputs suffix output).1 = (process W fs inputs suffix output).1 ∧
    (processActions W clock fs inputs suffix output).2 = (process W fs inputs suffix output).2 ∧
    (suffix = none → Action.lines (processActions W clock fs inputs suffix output).1 = ["No output image"]) := by
  unfold processActions process
  cases suffix with
  | none => exact ⟨rfl, rfl, fun _ => rfl⟩
  | some s =>
    cases output with
    | none => exact ⟨(report_same_changes W s none inputs clock fs).1, (report_same_changes W s none inputs clock fs).2, fun h => by cases h⟩
    | some o =>
      dsimp only
      cases W.blocked o with
      | true => exact ⟨rfl, rfl, fun h => by cases h⟩
      | false =>
      simp only [Bool.false_eq_true, if_false]
      cases W.folder o with
      | none => exact ⟨rfl, rfl, fun h => by cases h⟩
      | some f =>
        exact ⟨(report_same_changes W s (some f) inputs clock fs).1, (report_same_changes W s (some f) inputs clock fs).2,
          fun h => by cases h⟩

end

/-- The clean batch of the toy world prints two lines. -/
example (clock : Nat → Nat × Nat) : (Action.lines (processInputsActions toyWorld "wm".toList (some "out".toList) clock (fun _ => some [7])
    ["in/a.png".toList, "in/b.png".toList]).1).length = 2 := by
  obtain ⟨v, h⟩ := toyWorld_clean
  exact (report_counts toyWorld _ _ _ clock _).1 (batch_completes toyWorld _ _ _ _ _ h).1

example : reportLine "out/a-wm.png".toList 3 3 (2, 50000000) = "Watermarked out/a-wm.png (3 -> 3 channels) in 2.05 s" := by decide

end Sia
