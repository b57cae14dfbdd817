import Verif.Props.LogLines

/-! C78: the command line tool on a standard output that stops working. -/
namespace Sia

section
variable {F : Type} [FloatOps F]

/-! ### The lines of a whole picture -/

/-- C77: a picture that is marked prints the lines of its red channel, and if it has colour, those of its green and blue channel. -/
theorem image_log (D : Deps F) (image out : DynamicImage) (depth step : F) (a : Nat)
    (h : (Logged.watermarkImage D image depth step a).result = .ok out) :
    (Logged.watermarkImage D image depth step a).lines =
      (Logged.watermarkChannel D (image.plane Rgba.r) depth step a 3).lines ++
      if image.color.hasColor then (Logged.watermarkChannel D (image.plane Rgba.g) depth step a 3).lines ++
        (Logged.watermarkChannel D (image.plane Rgba.b) depth step a 3).lines else [] := by
  unfold Logged.watermarkImage at h ⊢
  dsimp only at h ⊢
  rw [logged_bind_result] at h
  rw [logged_bind_lines]
  change _ = (Logged.watermarkChannel D (image.plane Rgba.r) depth step a dwtLevels).lines ++
      if image.color.hasColor then (Logged.watermarkChannel D (image.plane Rgba.g) depth step a dwtLevels).lines ++
        (Logged.watermarkChannel D (image.plane Rgba.b) depth step a dwtLevels).lines else []
  congr 1
  cases hr : (Logged.watermarkChannel D (image.plane Rgba.r) depth step a dwtLevels).result with
  | error e => rw [hr] at h; cases h
  | ok red =>
    rw [hr] at h
    simp only [ok_bind'] at h
    dsimp only
    by_cases hc : image.color.hasColor
    · rw [if_pos hc] at h ⊢
      rw [if_pos hc]
      rw [logged_bind_result] at h
      rw [logged_bind_lines]
      congr 1
      cases hg : (Logged.watermarkChannel D (image.plane Rgba.g) depth step a dwtLevels).result with
      | error e => rw [hg] at h; cases h
      | ok green =>
        rw [hg] at h
        simp only [ok_bind'] at h
        dsimp only
        rw [logged_bind_result] at h
        rw [logged_bind_lines]
        cases hb : (Logged.watermarkChannel D (image.plane Rgba.b) depth step a dwtLevels).result with
        | error e => rw [hb] at h; cases h
        | ok blue => exact List.append_nil _
    · rw [if_neg hc, if_neg hc]; rfl

/-- A picture that is marked prints at least thirteen lines. -/
theorem image_log_length (D : Deps F) (image out : DynamicImage) (depth step : F) (a : Nat)
    (h : (Logged.watermarkImage D image depth step a).result = .ok out) :
    13 ≤ (Logged.watermarkImage D image depth step a).lines.length := by
  rw [image_log D image out depth step a h, List.length_append]
  have hr : ∃ red, (Logged.watermarkChannel D (image.plane Rgba.r) depth step a 3).result = .ok red := by
    unfold Logged.watermarkImage at h
    dsimp only at h
    rw [logged_bind_result] at h
    cases hr : (Logged.watermarkChannel D (image.plane Rgba.r) depth step a dwtLevels).result with
    | error e => rw [hr] at h; cases h
    | ok red => exact ⟨red, hr⟩
  obtain ⟨red, hr⟩ := hr
  have := congrArg List.length ((mark_log_prefix D (image.plane Rgba.r) depth step a 3).2 red hr)
  unfold labels markLabels at this
  rw [List.length_map, List.length_append] at this
  simp only [List.length_cons, List.length_nil] at this
  omega

/-! ### The tool's effects -/

variable (W : World F)

theorem ewrites_append (as bs : List (Effect W)) : Effect.writes (as ++ bs) = Effect.writes as ++ Effect.writes bs :=
  List.filterMap_append

theorem eprints_append (as bs : List (Effect W)) : Effect.prints (as ++ bs) = Effect.prints as ++ Effect.prints bs :=
  List.filterMap_append

theorem outputs_append (as bs : List (Effect W)) : Effect.outputs (as ++ bs) = Effect.outputs as + Effect.outputs bs := by
  unfold Effect.outputs; rw [List.filter_append, List.length_append]

theorem ewrites_map (es : List (Event W)) : Effect.writes (es.map Effect.write) = es := by
  induction es with
  | nil => rfl
  | cons e es ih => simp only [List.map_cons, Effect.writes, List.filterMap_cons]; exact congrArg _ ih

theorem ewrites_log (ls : List (LogLine F)) : Effect.writes (ls.map (Effect.log (W := W))) = [] := by
  induction ls with
  | nil => rfl
  | cons e es ih => simp only [List.map_cons, Effect.writes, List.filterMap_cons]; exact ih

theorem eprints_map (es : List (Event W)) : Effect.prints (es.map Effect.write) = [] := by
  induction es with
  | nil => rfl
  | cons e es ih => simp only [List.map_cons, Effect.prints, List.filterMap_cons]; exact ih

theorem eprints_log (ls : List (LogLine F)) : Effect.prints (ls.map (Effect.log (W := W))) = [] := by
  induction ls with
  | nil => rfl
  | cons e es ih => simp only [List.map_cons, Effect.prints, List.filterMap_cons]; exact ih

theorem outputs_map (es : List (Event W)) : Effect.outputs (es.map Effect.write) = 0 := by
  induction es with
  | nil => rfl
  | cons e es ih => exact ih

theorem outputs_log (ls : List (LogLine F)) : Effect.outputs (ls.map (Effect.log (W := W))) = ls.length := by
  induction ls with
  | nil => rfl
  | cons e es ih => exact congrArg (· + 1) ih

/-- The effects of a round: the library's lines, the changes of `processInput`, and a line of the tool if nothing went wrong. -/
theorem processInputEffects_eq (fs : Files W.Loc) (suffix : List Char) (folder : Option PathStr) (elapsed : Nat × Nat)
    (input : PathStr) (es : List (Event W)) (r : Option Panic) (h : processInput W fs suffix folder input = (es, r)) :
    ∃ ls : List (LogLine F),
      (es ≠ [] → 13 ≤ ls.length) ∧
      ((∃ p, r = some p ∧ processInputEffects W fs suffix folder elapsed input = (ls.map .log ++ es.map .write, some p) ∧
          processInputActions W fs suffix folder elapsed input = (es.map .write, some p)) ∨
        (r = none ∧ 13 ≤ ls.length ∧ ∃ line, processInputEffects W fs suffix folder elapsed input =
          (ls.map .log ++ (es.map .write ++ [.print line]), none) ∧
          processInputActions W fs suffix folder elapsed input = (es.map .write ++ [.print line], none))) := by
  refine ⟨match (fs (W.resolve input)).bind (W.decode input) with
    | none => []
    | some image => (Logged.watermarkImage W.deps image (FloatOps.ofInt 100) (FloatOps.ofInt 1) 11).lines, ?_, ?_⟩
  · intro hes
    unfold processInput at h
    cases h1 : fs (W.resolve input) with
    | none => rw [h1] at h; cases h; exact absurd rfl hes
    | some content =>
      rw [h1] at h
      simp only [Option.bind_some] at h ⊢
      cases h2 : W.decode input content with
      | none => rw [h2] at h; cases h; exact absurd rfl hes
      | some image =>
        rw [h2] at h
        dsimp only at h ⊢
        cases h3 : watermark W.deps image (FloatOps.ofInt 100) (FloatOps.ofInt 1) 11 with
        | error e => rw [h3] at h; cases h; exact absurd rfl hes
        | ok marked => exact image_log_length W.deps image marked _ _ _ (by rw [log_watermark, h3])
  · rcases processInputActions_eq W fs suffix folder elapsed input es r h with ⟨p, rfl, hq⟩ |
      ⟨rfl, content, image, marked, stem, ext, format, contents, h1, h2, h3, _, _, _, _, hq⟩
    · left
      refine ⟨p, rfl, ?_, hq⟩
      unfold processInputEffects
      rw [hq]
      dsimp only
      rw [List.map_map]
      rfl
    · right
      refine ⟨rfl, ?_, _, ?_, hq⟩
      · rw [h1, Option.bind_some, h2]
        exact image_log_length W.deps image marked _ _ _ (by rw [log_watermark, h3])
      · unfold processInputEffects
        rw [hq]
        dsimp only
        rw [List.map_append, List.map_map]
        rfl

/-- C78: with its whole output in view, the tool makes the same changes, prints the same lines of its own and ends in the same way. -/
theorem effects_same (suffix : List Char) (folder : Option PathStr) (inputs : List PathStr) :
    ∀ (clock : Nat → Nat × Nat) (fs : Files W.Loc),
      Effect.writes (processInputsEffects W suffix folder clock fs inputs).1 = (processInputs W suffix folder fs inputs).1 ∧
      Effect.prints (processInputsEffects W suffix folder clock fs inputs).1 =
        Action.lines (processInputsActions W suffix folder clock fs inputs).1 ∧
      (processInputsEffects W suffix folder clock fs inputs).2 = (processInputs W suffix folder fs inputs).2 := by
  induction inputs with
  | nil => intro clock fs; exact ⟨rfl, rfl, rfl⟩
  | cons i inputs ih =>
    intro clock fs
    unfold processInputsEffects processInputsActions processInputs
    cases hp : processInput W fs suffix folder i with
    | mk es r =>
      obtain ⟨ls, _, ⟨p, rfl, hq, hq'⟩ | ⟨rfl, _, line, hq, hq'⟩⟩ := processInputEffects_eq W fs suffix folder (clock 0) i es r hp
      · rw [hq, hq']
        dsimp only
        refine ⟨?_, ?_, rfl⟩
        · rw [ewrites_append, ewrites_log, ewrites_map]; rfl
        · rw [eprints_append, eprints_log, eprints_map, lines_map]; rfl
      · rw [hq, hq']
        dsimp only
        have hw : Effect.writes (ls.map Effect.log ++ (es.map Effect.write ++ [Effect.print line] : List (Effect W))) = es := by
          rw [ewrites_append, ewrites_append, ewrites_log, ewrites_map]; simp [Effect.writes]
        have hw' : Action.writes (es.map Action.write ++ [Action.print line] : List (Action W)) = es := by
          rw [writes_append, writes_map]; simp [Action.writes]
        rw [hw, hw']
        obtain ⟨i1, i2, i3⟩ := ih (fun k => clock (k + 1)) (W.after fs es)
        refine ⟨?_, ?_, i3⟩
        · rw [ewrites_append, hw, i1]
        · rw [eprints_append, lines_append, i2]
          congr 1
          rw [eprints_append, eprints_append, eprints_log, eprints_map, lines_append, lines_map]
          rfl

/-! ### A standard output that fails -/

theorem until_zero (a : Effect W) (as : List (Effect W)) (r : Option Panic) (h : a.isOutput = true) :
    Effect.until 0 (a :: as, r) = ([], some .stdoutClosed) := by
  rw [Effect.until.eq_def]; dsimp only; rw [if_pos h]

theorem until_succ (a : Effect W) (as : List (Effect W)) (r : Option Panic) (room : Nat) (h : a.isOutput = true) :
    Effect.until (room + 1) (a :: as, r) = (a :: (Effect.until room (as, r)).1, (Effect.until room (as, r)).2) := by
  rw [Effect.until.eq_def]; dsimp only; rw [if_pos h]

theorem until_other (a : Effect W) (as : List (Effect W)) (r : Option Panic) (room : Nat) (h : ¬ a.isOutput = true) :
    Effect.until room (a :: as, r) = (a :: (Effect.until room (as, r)).1, (Effect.until room (as, r)).2) := by
  rw [Effect.until.eq_def]; dsimp only; rw [if_neg h]

theorem until_enough (as bs : List (Effect W)) (r : Option Panic) : ∀ room, Effect.outputs as ≤ room →
    Effect.until room (as ++ bs, r) = (as ++ (Effect.until (room - Effect.outputs as) (bs, r)).1, (Effect.until (room - Effect.outputs as) (bs, r)).2) := by
  induction as with
  | nil => intro room _; rfl
  | cons a as ih =>
    intro room h
    rw [List.cons_append]
    by_cases ha : a.isOutput
    · have ho : Effect.outputs (a :: as) = Effect.outputs as + 1 := by
        unfold Effect.outputs; rw [List.filter_cons_of_pos ha]; rfl
      rw [ho] at h ⊢
      obtain ⟨room, rfl⟩ : ∃ k, room = k + 1 := ⟨room - 1, by omega⟩
      rw [until_succ W _ _ _ _ ha, ih room (by omega), show room + 1 - (Effect.outputs as + 1) = room - Effect.outputs as by omega]
      rfl
    · have ho : Effect.outputs (a :: as) = Effect.outputs as := by
        unfold Effect.outputs; rw [List.filter_cons_of_neg ha]
      rw [ho] at h ⊢
      rw [until_other W _ _ _ _ ha, ih room h]
      rfl

theorem until_logs (ls : List (LogLine F)) (bs : List (Effect W)) (r : Option Panic) : ∀ room, room < ls.length →
    Effect.until room (ls.map Effect.log ++ bs, r) = ((ls.take room).map Effect.log, some .stdoutClosed) := by
  induction ls with
  | nil => intro room h; simp at h
  | cons l ls ih =>
    intro room h
    rw [List.map_cons, List.cons_append]
    cases room with
    | zero => exact until_zero W _ _ _ rfl
    | succ room =>
      rw [List.length_cons] at h
      rw [until_succ W _ _ _ _ rfl, ih room (by omega)]
      rfl

theorem until_all (as : List (Effect W)) (r : Option Panic) (room : Nat) (h : Effect.outputs as ≤ room) :
    Effect.until room (as, r) = (as, r) := by
  have := until_enough W as [] r room h
  rw [List.append_nil] at this
  rw [this]
  unfold Effect.until
  simp

/-- C78: a standard output that takes every line changes nothing; one that stops after `room` lines ends the tool with a panic in the
middle, and what it has done to the files is exactly what a run on the first `k` inputs does, all of which were processed: no file is left
half written. Their reports have been printed, except possibly the last. Every processed input has printed at least thirteen lines. -/
theorem output_closes (suffix : List Char) (folder : Option PathStr) (inputs : List PathStr) :
    ∀ (clock : Nat → Nat × Nat) (fs : Files W.Loc) (room : Nat),
      (Effect.outputs (processInputsEffects W suffix folder clock fs inputs).1 ≤ room →
        Effect.until room (processInputsEffects W suffix folder clock fs inputs) = processInputsEffects W suffix folder clock fs inputs) ∧
      (room < Effect.outputs (processInputsEffects W suffix folder clock fs inputs).1 →
        (Effect.until room (processInputsEffects W suffix folder clock fs inputs)).2 = some .stdoutClosed ∧
        Effect.outputs (Effect.until room (processInputsEffects W suffix folder clock fs inputs)).1 = room ∧
        ∃ k, k ≤ inputs.length ∧ 13 * k ≤ room ∧
          Effect.writes (Effect.until room (processInputsEffects W suffix folder clock fs inputs)).1 =
            (processInputs W suffix folder fs (inputs.take k)).1 ∧
          (processInputs W suffix folder fs (inputs.take k)).2 = none ∧
          (Effect.prints (Effect.until room (processInputsEffects W suffix folder clock fs inputs)).1).length ≤ k ∧
          k ≤ (Effect.prints (Effect.until room (processInputsEffects W suffix folder clock fs inputs)).1).length + 1) := by
  intro clock fs room
  refine ⟨fun h => until_all W _ _ room h, ?_⟩
  induction inputs generalizing clock fs room with
  | nil => intro h; exact absurd h (by simp [processInputsEffects, Effect.outputs])
  | cons i inputs ih =>
    intro h
    have hcut : ∀ (ls : List (LogLine F)) (bs : List (Effect W)) (r : Option Panic), room < ls.length →
        (Effect.until room (ls.map Effect.log ++ bs, r)).2 = some .stdoutClosed ∧
        Effect.outputs (Effect.until room (ls.map Effect.log ++ bs, r)).1 = room ∧
        ∃ k, k ≤ (i :: inputs).length ∧ 13 * k ≤ room ∧
          Effect.writes (Effect.until room (ls.map Effect.log ++ bs, r)).1 = (processInputs W suffix folder fs ((i :: inputs).take k)).1 ∧
          (processInputs W suffix folder fs ((i :: inputs).take k)).2 = none ∧
          (Effect.prints (Effect.until room (ls.map Effect.log ++ bs, r)).1).length ≤ k ∧
          k ≤ (Effect.prints (Effect.until room (ls.map Effect.log ++ bs, r)).1).length + 1 := by
      intro ls bs r hlt
      rw [until_logs W ls bs r room hlt]
      refine ⟨rfl, ?_, 0, Nat.zero_le _, Nat.zero_le _, ?_, rfl, ?_, Nat.zero_le _⟩
      · dsimp only; rw [outputs_log, List.length_take]; omega
      · dsimp only; rw [ewrites_log]; rfl
      · dsimp only; rw [eprints_log]; rfl
    unfold processInputsEffects at h ⊢
    cases hp : processInput W fs suffix folder i with
    | mk es r =>
      obtain ⟨ls, _, ⟨p, rfl, hq, _⟩ | ⟨rfl, h13, line, hq, _⟩⟩ := processInputEffects_eq W fs suffix folder (clock 0) i es r hp
      · rw [hq] at h ⊢
        dsimp only at h ⊢
        rw [outputs_append, outputs_log, outputs_map] at h
        exact hcut ls _ _ (by omega)
      · rw [hq] at h ⊢
        dsimp only at h ⊢
        have hw : Effect.writes (ls.map Effect.log ++ (es.map Effect.write ++ [Effect.print line] : List (Effect W))) = es := by
          rw [ewrites_append, ewrites_append, ewrites_log, ewrites_map]; simp [Effect.writes]
        rw [hw] at h ⊢
        by_cases hlt : room < ls.length
        · rw [List.append_assoc]
          exact hcut ls _ _ hlt
        · have ih' := ih (fun k => clock (k + 1)) (W.after fs es)
          generalize processInputsEffects W suffix folder (fun k => clock (k + 1)) (W.after fs es) inputs = tail at *
          obtain ⟨as', r'⟩ := tail
          dsimp only at h ih' ⊢
          have ho : Effect.outputs (ls.map Effect.log ++ es.map Effect.write : List (Effect W)) = ls.length := by
            rw [outputs_append, outputs_log, outputs_map]; rfl
          rw [show (ls.map Effect.log ++ (es.map Effect.write ++ [Effect.print line]) ++ as' : List (Effect W)) =
            (ls.map Effect.log ++ es.map Effect.write) ++ (Effect.print line :: as') by simp]
          rw [until_enough W _ _ r' room (by rw [ho]; omega), ho]
          have hone : processInputs W suffix folder fs [i] = (es, none) := by
            unfold processInputs; rw [hp]; simp [processInputs]
          by_cases hz : room = ls.length
          · rw [hz, Nat.sub_self, until_zero W _ _ _ rfl]
            dsimp only
            rw [List.append_nil]
            refine ⟨rfl, ho, 1, by simp, by omega, ?_, ?_, ?_, ?_⟩
            · rw [ewrites_append, ewrites_log, ewrites_map, List.take_succ_cons, List.take_zero, hone]; rfl
            · rw [List.take_succ_cons, List.take_zero, hone]
            · rw [eprints_append, eprints_log, eprints_map]; simp
            · omega
          · obtain ⟨m, hm⟩ : ∃ m, room - ls.length = m + 1 := ⟨room - ls.length - 1, by omega⟩
            rw [hm, until_succ W _ _ _ _ rfl]
            dsimp only
            have hlt' : m < Effect.outputs as' := by
              rw [outputs_append, outputs_append, outputs_append, outputs_log, outputs_map] at h
              have h1 : Effect.outputs ([Effect.print line] : List (Effect W)) = 1 := rfl
              omega
            obtain ⟨i1, i2, k, i3, i4, i5, i6, i7, i8⟩ := ih' m hlt'
            refine ⟨i1, ?_, k + 1, by simp; omega, by omega, ?_, ?_, ?_, ?_⟩
            · rw [outputs_append, ho, show (Effect.print line :: (Effect.until m (as', r')).1 : List (Effect W)) =
                [Effect.print line] ++ (Effect.until m (as', r')).1 from rfl, outputs_append, i2]
              have h1 : Effect.outputs ([Effect.print line] : List (Effect W)) = 1 := rfl
              omega
            · rw [ewrites_append, ewrites_append, ewrites_log, ewrites_map, List.take_succ_cons]
              unfold processInputs
              rw [hp]
              dsimp only
              rw [← i5]; rfl
            · rw [List.take_succ_cons]
              unfold processInputs
              rw [hp]
              exact i6
            · rw [eprints_append, eprints_append, eprints_log, eprints_map, List.nil_append, List.nil_append]
              change (_ :: Effect.prints (Effect.until m (as', r')).1).length ≤ _
              rw [List.length_cons]; omega
            · rw [eprints_append, eprints_append, eprints_log, eprints_map, List.nil_append, List.nil_append]
              change _ ≤ (_ :: Effect.prints (Effect.until m (as', r')).1).length + 1
              rw [List.length_cons]; omega

/-- C78: the whole run has the changes, the lines and the end of the run without the library's output in view. -/
theorem effects_process (clock : Nat → Nat × Nat) (fs : Files W.Loc) (inputs : List PathStr) (suffix : Option (List Char))
    (output : Option PathStr) :
    Effect.writes (processEffects W clock fs inputs suffix output).1 = (process W fs inputs suffix output).1 ∧
    Effect.prints (processEffects W clock fs inputs suffix output).1 = Action.lines (processActions W clock fs inputs suffix output).1 ∧
    (processEffects W clock fs inputs suffix output).2 = (process W fs inputs suffix output).2 := by
  unfold processEffects process processActions
  cases suffix with
  | none => exact ⟨rfl, rfl, rfl⟩
  | some s =>
    cases output with
    | none => exact effects_same W s none inputs clock fs
    | some o =>
      dsimp only
      by_cases hb : W.blocked o
      · rw [if_pos hb, if_pos hb, if_pos hb]; exact ⟨rfl, rfl, rfl⟩
      · rw [if_neg hb, if_neg hb, if_neg hb]
        cases W.folder o with
        | none => exact ⟨rfl, rfl, rfl⟩
        | some f => exact effects_same W s (some f) inputs clock fs

/-- C78: a run of the tool whose standard output takes `room` lines. If that is enough, the run is the ordinary one. If not, it ends with
exit status 101, and the files are as after an ordinary, successful run on the first `k` inputs, where `k` is at most `room / 13`: a run
whose standard output is closed from the start changes no file. -/
theorem process_output_closes (clock : Nat → Nat × Nat) (fs : Files W.Loc) (inputs : List PathStr) (suffix : Option (List Char))
    (output : Option PathStr) (room : Nat) :
    (Effect.outputs (processEffects W clock fs inputs suffix output).1 ≤ room →
      Effect.until room (processEffects W clock fs inputs suffix output) = processEffects W clock fs inputs suffix output) ∧
    (room < Effect.outputs (processEffects W clock fs inputs suffix output).1 →
      exitStatus (Effect.until room (processEffects W clock fs inputs suffix output)).2 = 101 ∧
      ∃ k, k ≤ inputs.length ∧ 13 * k ≤ room ∧
        Effect.writes (Effect.until room (processEffects W clock fs inputs suffix output)).1 =
          (process W fs (inputs.take k) suffix output).1 ∧
        ∀ l, W.after fs (Effect.writes (Effect.until room (processEffects W clock fs inputs suffix output)).1) l =
          W.after fs (process W fs (inputs.take k) suffix output).1 l) := by
  refine ⟨fun h => until_all W _ _ room h, fun h => ?_⟩
  suffices hs : (Effect.until room (processEffects W clock fs inputs suffix output)).2 = some .stdoutClosed ∧
      ∃ k, k ≤ inputs.length ∧ 13 * k ≤ room ∧
        Effect.writes (Effect.until room (processEffects W clock fs inputs suffix output)).1 =
          (process W fs (inputs.take k) suffix output).1 by
    obtain ⟨h1, k, h2, h3, h4⟩ := hs
    exact ⟨by rw [h1]; rfl, k, h2, h3, h4, fun l => by rw [h4]⟩
  unfold processEffects process at *
  have hsingle : ∀ (line : String) (r : Option Panic), room < Effect.outputs ([Effect.print line] : List (Effect W)) →
      Effect.until room ([Effect.print line], r) = (([] : List (Effect W)), some .stdoutClosed) := by
    intro line r h
    have h1 : Effect.outputs ([Effect.print line] : List (Effect W)) = 1 := rfl
    obtain rfl : room = 0 := by omega
    exact until_zero W _ _ _ rfl
  cases suffix with
  | none =>
    dsimp only at h ⊢
    rw [hsingle _ _ h]
    exact ⟨rfl, 0, Nat.zero_le _, Nat.zero_le _, rfl⟩
  | some s =>
    cases output with
    | none =>
      obtain ⟨h1, _, k, h2, h3, h4, _⟩ := (output_closes W s none inputs clock fs room).2 h
      exact ⟨h1, k, h2, h3, h4⟩
    | some o =>
      dsimp only at h ⊢
      by_cases hb : W.blocked o
      · simp only [if_pos hb] at h ⊢
        rw [hsingle _ _ h]
        exact ⟨rfl, 0, Nat.zero_le _, Nat.zero_le _, rfl⟩
      · simp only [if_neg hb] at h ⊢
        cases hf : W.folder o with
        | none => rw [hf] at h; exact absurd h (by simp [Effect.outputs])
        | some f =>
          rw [hf] at h
          obtain ⟨h1, _, k, h2, h3, h4, _⟩ := (output_closes W s (some f) inputs clock fs room).2 h
          exact ⟨h1, k, h2, h3, h4⟩

/-- C78: on a batch without collisions, a standard output that fails leaves every output file either as it was or complete; the complete
ones are those of the first `k` inputs. -/
theorem closed_output_leaves_whole_files (suffix : List Char) (folder : Option PathStr) (fs : Files W.Loc) (inputs : List PathStr)
    (results : List (W.Loc × List UInt8)) (hclean : CleanBatch W suffix folder fs inputs results) (clock : Nat → Nat × Nat) (room : Nat)
    (h : room < Effect.outputs (processInputsEffects W suffix folder clock fs inputs).1) :
    ∃ k, k ≤ inputs.length ∧ 13 * k ≤ room ∧
      (∀ r ∈ results.take k, W.after fs (Effect.writes (Effect.until room (processInputsEffects W suffix folder clock fs inputs)).1) r.1 = some r.2) ∧
      ∀ l, l ∉ (results.take k).map Prod.fst →
        W.after fs (Effect.writes (Effect.until room (processInputsEffects W suffix folder clock fs inputs)).1) l = fs l := by
  obtain ⟨_, _, k, h1, h2, h3, _⟩ := (output_closes W suffix folder inputs clock fs room).2 h
  have hcl : CleanBatch W suffix folder fs (inputs.take k) (results.take k) := by
    refine ⟨List.forall₂_take k hclean.marks, ?_, ?_⟩
    · rw [List.map_take]; exact hclean.outputs_distinct.sublist (List.take_sublist _ _)
    · intro r hr i hi
      exact hclean.outputs_not_inputs r (List.mem_of_mem_take hr) i (List.mem_of_mem_take hi)
  obtain ⟨_, h4, h5⟩ := batch_completes W suffix folder fs _ _ hcl
  rw [h3]
  exact ⟨k, h1, h2, h4, h5⟩

/-- A run on inputs that can all be processed prints at least fourteen lines for each. -/
theorem outputs_of_batch (suffix : List Char) (folder : Option PathStr) (inputs : List PathStr) :
    ∀ (clock : Nat → Nat × Nat) (fs : Files W.Loc), (processInputs W suffix folder fs inputs).2 = none →
      14 * inputs.length ≤ Effect.outputs (processInputsEffects W suffix folder clock fs inputs).1 := by
  induction inputs with
  | nil => intro clock fs _; exact Nat.zero_le _
  | cons i inputs ih =>
    intro clock fs h
    unfold processInputs at h
    unfold processInputsEffects
    cases hp : processInput W fs suffix folder i with
    | mk es r =>
      rw [hp] at h
      obtain ⟨ls, _, ⟨p, rfl, hq, _⟩ | ⟨rfl, h13, line, hq, _⟩⟩ := processInputEffects_eq W fs suffix folder (clock 0) i es r hp
      · cases h
      · rw [hq]
        dsimp only at h ⊢
        have hw : Effect.writes (ls.map Effect.log ++ (es.map Effect.write ++ [Effect.print line] : List (Effect W))) = es := by
          rw [ewrites_append, ewrites_append, ewrites_log, ewrites_map]; simp [Effect.writes]
        rw [hw, outputs_append, outputs_append, outputs_append, outputs_log, outputs_map, List.length_cons]
        have h1 : Effect.outputs ([Effect.print line] : List (Effect W)) = 1 := rfl
        have := ih (fun k => clock (k + 1)) (W.after fs es) h
        omega

theorem prints_le_outputs (as : List (Effect W)) : (Effect.prints as).length ≤ Effect.outputs as := by
  induction as with
  | nil => exact Nat.le_refl 0
  | cons a as ih =>
    cases a with
    | write e => exact ih
    | print l => exact Nat.succ_le_succ ih
    | log l => exact Nat.le_succ_of_le ih

end
end Sia
