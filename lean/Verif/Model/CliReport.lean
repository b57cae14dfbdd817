import Verif.Model.Getopts

/-! What the command line tool prints while it works: cli/src/main.rs:24, 65-71 and 74. Not modelled: panic messages; the
usage text (main.rs:78-81) is in Model/CliTree.lean. The library's own lines are in Model/Log.lean. -/
namespace Sia

/-- `ColorType::channel_count` (image crate). cli/src/main.rs:34, 69. -/
def ColorType.channelCount : ColorType → Nat
  | .L8 | .L16 => 1
  | .La8 | .La16 => 2
  | .Rgb8 | .Rgb16 | .Rgb32F => 3
  | .Rgba8 | .Rgba16 | .Rgba32F => 4

section
variable {F : Type} [FloatOps F]

/-- Something the outside can see: a change of a file, or a line on the console. cli/src/main.rs:30-72. -/
inductive Action (W : World F) where
  | write (e : Event W)
  | print (line : String)

/-- The line printed after an input, cli/src/main.rs:65-71; `elapsed` is what the clock says (seconds, nanoseconds). -/
def reportLine (out : PathStr) (before after : Nat) (elapsed : Nat × Nat) : String :=
  "Watermarked " ++ String.ofList out ++ " (" ++ toString before ++ " -> " ++ toString after ++ " channels) in " ++
    displayElapsed elapsed.1 elapsed.2

/-- One round of the loop with its output, cli/src/main.rs:30-72: the changes of `processInput` and then, if nothing went wrong, the
line. The values printed are those computed by the round, which `processInput` does not return; they are computed again here. -/
def processInputActions (W : World F) (fs : Files W.Loc) (suffix : List Char) (folder : Option PathStr) (elapsed : Nat × Nat)
    (input : PathStr) : List (Action W) × Option Panic :=
  match processInput W fs suffix folder input with
  | (es, some p) => (es.map .write, some p)
  | (es, none) =>
    match (fs (W.resolve input)).bind (W.decode input) with
    | none => (es.map .write, none)
    | some image =>
      match watermark W.deps image (FloatOps.ofInt 100) (FloatOps.ofInt 1) 11, (fileName input).bind stemExt with
      | .ok marked, some (stem, ext) =>
        (es.map .write ++ [.print (reportLine (outputPath stem ext suffix folder) image.color.channelCount
          marked.color.channelCount elapsed)], none)
      | _, _ => (es.map .write, none)

/-- The changes among some actions. cli/src/main.rs:30-72. -/
def Action.writes {W : World F} (as : List (Action W)) : List (Event W) :=
  as.filterMap fun a => match a with | .write e => some e | .print _ => none

/-- The lines among some actions. cli/src/main.rs:65-71. -/
def Action.lines {W : World F} (as : List (Action W)) : List String :=
  as.filterMap fun a => match a with | .write _ => none | .print l => some l

/-- The loop with its output, cli/src/main.rs:30-72; `clock k` is the time measured in round `k`. -/
def processInputsActions (W : World F) (suffix : List Char) (folder : Option PathStr) (clock : Nat → Nat × Nat) :
    Files W.Loc → List PathStr → List (Action W) × Option Panic
  | _, [] => ([], none)
  | fs, input :: rest =>
    match processInputActions W fs suffix folder (clock 0) input with
    | (as, some p) => (as, some p)
    | (as, none) =>
      let (as', r) := processInputsActions W suffix folder (fun k => clock (k + 1)) (W.after fs (Action.writes as)) rest
      (as ++ as', r)

/-- `process` with its output, cli/src/main.rs:16-76; without a suffix it prints one line (main.rs:74), and one before it
exits because the output is not a folder (main.rs:24). -/
def processActions (W : World F) (clock : Nat → Nat × Nat) (fs : Files W.Loc) (inputs : List PathStr) (suffix : Option (List Char))
    (output : Option PathStr) : List (Action W) × Option Panic :=
  match suffix with
  | none => ([.print "No output image"], none)
  | some s =>
    match output with
    | none => processInputsActions W s none clock fs inputs
    | some o =>
      if W.blocked o then ([.print (String.ofList o ++ " is not a folder")], some .exitOne)
      else
        match W.folder o with
        | none => ([], some .fileError)
        | some f => processInputsActions W s (some f) clock fs inputs

end
end Sia
