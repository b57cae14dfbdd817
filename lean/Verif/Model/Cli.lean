import Verif.Model.DynamicImage

/-! Model of `lib/sia/rust/cli/src/main.rs` (`process`) and `cli/src/timer.rs`. Argument parsing is in `Model/Getopts.lean`.
The text printed is in `Model/CliReport.lean`, several processes at the same time in `Model/Concurrent.lean`.
Not modelled: other programs that change the file system during a run. -/
namespace Sia

/-- Paths are strings (unix): lists of characters. cli/src/main.rs:16-76. -/
abbrev PathStr := List Char

/-- `Path::file_name` (Rust std, unix): the last component, `None` for `..`, `/` and the like.
Used by cli/src/main.rs:38-39 through `file_stem` and `extension`. -/
def fileName (p : PathStr) : Option (List Char) :=
  match ((p.splitOn '/').filter fun c => decide (c ≠ [] ∧ c ≠ ['.'])).getLast? with
  | none => none
  | some c => if c = ['.', '.'] then none else some c

/-- `Path::file_stem` and `Path::extension` of a file name, both present only if the name has a dot that is not its first
character (Rust std, `rsplit_file_at_dot`): the parts before and after the last dot. cli/src/main.rs:38-39. -/
def stemExt (name : List Char) : Option (List Char × List Char) :=
  let after := (name.reverse.takeWhile (· ≠ '.')).reverse
  let rest := name.reverse.dropWhile (· ≠ '.')
  match rest with
  | [] => none
  | _ :: before => if before = [] then none else some (before.reverse, after)

/-- Everything outside the program: path resolution (`Loc` is what a path denotes; it does not change during a run), the image
codecs, and which files can be created. `encode` lists the successive contents of the file while `write_to` writes it, and says
whether it succeeds; the last content is final. cli/src/main.rs:16-76. -/
structure World (F : Type) where
  Loc : Type
  decEq : DecidableEq Loc
  deps : Deps F
  resolve : PathStr → Loc
  /-- `image::open`: by path (the extension selects the format) and content -/
  decode : PathStr → List UInt8 → Option DynamicImage
  /-- `ImageFormat::from_path`, as a number -/
  formatOf : PathStr → Option Nat
  encode : Nat → DynamicImage → List (List UInt8) × Bool
  creatable : Loc → Bool
  /-- the path exists and is not a folder, `!is_dir() && exists()` (main.rs:23) -/
  blocked : PathStr → Bool
  /-- the output folder exists and is a folder, or can be created: `Some` of its canonical path (main.rs:27, 49-52); `None` where
  the program panics there -/
  folder : PathStr → Option PathStr

/-- Contents of the files. cli/src/main.rs:16-76. -/
abbrev Files (L : Type) := L → Option (List UInt8)

section
variable {F : Type} [FloatOps F]

/-- A change of the file system: the file at a location gets a new content. cli/src/main.rs:30-72. -/
abbrev Event (W : World F) := W.Loc × List UInt8

/-- One change of the file system, cli/src/main.rs:30-72. -/
def World.step (W : World F) (fs : Files W.Loc) (e : Event W) : Files W.Loc :=
  haveI := W.decEq
  fun l => if l = e.1 then some e.2 else fs l

/-- The file system after a sequence of changes. cli/src/main.rs:30-72. -/
def World.after (W : World F) (fs : Files W.Loc) (es : List (Event W)) : Files W.Loc := es.foldl W.step fs

/-- `format!("{}-{}.{}", filename, suffix, extension)` and the folder, main.rs:37-55. -/
def outputPath (stem ext suffix : List Char) (folder : Option PathStr) : PathStr :=
  let name := stem ++ ['-'] ++ suffix ++ ['.'] ++ ext
  match folder with
  | none => name
  | some f => f ++ ['/'] ++ name

/-- One round of the loop, main.rs:30-72: the changes made, and the panic that ended it, if any. The arguments 100, 1 and 11 are
those of main.rs:35. -/
def processInput (W : World F) (fs : Files W.Loc) (suffix : List Char) (folder : Option PathStr) (input : PathStr) :
    List (Event W) × Option Panic :=
  match fs (W.resolve input) with
  | none => ([], some .fileError)
  | some content =>
    match W.decode input content with
    | none => ([], some .fileError)
    | some image =>
      match watermark W.deps image (FloatOps.ofInt 100) (FloatOps.ofInt 1) 11 with
      | .error p => ([], some p)
      | .ok marked =>
        match (fileName input).bind stemExt with
        | none => ([], some .unwrapNone)
        | some (stem, ext) =>
          let out := outputPath stem ext suffix folder
          let loc := W.resolve out
          if W.creatable loc then
            match W.formatOf out with
            | none => ([(loc, [])], some .fileError)
            | some format =>
              let (contents, ok) := W.encode format marked
              ((loc, []) :: contents.map fun c => (loc, c), if ok then none else some .fileError)
          else ([], some .fileError)

/-- The loop `for input in inputs`, main.rs:30-72. -/
def processInputs (W : World F) (suffix : List Char) (folder : Option PathStr) :
    Files W.Loc → List PathStr → List (Event W) × Option Panic
  | _, [] => ([], none)
  | fs, input :: rest =>
    match processInput W fs suffix folder input with
    | (es, some p) => (es, some p)
    | (es, none) =>
      let (es', r) := processInputs W suffix folder (W.after fs es) rest
      (es ++ es', r)

/-- `process`, main.rs:16-76. The folder itself, if created, is not recorded as a change of a file. -/
def process (W : World F) (fs : Files W.Loc) (inputs : List PathStr) (suffix : Option (List Char)) (output : Option PathStr) :
    List (Event W) × Option Panic :=
  match suffix with
  | none => ([], none)
  | some s =>
    match output with
    | none => processInputs W s none fs inputs
    | some o =>
      if W.blocked o then ([], some .exitOne)
      else
        match W.folder o with
        | none => ([], some .fileError)
        | some f => processInputs W s (some f) fs inputs

/-- The outcome of `opts.parse`, main.rs:91-102; `Model/Getopts.lean` computes it. -/
structure Matches where
  help : Bool
  suffix : Option (List Char)
  output : Option PathStr
  free : List PathStr

/-- `main`, main.rs:83-110; `none` where the arguments do not parse. -/
def cliMain (W : World F) (fs : Files W.Loc) : Option Matches → List (Event W) × Option Panic
  | none => ([], some .badArguments)
  | some m => if m.help then ([], none) else if m.free = [] then ([], none) else process W fs m.free m.suffix m.output

end

/-- The exit status of the process for the end of a run: 0 where `main` returns, 1 for `std::process::exit(1)`, and 101 after a panic
(Rust's convention). cli/src/main.rs:25, 83-110. -/
def exitStatus : Option Panic → Nat
  | none => 0
  | some .exitOne => 1
  | some _ => 101

/-- `Display for Elapsed`, timer.rs:12-22, on `as_secs` and `subsec_nanos`. -/
def displayElapsed (secs nanos : Nat) : String :=
  if secs = 0 ∧ nanos < 1000 then toString nanos ++ " ns"
  else if secs = 0 ∧ nanos < 1000000 then toString (nanos / 1000) ++ " µs"
  else if secs = 0 then toString (nanos / 1000000) ++ " ms"
  else if secs < 10 then
    let h := nanos / 10000000
    toString secs ++ "." ++ (if h < 10 then "0" ++ toString h else toString h) ++ " s"
  else toString secs ++ " s"

end Sia
