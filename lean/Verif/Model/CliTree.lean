import Verif.Model.Getopts
import Verif.Model.FileTree

/-! The whole command line tool on a tree of folders and files, from `argv` to its end: `lib/sia/rust/cli/src/main.rs`, lines 16-110, with
the usage text (getopts 0.2.21, `Options::usage`). Not modelled: arguments that are not Unicode (`env::args` panics on them), and, here,
the other lines the tool prints (`Model/CliReport.lean`). -/
namespace Sia

/-- A declared option, as `Options::optopt` and `Options::optflag` (getopts) record it. cli/src/main.rs:88-90. -/
structure OptGroup where
  short : List Char
  long : List Char
  hint : List Char
  desc : List Char
  hasArg : Bool

/-- The options of the tool, cli/src/main.rs:88-90. -/
def cliOptions : List OptGroup :=
  [⟨"s".toList, [], "SUFFIX".toList, "set watermarked images filenames suffix".toList, true⟩,
   ⟨"o".toList, [], "OUT".toList, "set watermarked images output folder".toList, true⟩,
   ⟨"h".toList, "help".toList, [], "print this help menu".toList, false⟩]

/-- The left column of a line of the usage text: `Options::usage_items` (getopts), used in cli/src/main.rs:80. -/
def OptGroup.left (g : OptGroup) (anyShort : Bool) : List Char :=
  "    ".toList ++
    (if g.short = [] then (if anyShort then "    ".toList else [])
      else '-' :: g.short ++ (if g.long = [] then [' '] else ", ".toList)) ++
    (if g.long = [] then [] else "--".toList ++ g.long ++ [' ']) ++
    (if g.hasArg then g.hint else [])

/-- A line of the usage text: `Options::usage_items` (getopts), cli/src/main.rs:80. Simplification: descriptions longer than 54 characters
would be broken into lines, and runs of blanks joined; the descriptions of the tool are shorter and have none. -/
def OptGroup.line (g : OptGroup) (anyShort : Bool) : List Char :=
  let row := g.left anyShort
  (if row.length < 24 then row ++ List.replicate (24 - row.length) ' ' else row ++ '\n' :: List.replicate 24 ' ') ++ g.desc

/-- `Options::usage` (getopts): the brief line, an empty one, and one line for each option. cli/src/main.rs:80. -/
def usageOf (options : List OptGroup) (brief : List Char) : List Char :=
  brief ++ "\n\nOptions:\n".toList ++
    ['\n'].intercalate (options.map fun g => g.line (options.any fun g => !g.short.isEmpty)) ++ ['\n']

/-- `print_usage`, cli/src/main.rs:78-81. -/
def usageText (program : List Char) : List Char := usageOf cliOptions ("Usage: ".toList ++ program ++ " FILE [options]".toList)

/-- What a run leaves: the changes of the tree, the usage text if it was printed, and the panic that ended the run, if any.
cli/src/main.rs:83-110. -/
structure TreeRun where
  changes : List Change
  usage : Option (List Char)
  stop : Option Panic

/-- `main`, cli/src/main.rs:83-110, on the words of the command line, the program's name first. -/
def Host.main {F : Type} [FloatOps F] (H : Host F) (D : Disk) : List (List Char) → TreeRun
  | [] => ⟨[], none, some .indexOutOfRange⟩
  | program :: args =>
    match parseArgs args with
    | .error _ => ⟨[], none, some .badArguments⟩
    | .ok m =>
      if m.help then ⟨[], some (usageText program), none⟩
      else if m.free = [] then ⟨[], some (usageText program), none⟩
      else
        let (cs, r) := H.process D m.free m.suffix m.output
        ⟨cs, none, r⟩

end Sia
