import Verif.Model.CliTree
import Verif.Model.LinkFolders

/-! The whole command line tool, from `argv` to its end, on a tree that also has symbolic links: `lib/sia/rust/cli/src/main.rs`, lines 16-110.
Simplifications as in `Model/CliTree.lean`, `Model/LinkTree.lean` and `Model/LinkFolders.lean`. -/
namespace Sia

/-- What a run on a tree with links leaves: the folders made, the changes of files after that, the usage text if it was printed, and the panic
that ended the run, if any. cli/src/main.rs:83-110. -/
structure LinkRun where
  made : List Place
  changes : List (Option Place × List UInt8)
  usage : Option (List Char)
  stop : Option Panic

/-- `main`, cli/src/main.rs:83-110, on the words of the command line, the program's name first. -/
def Host.linkMain {F : Type} [FloatOps F] (H : Host F) (T : LinkDisk) : List (List Char) → LinkRun
  | [] => ⟨[], [], none, some .indexOutOfRange⟩
  | program :: args =>
    match parseArgs args with
    | .error _ => ⟨[], [], none, some .badArguments⟩
    | .ok m =>
      if m.help then ⟨[], [], some (usageText program), none⟩
      else if m.free = [] then ⟨[], [], some (usageText program), none⟩
      else
        let (ls, cs, r) := H.linkProcess T m.free m.suffix m.output
        ⟨ls, cs, none, r⟩

end Sia
