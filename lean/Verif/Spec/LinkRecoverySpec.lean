import Verif.Model.LinkFolders
import Verif.Spec.LinkTreeSpec
import Verif.Spec.FileTreeSpec

/-! Specification vocabulary for running the tool again after a crash, on a tree with symbolic links (C106). -/
namespace Sia

section
variable {F : Type} [FloatOps F] (H : Host F)

/-- The tree after a run that was interrupted after `n` of its changes: the folders it makes come first, then the changes of files. -/
def Host.linkAttempt (inputs : List PathStr) (suffix : List Char) (o : PathStr) (T : LinkDisk) (n : Nat) : LinkDisk :=
  let run := H.linkProcess T inputs (some suffix) (some o)
  let made := T.addDirs (run.1.take n)
  made.holding ((H.linkWorld made).after T.files (run.2.1.take (n - run.1.length)))

/-- The tree after runs that were interrupted one after the other. -/
def Host.linkAttempts (inputs : List PathStr) (suffix : List Char) (o : PathStr) (T : LinkDisk) (cuts : List Nat) : LinkDisk :=
  cuts.foldl (H.linkAttempt inputs suffix o) T

/-- The tree after a run that was not interrupted. -/
def Host.linkCompleted (inputs : List PathStr) (suffix : List Char) (o : PathStr) (T : LinkDisk) : LinkDisk :=
  let run := H.linkProcess T inputs (some suffix) (some o)
  (T.addDirs run.1).holding ((H.linkWorld (T.addDirs run.1)).after T.files run.2.1)

end
end Sia
