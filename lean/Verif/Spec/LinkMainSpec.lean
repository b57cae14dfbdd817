import Verif.Model.LinkMain
import Verif.Spec.LinkTreeSpec

/-! Specification vocabulary for the whole tool on a tree with symbolic links (C104). -/
namespace Sia

section
variable {F : Type} (H : Host F)

/-- The path leads, through links perhaps, to a file. -/
def LinkNamesFile (T : LinkDisk) (o : PathStr) : Prop := ∃ l, T.find H.cwd (parsePath o) = .ok l ∧ T.content l ≠ none

/-- The tree with the output folder made. -/
def Host.linkPrepared (T : LinkDisk) (output : Option PathStr) : LinkDisk :=
  match output with
  | none => T
  | some o => T.addDirs (H.linkCreateDirAll T (parsePath o)).1

end
end Sia
