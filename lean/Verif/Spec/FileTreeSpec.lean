import Verif.Model.FileTree
import Verif.Spec.CliSpec

/-! Specification vocabulary for the command line tool on a tree of folders and files (C95, C96). -/
namespace Sia

/-- A name a file or folder can have: not empty, without a slash, neither `.` nor `..`. -/
def ProperName (n : List Char) : Prop := n ≠ [] ∧ '/' ∉ n ∧ n ≠ ['.'] ∧ n ≠ ['.', '.']

/-- A tree: the root is a folder, everything else has a proper name and lies in a folder, and nothing is both a folder and a file. -/
structure Disk.Sound (D : Disk) : Prop where
  root : D.isDir [] = true
  inside : ∀ l n, D.isDir (l ++ [n]) = true ∨ D.content (l ++ [n]) ≠ none → D.isDir l = true ∧ ProperName n
  apart : ∀ l, D.isDir l = true → D.content l = none

/-- Two trees differ only in folders the second one has in addition. -/
def Disk.Grows (D D' : Disk) : Prop := (∀ l, D.isDir l = true → D'.isDir l = true) ∧ D'.content = D.content

section
variable {F : Type}

/-- The folder outputs go to: where the `-o` path leads, or the current folder. -/
def OutputsIn (H : Host F) (D : Disk) (output : Option PathStr) (dir : Place) : Prop :=
  match output with
  | none => dir = H.cwd
  | some o => D.find H.cwd (parsePath o) = .ok dir

/-- The folders a run makes for the `-o` option. -/
def Host.madeFor (H : Host F) (D : Disk) : Option PathStr → List Place
  | none => []
  | some o => (H.createDirAll D (parsePath o)).1

/-- The tree an abstract run starts from: the `-o` folder has been made. -/
def Host.prepared (H : Host F) (D : Disk) (output : Option PathStr) : Disk := D.addDirs (H.madeFor D output)

/-- The file system of `Model/Cli.lean` that a tree is: paths denote places (or nothing). -/
abbrev Host.world (H : Host F) (D : Disk) : World F where
  Loc := Option Place
  decEq := inferInstance
  deps := H.deps
  resolve p := (D.find H.cwd (parsePath p)).toOption
  decode := H.decode
  formatOf := H.formatOf
  encode := H.encode
  creatable l := match l with
    | none => false
    | some l => !D.isDir l && H.allowed l
  blocked p := !D.dirAt H.cwd (parsePath p) && D.existsAt H.cwd (parsePath p)
  folder p := H.canonicalize D p

/-- The files of a tree, as the abstract file system sees them. -/
def Disk.files (D : Disk) : Option Place → Option (List UInt8)
  | none => none
  | some l => D.content l

end

/-- The changes of files among the changes of a tree. -/
def fileChanges (cs : List Change) : List (Option Place × List UInt8) :=
  cs.filterMap fun c => match c with
    | .folder _ => none
    | .file l b => some (some l, b)

end Sia
