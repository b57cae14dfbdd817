import Verif.Model.LinkTree
import Verif.Spec.FileTreeSpec

/-! Specification vocabulary for the command line tool on a tree with symbolic links (C101). -/
namespace Sia

/-- A tree with links: the folders and files are a tree, a link has a proper name, lies in a folder and is neither a folder nor a file. -/
structure LinkDisk.Sound (T : LinkDisk) : Prop where
  tree : T.toDisk.Sound
  inside : ∀ l n, T.link (l ++ [n]) ≠ none → T.isDir l = true ∧ ProperName n
  root : T.link [] = none
  apart : ∀ l, T.link l ≠ none → T.isDir l = false ∧ T.content l = none

/-- What it means to get somewhere: from a folder, along the parts of a path, with so many links followed. -/
inductive LeadsTo (T : LinkDisk) : Nat → Place → List (List Char) → Place → Prop where
  | here (l : Place) : LeadsTo T 0 l [] l
  | step {k : Nat} {cur l : Place} {c : List Char} {cs : List (List Char)} : T.isDir cur = true → T.link (onward cur c) = none →
      LeadsTo T k (onward cur c) cs l → LeadsTo T k cur (c :: cs) l
  | jump {k : Nat} {cur l : Place} {c : List Char} {cs : List (List Char)} {text : PathStr} : T.isDir cur = true →
      T.link (onward cur c) = some text → LeadsTo T k (if (parsePath text).abs then [] else cur) ((parsePath text).parts ++ cs) l →
      LeadsTo T (k + 1) cur (c :: cs) l

section
variable {F : Type}

/-- The folder outputs go to: the folder where the `-o` path leads, or the current folder. -/
def LinkOutputsIn (H : Host F) (T : LinkDisk) (output : Option PathStr) (dir : Place) : Prop :=
  T.isDir dir = true ∧ match output with
  | none => dir = H.cwd
  | some o => T.find H.cwd (parsePath o) = .ok dir

end

/-- No output of the inputs with this suffix is the name of a link in the folder. -/
def NoLinkAt (T : LinkDisk) (dir : Place) (inputs : List PathStr) (suffix : List Char) : Prop :=
  ∀ i ∈ inputs, ∀ stem ext, NamedAs i stem ext → T.link (dir ++ [stem ++ '-' :: suffix ++ '.' :: ext]) = none

/-- The tree with other contents of files. -/
def LinkDisk.holding (T : LinkDisk) (files : Option Place → Option (List UInt8)) : LinkDisk :=
  { T with content := fun l => files (some l) }

end Sia
