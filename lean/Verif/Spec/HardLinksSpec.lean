import Verif.Model.HardLinks
import Verif.Spec.LinkTreeSpec

/-! Specification vocabulary for files with several names (C103). -/
namespace Sia

/-- Only files have several names, and all names of a file have its content. -/
structure HardDisk.Sound (T : HardDisk) : Prop where
  tree : T.toLinkDisk.Sound
  alone : ∀ l, T.content l = none → T.same l = l
  content : ∀ l, T.content (T.same l) = T.content l
  again : ∀ l, T.same (T.same l) = T.same l

/-- The two names are of one file. -/
def HardDisk.OneFile (T : HardDisk) (l m : Place) : Prop := T.same l = T.same m

/-- What is read under a name, given the contents of the files. -/
def HardDisk.read (T : HardDisk) (files : Option Place → Option (List UInt8)) (l : Place) : Option (List UInt8) := files (some (T.same l))

/-- Where the output for `stem.ext` goes in the folder. -/
def outPlace (dir : Place) (suffix stem ext : List Char) : Place := dir ++ [stem ++ '-' :: suffix ++ '.' :: ext]

end Sia
