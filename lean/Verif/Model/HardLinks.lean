import Verif.Model.LinkTree

/-! The command line tool on a tree where a file can have several names (hard links): `lib/sia/rust/cli/src/main.rs`, `process`
(lines 16-76). `File::create` (main.rs:57) opens the file a name has and empties it; it does not put a new file in its place.
Simplifications as in `Model/LinkTree.lean`. -/
namespace Sia

/-- A tree with links where a file can have several names: of the names of a file one stands for all of them (its inode, so to say).
cli/src/main.rs:16-76. -/
structure HardDisk extends LinkDisk where
  same : Place → Place

/-- The file system of `Model/Cli.lean` that such a tree is. cli/src/main.rs:23-57. -/
abbrev Host.hardWorld {F : Type} (H : Host F) (T : HardDisk) : World F where
  Loc := Option Place
  decEq := inferInstance
  deps := H.deps
  resolve p := (T.find H.cwd (parsePath p)).toOption.map T.same
  decode := H.decode
  formatOf := H.formatOf
  encode := H.encode
  creatable l := match l with
    | none => false
    | some l => !T.isDir l && H.allowed l
  blocked p := match T.find H.cwd (parsePath p) with
    | .ok l => !T.isDir l && T.occupied l
    | .error _ => false
  folder p := match T.find H.cwd (parsePath p) with
    | .ok l => if T.occupied l then some (absolute l) else none
    | .error _ => none

end Sia
