import Verif.Model.HardLinks
import Verif.Model.LinkFolders

/-! The whole run on a tree where files can have several names, the output folder made on the way: `lib/sia/rust/cli/src/main.rs`, `process`
(lines 16-76). Folders have one name each, so they are made as in `Model/LinkFolders.lean`. Simplifications as there. -/
namespace Sia

/-- The tree with new folders. main.rs:27. -/
def HardDisk.addDirs (T : HardDisk) (ls : List Place) : HardDisk := { T with toLinkDisk := T.toLinkDisk.addDirs ls }

/-- `process`, main.rs:16-76: the folders made, and the changes of files and how it ends. -/
def Host.hardProcess {F : Type} [FloatOps F] (H : Host F) (T : HardDisk) (inputs : List PathStr) (suffix : Option (List Char))
    (output : Option PathStr) : List Place × List (Option Place × List UInt8) × Option Panic :=
  match suffix, output with
  | some _, some o =>
    if (H.hardWorld T).blocked o then ([], [], some .exitOne)
    else
      match H.linkCreateDirAll T.toLinkDisk (parsePath o) with
      | (ls, some _) => (ls, [], some .fileError)
      | (ls, none) => (ls, Sia.process (H.hardWorld (T.addDirs ls)) (fun l => l.bind T.content) inputs suffix output)
  | _, _ => ([], Sia.process (H.hardWorld T) (fun l => l.bind T.content) inputs suffix output)

end Sia
