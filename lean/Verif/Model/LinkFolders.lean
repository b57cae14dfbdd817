import Verif.Model.LinkTree

/-! Making the output folder on a tree with symbolic links: `lib/sia/rust/cli/src/main.rs`, `process` (lines 16-76), line 27. `mkdir` follows
links on the way but not the last part; `Path::is_dir` in `fs::create_dir_all` follows the last part too. Simplifications as in
`Model/FileTree.lean`. -/
namespace Sia

/-- The tree with new folders. main.rs:27. -/
def LinkDisk.addDirs (T : LinkDisk) (ls : List Place) : LinkDisk := { T with toDisk := T.toDisk.addDirs ls }

/-- `Path::is_dir` (Rust std), main.rs:23 and in `fs::create_dir_all`. -/
def LinkDisk.dirAt (T : LinkDisk) (cwd : Place) (p : RawPath) : Bool :=
  match T.find cwd p with
  | .ok l => T.isDir l
  | .error _ => false

section
variable {F : Type}

/-- The system call `mkdir` (used by `fs::create_dir_all`, main.rs:27) with links: one that has the name of the new folder is not followed,
the name is taken. -/
def Host.linkMkdir (H : Host F) (T : LinkDisk) (p : RawPath) : Except Trouble Place :=
  if p.isEmpty then .error .notFound
  else
    let parts := p.parts.rdropWhile (· = [])
    match parts.getLast? with
    | none => .error .alreadyExists
    | some last =>
      match T.follow 40 (if p.abs then [] else H.cwd) parts.dropLast with
      | .error e => .error e
      | .ok dir =>
        if T.isDir dir then
          if last = ['.'] ∨ last = ['.', '.'] then .error .alreadyExists
          else if T.occupied (dir ++ [last]) || (T.link (dir ++ [last])).isSome then .error .alreadyExists
          else if H.allowed (dir ++ [last]) then .ok (dir ++ [last])
          else .error .refused
        else .error (T.noFolder dir)

/-- `fs::create_dir_all` (Rust std), main.rs:27, with links: the folders made, in this order, and the error, if any. -/
def Host.linkCreateDirAll (H : Host F) (T : LinkDisk) (p : RawPath) : List Place × Option Trouble :=
  if p.isEmpty then ([], none)
  else
    match H.linkMkdir T p with
    | .ok l => ([l], none)
    | .error .notFound =>
      match hq : p.parent with
      | none => ([], some .refused)
      | some q =>
        match H.linkCreateDirAll T q with
        | (ls, some e) => (ls, some e)
        | (ls, none) =>
          match H.linkMkdir (T.addDirs ls) p with
          | .ok l => (ls ++ [l], none)
          | .error e => if (T.addDirs ls).dirAt H.cwd p then (ls, none) else (ls, some e)
    | .error e => if T.dirAt H.cwd p then ([], none) else ([], some e)
  termination_by p.parts.length
  decreasing_by exact RawPath.parent_length p q hq

variable [FloatOps F]

/-- `process`, main.rs:16-76, on the tree with links: the folders made, and the changes of files and how it ends. -/
def Host.linkProcess (H : Host F) (T : LinkDisk) (inputs : List PathStr) (suffix : Option (List Char)) (output : Option PathStr) :
    List Place × List (Option Place × List UInt8) × Option Panic :=
  match suffix, output with
  | some _, some o =>
    if (H.linkWorld T).blocked o then ([], [], some .exitOne)
    else
      match H.linkCreateDirAll T (parsePath o) with
      | (ls, some _) => (ls, [], some .fileError)
      | (ls, none) => (ls, Sia.process (H.linkWorld (T.addDirs ls)) (fun l => l.bind T.content) inputs suffix output)
  | _, _ => ([], Sia.process (H.linkWorld T) (fun l => l.bind T.content) inputs suffix output)

end
end Sia
