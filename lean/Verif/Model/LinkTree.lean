import Verif.Model.FileTree

/-! The command line tool on a tree that also has symbolic links: `lib/sia/rust/cli/src/main.rs`, `process` (lines 16-76). Opening an input,
`Path::is_dir`, `Path::exists`, `Path::canonicalize` and `File::create` follow links, the last part of a path included (unix).
Simplifications as in `Model/FileTree.lean`, and: the folder of the `-o` path is there already (through links, perhaps; Model/LinkFolders.lean makes it), so that
`fs::create_dir_all` (line 27) makes nothing; where it is not, the model ends as if it could not be made. -/
namespace Sia

/-- Folders, files, and links with their texts. cli/src/main.rs:16-76. -/
structure LinkDisk extends Disk where
  link : Place → Option PathStr

/-- Unix path resolution: a link on the way is replaced by its text, which is read from the root or from the folder the link is in; the number
is that of the links that may still be followed (`ELOOP` after that). Used by every file operation of cli/src/main.rs:16-76. -/
def LinkDisk.follow (T : LinkDisk) : Nat → Place → List (List Char) → Except Trouble Place
  | _, cur, [] => .ok cur
  | n, cur, c :: cs =>
    if T.isDir cur then
      match T.link (onward cur c) with
      | none => T.follow n (onward cur c) cs
      | some text =>
        match n with
        | 0 => .error .refused
        | n + 1 => T.follow n (if (parsePath text).abs then [] else cur) ((parsePath text).parts ++ cs)
    else .error (T.noFolder cur)
  termination_by n _ parts => (n, parts.length)

/-- The place a path denotes, seen from the current folder; at most 40 links are followed (Linux, `MAXSYMLINKS`). cli/src/main.rs:16-76. -/
def LinkDisk.find (T : LinkDisk) (cwd : Place) (p : RawPath) : Except Trouble Place :=
  if p.isEmpty then .error .notFound else T.follow 40 (if p.abs then [] else cwd) p.parts

/-- The file system of `Model/Cli.lean` that a tree with links is: `Path::is_dir` and `Path::exists` (main.rs:23), `Path::canonicalize`
(main.rs:49), `File::create` (main.rs:57) and the opening of an input (main.rs:33) on it. -/
abbrev Host.linkWorld {F : Type} (H : Host F) (T : LinkDisk) : World F where
  Loc := Option Place
  decEq := inferInstance
  deps := H.deps
  resolve p := (T.find H.cwd (parsePath p)).toOption
  decode := H.decode
  formatOf := H.formatOf
  encode := H.encode
  creatable l := match l with
    | none => false
    | some l => !T.isDir l && H.allowed l
  blocked p := match T.find H.cwd (parsePath p) with
    | .ok l => !T.isDir l && T.occupied l
    | .error _ => false
  folder p := match T.find H.cwd (parsePath p) with
    | .ok l => if T.occupied l then some (absolute l) else none
    | .error _ => none

end Sia
