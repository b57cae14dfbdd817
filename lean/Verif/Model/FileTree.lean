import Verif.Model.Cli
import Mathlib.Data.List.DropRight

/-! The command line tool on a tree of folders and files: `lib/sia/rust/cli/src/main.rs`, `process` (lines 16-76), with the parts of the
Rust standard library and of the operating system (unix) it uses for paths: `Path::is_dir`, `Path::exists`, `fs::create_dir_all`,
`Path::canonicalize`, `File::create` and the opening of an input. `Model/Cli.lean` has the same program over an abstract file system.
Simplifications: no links (so a folder has one absolute name), no other program changes the tree, and what the system refuses for other
reasons (permissions, length of names) is a fixed set of places. -/
namespace Sia

/-- A place in the tree: the names from the root. cli/src/main.rs:16-76. -/
abbrev Place := List (List Char)

/-- Folders and files. cli/src/main.rs:16-76. -/
structure Disk where
  isDir : Place → Bool
  content : Place → Option (List UInt8)

/-- The kinds of `std::io::Error` that `fs::create_dir_all` (main.rs:27) tells apart, and the rest. -/
inductive Trouble where
  | notFound | notDir | alreadyExists | refused
  deriving DecidableEq, Repr

/-- A path as the operating system reads it: absolute or not, and the parts between slashes (empty ones and dots included).
cli/src/main.rs:22, 33, 37, 57. -/
structure RawPath where
  abs : Bool
  parts : List (List Char)
  deriving DecidableEq

/-- The parts of a path string; the empty string has none. cli/src/main.rs:22, 33, 37, 57. -/
def parsePath (p : PathStr) : RawPath :=
  match p with
  | [] => ⟨false, []⟩
  | c :: cs => if c = '/' then ⟨true, cs.splitOn '/'⟩ else ⟨false, (c :: cs).splitOn '/'⟩

/-- The empty path, `Path::new("")`. cli/src/main.rs:19, `create_dir_all` of the standard library. -/
def RawPath.isEmpty (p : RawPath) : Bool := !p.abs && p.parts.isEmpty

/-- Where one part of a path leads from a folder: nowhere else for an empty part and `.`, up for `..`. Unix path resolution. -/
def onward (cur : Place) (part : List Char) : Place :=
  if part = [] ∨ part = ['.'] then cur else if part = ['.', '.'] then cur.dropLast else cur ++ [part]

/-- Why a place is no folder. Unix path resolution: `ENOTDIR` or `ENOENT`. -/
def Disk.noFolder (D : Disk) (l : Place) : Trouble := if (D.content l).isSome then .notDir else .notFound

/-- Unix path resolution: each part is looked up in a folder. Used by every file operation of cli/src/main.rs:16-76. -/
def Disk.walk (D : Disk) : Place → List (List Char) → Except Trouble Place
  | cur, [] => .ok cur
  | cur, c :: cs => if D.isDir cur then D.walk (onward cur c) cs else .error (D.noFolder cur)

/-- The place a path denotes, seen from the current folder. The empty path denotes nothing. -/
def Disk.find (D : Disk) (cwd : Place) (p : RawPath) : Except Trouble Place :=
  if p.isEmpty then .error .notFound else D.walk (if p.abs then [] else cwd) p.parts

/-- There is something at a place. -/
def Disk.occupied (D : Disk) (l : Place) : Bool := D.isDir l || (D.content l).isSome

/-- `Path::is_dir` (Rust std), main.rs:23. -/
def Disk.dirAt (D : Disk) (cwd : Place) (p : RawPath) : Bool :=
  match D.find cwd p with
  | .ok l => D.isDir l
  | .error _ => false

/-- `Path::exists` (Rust std), main.rs:23. -/
def Disk.existsAt (D : Disk) (cwd : Place) (p : RawPath) : Bool :=
  match D.find cwd p with
  | .ok l => D.occupied l
  | .error _ => false

/-- The tree with a new folder. main.rs:27. -/
def Disk.addDir (D : Disk) (l : Place) : Disk := { D with isDir := fun m => decide (m = l) || D.isDir m }

/-- The tree with new folders. main.rs:27. -/
def Disk.addDirs (D : Disk) (ls : List Place) : Disk := ls.foldl Disk.addDir D

/-- The tree with a file of a new content. main.rs:57-63. -/
def Disk.put (D : Disk) (l : Place) (c : List UInt8) : Disk := { D with content := fun m => if m = l then some c else D.content m }

/-- Everything outside the program and the tree: the current folder, the places where the system lets files and folders be created or
written, the libraries and the codecs (as in `World`). cli/src/main.rs:16-76. -/
structure Host (F : Type) where
  deps : Deps F
  cwd : Place
  allowed : Place → Bool
  decode : PathStr → List UInt8 → Option DynamicImage
  formatOf : PathStr → Option Nat
  encode : Nat → DynamicImage → List (List UInt8) × Bool

section
variable {F : Type}

/-- The system call `mkdir` (used by `fs::create_dir_all`, main.rs:27): the place of the new folder, or the error. Slashes at the end
are ignored; a last part `.` or `..` exists already. -/
def Host.mkdir (H : Host F) (D : Disk) (p : RawPath) : Except Trouble Place :=
  if p.isEmpty then .error .notFound
  else
    let parts := p.parts.rdropWhile (· = [])
    match parts.getLast? with
    | none => .error .alreadyExists
    | some last =>
      match D.walk (if p.abs then [] else H.cwd) parts.dropLast with
      | .error e => .error e
      | .ok dir =>
        if D.isDir dir then
          if last = ['.'] ∨ last = ['.', '.'] then .error .alreadyExists
          else if D.occupied (dir ++ [last]) then .error .alreadyExists
          else if H.allowed (dir ++ [last]) then .ok (dir ++ [last])
          else .error .refused
        else .error (D.noFolder dir)

/-- A part that `Path::components` (Rust std) leaves out, unless it is a dot at the very beginning of a relative path. -/
def idlePart (part : List Char) : Bool := part = [] || part = ['.']

/-- The parts without the idle ones at the end (`Components::as_path`, Rust std). -/
def RawPath.trim (p : RawPath) : List (List Char) :=
  match p.abs, p.parts with
  | false, ['.'] :: rest => ['.'] :: rest.rdropWhile idlePart
  | _, parts => parts.rdropWhile idlePart

/-- `Path::parent` (Rust std), used by `fs::create_dir_all`, main.rs:27. -/
def RawPath.parent (p : RawPath) : Option RawPath :=
  if p.trim = [] then none else some ⟨p.abs, RawPath.trim ⟨p.abs, p.trim.dropLast⟩⟩

theorem rdropWhile_length_le {α : Type} (f : α → Bool) (l : List α) : (l.rdropWhile f).length ≤ l.length := (List.rdropWhile_prefix f l).length_le

theorem RawPath.trim_length (p : RawPath) : p.trim.length ≤ p.parts.length := by
  obtain ⟨abs, parts⟩ := p
  unfold RawPath.trim
  split
  · rename_i rest _ h
    simp only at h
    subst h
    simpa using rdropWhile_length_le idlePart rest
  · exact rdropWhile_length_le _ _

theorem RawPath.parent_length (p q : RawPath) (h : p.parent = some q) : q.parts.length < p.parts.length := by
  unfold RawPath.parent at h
  split at h
  · cases h
  · rename_i hp
    cases h
    have h1 := RawPath.trim_length ⟨p.abs, p.trim.dropLast⟩
    have h2 := RawPath.trim_length p
    have h3 : 0 < p.trim.length := List.length_pos_iff.mpr hp
    simp only [List.length_dropLast] at h1
    show (RawPath.trim ⟨p.abs, p.trim.dropLast⟩).length < _
    omega

/-- `fs::create_dir_all` (Rust std), main.rs:27: the folders made, in this order, and the error, if any. -/
def Host.createDirAll (H : Host F) (D : Disk) (p : RawPath) : List Place × Option Trouble :=
  if p.isEmpty then ([], none)
  else
    match H.mkdir D p with
    | .ok l => ([l], none)
    | .error .notFound =>
      match hq : p.parent with
      | none => ([], some .refused)
      | some q =>
        match H.createDirAll D q with
        | (ls, some e) => (ls, some e)
        | (ls, none) =>
          match H.mkdir (D.addDirs ls) p with
          | .ok l => (ls ++ [l], none)
          | .error e => if (D.addDirs ls).dirAt H.cwd p then (ls, none) else (ls, some e)
    | .error e => if D.dirAt H.cwd p then ([], none) else ([], some e)
  termination_by p.parts.length
  decreasing_by exact RawPath.parent_length p q hq

/-- The absolute path string of a place. `Path::canonicalize`, main.rs:49. -/
def absolute (l : Place) : PathStr := if l = [] then ['/'] else l.flatMap fun name => '/' :: name

/-- `Path::canonicalize` (Rust std), main.rs:49. -/
def Host.canonicalize (H : Host F) (D : Disk) (p : PathStr) : Option PathStr :=
  match D.find H.cwd (parsePath p) with
  | .ok l => if D.occupied l then some (absolute l) else none
  | .error _ => none

/-- A change of the tree: a new folder, or a file with a new content. cli/src/main.rs:27, 57-63. -/
inductive Change where
  | folder (l : Place)
  | file (l : Place) (content : List UInt8)

/-- One change. cli/src/main.rs:27, 57-63. -/
def Disk.change (D : Disk) : Change → Disk
  | .folder l => D.addDir l
  | .file l c => D.put l c

/-- The tree after some changes. cli/src/main.rs:27, 57-63. -/
def Disk.changes (D : Disk) (cs : List Change) : Disk := cs.foldl Disk.change D

/-- The end of the round for one input, main.rs:57-63: `File::create` (a place that is no folder, in a folder, where the system allows
it) and `write_to`. -/
def Host.store (H : Host F) (D : Disk) (out : PathStr) (marked : DynamicImage) : List Change × Option Panic :=
  match D.find H.cwd (parsePath out) with
  | .error _ => ([], some .fileError)
  | .ok l =>
    if !D.isDir l && H.allowed l then
      match H.formatOf out with
      | none => ([.file l []], some .fileError)
      | some format =>
        let (contents, ok) := H.encode format marked
        (.file l [] :: contents.map (.file l), if ok then none else some .fileError)
    else ([], some .fileError)

variable [FloatOps F]

/-- One round of the loop, main.rs:30-72, on the tree. -/
def Host.input (H : Host F) (D : Disk) (suffix : List Char) (output : Option PathStr) (input : PathStr) : List Change × Option Panic :=
  match D.find H.cwd (parsePath input) with
  | .error _ => ([], some .fileError)
  | .ok l =>
    match D.content l with
    | none => ([], some .fileError)
    | some content =>
      match H.decode input content with
      | none => ([], some .fileError)
      | some image =>
        match watermark H.deps image (FloatOps.ofInt 100) (FloatOps.ofInt 1) 11 with
        | .error p => ([], some p)
        | .ok marked =>
          match (fileName input).bind stemExt with
          | none => ([], some .unwrapNone)
          | some (stem, ext) =>
            match output with
            | none => H.store D (outputPath stem ext suffix none) marked
            | some o =>
              match H.canonicalize D o with
              | none => ([], some .fileError)
              | some f => H.store D (outputPath stem ext suffix (some f)) marked

/-- The loop, main.rs:30-72, on the tree. -/
def Host.inputs (H : Host F) (suffix : List Char) (output : Option PathStr) : Disk → List PathStr → List Change × Option Panic
  | _, [] => ([], none)
  | D, input :: rest =>
    match H.input D suffix output input with
    | (cs, some p) => (cs, some p)
    | (cs, none) =>
      let (cs', r) := H.inputs suffix output (D.changes cs) rest
      (cs ++ cs', r)

/-- `process`, main.rs:16-76, on the tree: all changes, the folders made included. -/
def Host.process (H : Host F) (D : Disk) (inputs : List PathStr) (suffix : Option (List Char)) (output : Option PathStr) :
    List Change × Option Panic :=
  match suffix with
  | none => ([], none)
  | some s =>
    match output with
    | none => H.inputs s none D inputs
    | some o =>
      if !D.dirAt H.cwd (parsePath o) && D.existsAt H.cwd (parsePath o) then ([], some .exitOne)
      else
        match H.createDirAll D (parsePath o) with
        | (ls, some _) => (ls.map .folder, some .fileError)
        | (ls, none) =>
          let (cs, r) := H.inputs s (some o) (D.addDirs ls) inputs
          (ls.map .folder ++ cs, r)

end
end Sia
