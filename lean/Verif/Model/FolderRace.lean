import Verif.Model.FileTree

/-! Making the output folder while other processes run: `lib/sia/rust/cli/src/main.rs`, lines 20-28, and `fs::create_dir_all` of the Rust
standard library, cut into the system calls between which other processes can change the tree. `Host.createDirAll`
(`Model/FileTree.lean`) is the same program undisturbed. Simplification: as there. -/
namespace Sia

/-- Where a process is in lines 20-28. `above` are the paths whose turn comes when a parent has been made (the calls of `create_dir_all` that
wait for an inner call). cli/src/main.rs:20-28. -/
inductive Prep where
  /-- about to ask whether the output is a folder, main.rs:23 -/
  | start
  /-- it is not; about to ask whether it exists, main.rs:23 -/
  | startExists
  /-- at the beginning of `create_dir_all` of a path, main.rs:27 -/
  | make (p : RawPath) (above : List RawPath)
  /-- `mkdir` has failed; about to ask whether the path is a folder -/
  | check (p : RawPath) (above : List RawPath)
  /-- a path has been made; about to call `mkdir` for the one below it -/
  | remake (above : List RawPath)
  /-- past main.rs:28, or exited, or panicked -/
  | ended (r : Option Panic)

section
variable {F : Type}

/-- One system call: the folder it makes, if any, and where the process is then. cli/src/main.rs:23-27, `create_dir_all` (Rust std). -/
def Host.prepare (H : Host F) (D : Disk) (o : RawPath) : Prep → Option Place × Prep
  | .start => (none, if D.dirAt H.cwd o then .make o [] else .startExists)
  | .startExists => (none, if D.existsAt H.cwd o then .ended (some .exitOne) else .make o [])
  | .make p above =>
    if p.isEmpty then (none, .remake above)
    else
      match H.mkdir D p with
      | .ok l => (some l, .remake above)
      | .error .notFound =>
        match p.parent with
        | none => (none, .ended (some .fileError))
        | some q => (none, .make q (p :: above))
      | .error _ => (none, .check p above)
  | .check p above => (none, if D.dirAt H.cwd p then .remake above else .ended (some .fileError))
  | .remake [] => (none, .ended none)
  | .remake (p :: above) =>
    match H.mkdir D p with
    | .ok l => (some l, .remake above)
    | .error _ => (none, .check p above)
  | .ended r => (none, .ended r)

/-- A call and its effect on the tree. cli/src/main.rs:23-27. -/
def Host.prepareStep (H : Host F) (o : RawPath) (s : Disk × Prep) : Disk × Prep :=
  let r := H.prepare s.1 o s.2
  (match r.1 with
    | none => s.1
    | some l => s.1.addDir l, r.2)

/-- Several processes and the tree they share. cli/src/main.rs:20-28. -/
structure Stage (ι : Type) where
  disk : Disk
  pos : ι → Prep

/-- Process `i`, whose output path is `o i`, makes its next call. cli/src/main.rs:20-28. -/
def Stage.step {ι : Type} [DecidableEq ι] (H : Host F) (o : ι → RawPath) (s : Stage ι) (i : ι) : Stage ι :=
  let r := H.prepareStep (o i) (s.disk, s.pos i)
  ⟨r.1, fun j => if j = i then r.2 else s.pos j⟩

end
end Sia
