import Verif.Model.Cli

/-! Several processes of the command line tool at the same time, on one file system: `lib/sia/rust/cli/src/main.rs`, the loop of `process`
(lines 30-72), cut into the steps between which other processes can run. Simplifications: opening and reading an input is one step, and
so is each change of a file (`World.encode` lists them); the output folder was checked and created before (lines 19-28), and paths
denote the same files throughout. -/
namespace Sia

section
variable {F : Type} [FloatOps F]

/-- A process of the tool: its arguments, the inputs it has not read yet, the changes it still has to make for the input it has read, and
the panic that will end it after these, if any. cli/src/main.rs:30-72. -/
structure Run (W : World F) where
  suffix : List Char
  folder : Option PathStr
  todo : List PathStr
  pending : List (Event W)
  stop : Option Panic

/-- A process at the start of the loop, cli/src/main.rs:30. -/
def Run.start (W : World F) (suffix : List Char) (folder : Option PathStr) (inputs : List PathStr) : Run W :=
  ⟨suffix, folder, inputs, [], none⟩

/-- The process has left the loop, cli/src/main.rs:72, or has panicked. -/
def Run.Ended {W : World F} (r : Run W) : Prop := r.pending = [] ∧ (r.stop ≠ none ∨ r.todo = [])

/-- One step of a process, cli/src/main.rs:30-72: the next change of a file if there is one; otherwise the next input is read
(`processInput` looks at the files only to read its input); nothing after the end. -/
def Run.step (W : World F) (fs : Files W.Loc) (r : Run W) : Files W.Loc × Run W :=
  match r.pending with
  | e :: es => (W.step fs e, { r with pending := es })
  | [] =>
    match r.stop with
    | some _ => (fs, r)
    | none =>
      match r.todo with
      | [] => (fs, r)
      | input :: rest =>
        let p := processInput W fs r.suffix r.folder input
        (fs, { r with todo := rest, pending := p.1, stop := p.2 })

/-- Processes and the files they share. cli/src/main.rs:30-72. -/
structure Machines (W : World F) (ι : Type) where
  files : Files W.Loc
  run : ι → Run W

/-- The operating system lets process `i` make a step. cli/src/main.rs:30-72. -/
def Machines.step {W : World F} {ι : Type} [DecidableEq ι] (m : Machines W ι) (i : ι) : Machines W ι :=
  let s := Run.step W m.files (m.run i)
  ⟨s.1, fun j => if j = i then s.2 else m.run j⟩

/-- A schedule: which process makes the next step. A process that is killed does not occur any more. cli/src/main.rs:30-72. -/
def Machines.exec {W : World F} {ι : Type} [DecidableEq ι] (m : Machines W ι) (schedule : List ι) : Machines W ι :=
  schedule.foldl Machines.step m

end
end Sia
