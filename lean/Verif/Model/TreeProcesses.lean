import Verif.Model.FolderRace

/-! Several processes of the command line tool at the same time on one tree, from the check of the output folder to the end of the loop:
`lib/sia/rust/cli/src/main.rs`, `process` (lines 16-76), cut into steps between which other processes can run. Unlike in
`Model/Concurrent.lean`, the output folders are made by the processes and paths are resolved in the tree as it is at the moment.
Simplifications: opening and reading an input and finding the place of its output is one step, and so is each change of a file. -/
namespace Sia

/-- The arguments of `process`: the files, the suffix (which is given) and the output folder. cli/src/main.rs:16. -/
structure Job where
  inputs : List PathStr
  suffix : List Char
  output : Option PathStr

/-- A process: where it is in making the output folder (main.rs:20-28), the inputs not read yet, the changes still to be made for the input
read last, and the panic that will end it after these, if any. cli/src/main.rs:16-76. -/
structure TreeProc where
  prep : Prep
  todo : List PathStr
  pending : List Change
  stop : Option Panic

/-- A process at the start of `process`: without `-o` there is no folder to be made. cli/src/main.rs:19-30. -/
def Job.start (j : Job) : TreeProc := ⟨if j.output.isSome then .start else .ended none, j.inputs, [], none⟩

section
variable {F : Type} [FloatOps F]

/-- One step of a process: a call for the output folder; or the next change of a file; or the next input is read. Nothing after the end.
cli/src/main.rs:20-72. -/
def Host.advance (H : Host F) (j : Job) (s : Disk × TreeProc) : Disk × TreeProc :=
  match s.2.prep with
  | .ended (some _) => s
  | .ended none =>
    match s.2.pending with
    | c :: cs => (s.1.change c, { s.2 with pending := cs })
    | [] =>
      match s.2.stop with
      | some _ => s
      | none =>
        match s.2.todo with
        | [] => s
        | input :: rest =>
          let r := H.input s.1 j.suffix j.output input
          (s.1, { s.2 with todo := rest, pending := r.1, stop := r.2 })
  | p =>
    let r := H.prepareStep (parsePath (j.output.getD [])) (s.1, p)
    (r.1, { s.2 with prep := r.2 })

/-- Processes and the tree they share. cli/src/main.rs:16-76. -/
structure TreeStage (ι : Type) where
  disk : Disk
  proc : ι → TreeProc

/-- The operating system lets process `i` make a step. cli/src/main.rs:16-76. -/
def TreeStage.step {ι : Type} [DecidableEq ι] (H : Host F) (jobs : ι → Job) (s : TreeStage ι) (i : ι) : TreeStage ι :=
  let r := H.advance (jobs i) (s.disk, s.proc i)
  ⟨r.1, fun j => if j = i then r.2 else s.proc j⟩

/-- A schedule: which process makes the next step. A process that is killed does not occur any more. cli/src/main.rs:16-76. -/
def TreeStage.exec {ι : Type} [DecidableEq ι] (H : Host F) (jobs : ι → Job) (D : Disk) (schedule : List ι) : TreeStage ι :=
  schedule.foldl (TreeStage.step H jobs) ⟨D, fun i => (jobs i).start⟩

end
end Sia
