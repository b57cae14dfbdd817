import Verif.Model.TreeProcesses
import Verif.Spec.FolderRaceSpec

/-! Specification vocabulary for several processes of the tool on one tree (C99). -/
namespace Sia

section
variable {F : Type} {ι : Type}

/-- The folder outputs of a process go to. -/
def outDir (H : Host F) (j : Job) : Place :=
  match j.output with
  | none => H.cwd
  | some o => wayEnd H (parsePath o)

/-- The place is the output `stem-suffix.ext` for one of the inputs, in the output folder. -/
def Job.Writes (H : Host F) (j : Job) (l : Place) : Prop :=
  ∃ input ∈ j.inputs, ∃ stem ext, NamedAs input stem ext ∧ l = outDir H j ++ [stem ++ '-' :: j.suffix ++ '.' :: ext]

/-- The place is that of one of the inputs. -/
def Job.Reads (H : Host F) (D : Disk) (j : Job) (l : Place) : Prop := ∃ input ∈ j.inputs, D.find H.cwd (parsePath input) = .ok l

/-- The place is on the way to the output folder, or the output folder itself. -/
def Job.Passes (H : Host F) (j : Job) (l : Place) : Prop :=
  ∃ o, j.output = some o ∧ ∃ k ≤ (parsePath o).parts.length, l = onWay H (parsePath o) k

/-- The output path, if given, is of ordinary names, with no file on the way, and what is missing may be made; the suffix has no slash; the
inputs are files. -/
structure Job.Ready (H : Host F) (D : Disk) (j : Job) : Prop where
  way : ∀ o, j.output = some o → o ≠ [] ∧ WayClear H D (parsePath o)
  suffix : '/' ∉ j.suffix
  inputs : ∀ input ∈ j.inputs, ∃ l, D.find H.cwd (parsePath input) = .ok l ∧ D.content l ≠ none

/-- No output of one process is an output or an input of another one, or on the way to its output folder. -/
def JobsApart (H : Host F) (D : Disk) (jobs : ι → Job) : Prop :=
  ∀ i j, i ≠ j → ∀ l, (jobs i).Writes H l → ¬ (jobs j).Writes H l ∧ ¬ (jobs j).Reads H D l ∧ ¬ (jobs j).Passes H l

/-- The process has left the loop or panicked in it. -/
def TreeProc.Done (q : TreeProc) : Prop := q.prep = .ended none ∧ q.pending = [] ∧ (q.stop ≠ none ∨ q.todo = [])

end
end Sia
