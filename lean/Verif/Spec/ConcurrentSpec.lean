import Verif.Model.Concurrent
import Verif.Spec.CliSpec
import Mathlib.Data.Set.Basic

/-! Specification vocabulary for several processes of the tool at the same time (C93), and for running it again after a crash (C94). -/
namespace Sia

section
variable {F : Type} [FloatOps F]

/-- The command line of a process: suffix, output folder and inputs. -/
structure Command where
  suffix : List Char
  folder : Option PathStr
  inputs : List PathStr

/-- The files a command reads. -/
def Command.reads (W : World F) (c : Command) : Set W.Loc := { l | ∃ i ∈ c.inputs, l = W.resolve i }

/-- The files a command may write: the output files of its inputs. -/
def Command.writes (W : World F) (c : Command) : Set W.Loc :=
  { l | ∃ i ∈ c.inputs, ∃ stem ext, NamedAs i stem ext ∧ l = W.resolve (OutName stem ext c.suffix c.folder) }

/-- What the command does when it runs alone on the files `fs`: its changes, one after the other, and the panic that ends it, if any. -/
def Command.alone (W : World F) (c : Command) (fs : Files W.Loc) : List (Event W) × Option Panic :=
  processInputs W c.suffix c.folder fs c.inputs

/-- No command writes what another one reads or writes. -/
def Independent (W : World F) {ι : Type} (c : ι → Command) : Prop :=
  ∀ i j, i ≠ j → ∀ l ∈ (c i).writes W, l ∉ (c j).writes W ∧ l ∉ (c j).reads W

/-- All commands are started on the files `fs`. -/
def launch (W : World F) {ι : Type} (c : ι → Command) (fs : Files W.Loc) : Machines W ι :=
  ⟨fs, fun i => .start W (c i).suffix (c i).folder (c i).inputs⟩

/-- The files after attempts that were interrupted: the `k`-th one after so many of its changes (C94). -/
def attempts (W : World F) (c : Command) (fs : Files W.Loc) (cuts : List Nat) : Files W.Loc :=
  cuts.foldl (fun fs n => W.after fs ((c.alone W fs).1.take n)) fs

end
end Sia
