import Verif.Model.FolderRace
import Verif.Spec.FileTreeSpec

/-! Specification vocabulary for processes that make their output folders at the same time (C98). -/
namespace Sia

section
variable {F : Type} {ι : Type} [DecidableEq ι]

/-- The places a path of ordinary names goes through: the first `k` names, from the root or from the current folder. -/
def onWay (H : Host F) (p : RawPath) (k : Nat) : Place := (if p.abs then [] else H.cwd) ++ p.parts.take k

/-- The place such a path leads to. -/
def wayEnd (H : Host F) (p : RawPath) : Place := (if p.abs then [] else H.cwd) ++ p.parts

/-- The path consists of ordinary names, there is no file on its way, and what is missing may be made. -/
structure WayClear (H : Host F) (D : Disk) (p : RawPath) : Prop where
  names : ∀ n ∈ p.parts, ProperName n
  noFile : ∀ k ≤ p.parts.length, D.content (onWay H p k) = none
  mayMake : ∀ k ≤ p.parts.length, D.isDir (onWay H p k) = true ∨ H.allowed (onWay H p k) = true

/-- What other programs may do meanwhile: anything that leaves a tree, removes no folder and puts no file on the way to an output folder. -/
structure Meanwhile (H : Host F) (o : ι → RawPath) (D D' : Disk) : Prop where
  sound : D'.Sound
  grows : ∀ l, D.isDir l = true → D'.isDir l = true
  noFile : ∀ i, ∀ k ≤ (o i).parts.length, D'.content (onWay H (o i) k) = none

/-- A course of events: the processes make their calls in the order of the list, and between them other programs do what they may. -/
inductive Course (H : Host F) (o : ι → RawPath) (s : Stage ι) : List ι → Stage ι → Prop
  | nil : Course H o s [] s
  | step (w : List ι) (s' : Stage ι) (i : ι) : Course H o s w s' → Course H o s (w ++ [i]) (s'.step H o i)
  | other (w : List ι) (s' : Stage ι) (D : Disk) : Course H o s w s' → Meanwhile H o s'.disk D → Course H o s w ⟨D, s'.pos⟩

end
end Sia
