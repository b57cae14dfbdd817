import Verif.Model.SharedOutputs
import Verif.Spec.ConcurrentSpec

/-! Specification vocabulary for processes of the tool that write the same files (C100). -/
namespace Sia

/-- Each content continues the one before. -/
def Growing : List UInt8 → List (List UInt8) → Prop
  | _, [] => True
  | before, c :: cs => before <+: c ∧ Growing c cs

section
variable {F : Type} [FloatOps F]

/-- The encoders write their files from the beginning to the end. -/
def World.Appends (W : World F) : Prop := ∀ format image, Growing [] (W.encode format image).1

/-- All commands are started on the files `fs`. -/
def startWriters (W : World F) {ι : Type} (c : ι → Command) (fs : Files W.Loc) : Writers W ι :=
  ⟨fs, fun i => .start W (c i).suffix (c i).folder (c i).inputs⟩

/-- No command writes what a command reads (another one or itself). -/
def NoOutputRead (W : World F) {ι : Type} (c : ι → Command) : Prop := ∀ i j, ∀ l ∈ (c i).writes W, l ∉ (c j).reads W

/-- Every input of every command can be marked, and whatever has its output at a location marks to the same bytes there. -/
def SameBytes (W : World F) {ι : Type} (c : ι → Command) (fs : Files W.Loc) (expected : W.Loc → List UInt8) : Prop :=
  ∀ i, ∀ x ∈ (c i).inputs, ∃ content loc, fs (W.resolve x) = some content ∧
    MarksTo W (c i).suffix (c i).folder x content loc (expected loc)

/-- As `MarksTo`, with all contents the output has after it was created empty. -/
def MarksBy (W : World F) (suffix : List Char) (folder : Option PathStr) (input : PathStr) (content : List UInt8) (loc : W.Loc)
    (contents : List (List UInt8)) : Prop :=
  ∃ image marked stem ext format,
    W.decode input content = some image ∧
    watermark W.deps image (FloatOps.ofInt 100) (FloatOps.ofInt 1) 11 = .ok marked ∧
    NamedAs input stem ext ∧ loc = W.resolve (OutName stem ext suffix folder) ∧ W.creatable loc = true ∧
    W.formatOf (OutName stem ext suffix folder) = some format ∧
    W.encode format marked = (contents, true)

/-- By the end of the schedule `past`, a process has read an input, its output is `l`, and one of the contents it means to give it has the
byte `b` at position `k`. -/
def MeansToWrite (W : World F) {ι : Type} [DecidableEq ι] (c : ι → Command) (fs : Files W.Loc) (past : List ι) (l : W.Loc) (k : Nat)
    (b : UInt8) : Prop :=
  ∃ before, before <+: past ∧ ∃ i, ∃ x ∈ (c i).inputs,
    ∃ e ∈ (processInput W ((startWriters W c fs).exec before).files (c i).suffix (c i).folder x).1, e.1 = l ∧ e.2[k]? = some b

/-- No two commands write the same file. -/
def OutputsApart (W : World F) {ι : Type} (c : ι → Command) : Prop := ∀ i j, i ≠ j → ∀ l ∈ (c i).writes W, l ∉ (c j).writes W

/-- A content that is, or was, on its way to `final`: no longer, and every byte is the right one or zero. -/
def PartlyWritten (final content : List UInt8) : Prop :=
  content.length ≤ final.length ∧ ∀ (k : Nat) (b : UInt8), content[k]? = some b → b = 0 ∨ final[k]? = some b

end
end Sia
