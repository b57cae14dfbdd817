import Verif.Model.Cli

/-! Specification vocabulary for the command line (C43). -/
namespace Sia

/-- The file name of `input` is `stem.ext`, where `ext` has no dot and `stem` is not empty. -/
def NamedAs (input : PathStr) (stem ext : List Char) : Prop :=
  fileName input = some (stem ++ '.' :: ext) ∧ '.' ∉ ext ∧ stem ≠ []

/-- Where the output for an input called `stem.ext` goes: `stem-suffix.ext`, in the folder if there is one. -/
def OutName (stem ext suffix : List Char) (folder : Option PathStr) : PathStr :=
  (match folder with | none => [] | some f => f ++ ['/']) ++ (stem ++ '-' :: suffix ++ '.' :: ext)

section
variable {F : Type} [FloatOps F]

/-- An input with this content is watermarked with depth 100, step 1 and 11 features into the bytes `final` at `loc`. -/
def MarksTo (W : World F) (suffix : List Char) (folder : Option PathStr) (input : PathStr) (content : List UInt8)
    (loc : W.Loc) (final : List UInt8) : Prop :=
  ∃ image marked stem ext format contents,
    W.decode input content = some image ∧
    watermark W.deps image (FloatOps.ofInt 100) (FloatOps.ofInt 1) 11 = .ok marked ∧
    NamedAs input stem ext ∧ loc = W.resolve (OutName stem ext suffix folder) ∧ W.creatable loc = true ∧
    W.formatOf (OutName stem ext suffix folder) = some format ∧
    W.encode format marked = (contents ++ [final], true)

/-- As `MarksTo`, for every encoder: the bytes left are the last it wrote, none if it wrote nothing. -/
def Completes (W : World F) (suffix : List Char) (folder : Option PathStr) (input : PathStr) (content : List UInt8)
    (loc : W.Loc) (final : List UInt8) : Prop :=
  ∃ image marked stem ext format contents,
    W.decode input content = some image ∧
    watermark W.deps image (FloatOps.ofInt 100) (FloatOps.ofInt 1) 11 = .ok marked ∧
    NamedAs input stem ext ∧ loc = W.resolve (OutName stem ext suffix folder) ∧ W.creatable loc = true ∧
    W.formatOf (OutName stem ext suffix folder) = some format ∧
    W.encode format marked = (contents, true) ∧ final = contents.getLastD []

/-- The inputs are completed one after the other, each from the files as the previous ones left them; at the end the files are
`fs'`. -/
inductive InTurn (W : World F) (suffix : List Char) (folder : Option PathStr) : Files W.Loc → List PathStr → Files W.Loc → Prop
  | done (fs : Files W.Loc) : InTurn W suffix folder fs [] fs
  | next (fs between fs' : Files W.Loc) (input : PathStr) (rest : List PathStr) (content : List UInt8) (loc : W.Loc)
      (final : List UInt8) : fs (W.resolve input) = some content → Completes W suffix folder input content loc final →
      between loc = some final → (∀ l, l ≠ loc → between l = fs l) → InTurn W suffix folder between rest fs' →
      InTurn W suffix folder fs (input :: rest) fs'

/-- A run over `inputs` in which every input can be watermarked, from its content before the run, into the `results`
(location and bytes); no output is one of the inputs and no two outputs coincide. -/
structure CleanBatch (W : World F) (suffix : List Char) (folder : Option PathStr) (fs : Files W.Loc) (inputs : List PathStr)
    (results : List (W.Loc × List UInt8)) : Prop where
  marks : List.Forall₂ (fun i r => ∃ content, fs (W.resolve i) = some content ∧ MarksTo W suffix folder i content r.1 r.2)
    inputs results
  outputs_distinct : (results.map Prod.fst).Nodup
  outputs_not_inputs : ∀ r ∈ results, ∀ i ∈ inputs, r.1 ≠ W.resolve i

end
end Sia
