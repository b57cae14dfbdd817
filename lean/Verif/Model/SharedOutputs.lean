import Verif.Model.Concurrent

/-! Several processes of the command line tool writing the same file: `lib/sia/rust/cli/src/main.rs`, lines 57-63, down to the system calls
that `File::create` and `write_to` make. `Model/Concurrent.lean` gives a file a whole new content at each change; here each process has
a file of its own open, with its own position in it, and writes bytes at that position, whatever others have written meanwhile.
Simplifications: opening and reading an input is one step; the encoders write from the beginning to the end of the file; the output
folder was made before, and paths denote the same files throughout. -/
namespace Sia

/-- The content of a file after `write` of some bytes at a position (POSIX): a gap before them is filled with zeros; nothing is written for no
bytes. Used by `write_to`, cli/src/main.rs:58-63. -/
def patch (old : List UInt8) (offset : Nat) (bytes : List UInt8) : List UInt8 :=
  if bytes = [] then old
  else old.take offset ++ List.replicate (offset - old.length) 0 ++ bytes ++ old.drop (offset + bytes.length)

section
variable {F : Type} [FloatOps F]

/-- A system call that changes a file. cli/src/main.rs:57-63. -/
inductive FileCall (W : World F) where
  /-- `File::create`, main.rs:57: the file is empty then -/
  | create (l : W.Loc)
  /-- `write` of the file that was created, at the position where the process is in it, main.rs:58-63 -/
  | write (l : W.Loc) (offset : Nat) (bytes : List UInt8)

/-- What a call does. cli/src/main.rs:57-63. -/
def World.call (W : World F) (fs : Files W.Loc) : FileCall W → Files W.Loc
  | .create l => W.step fs (l, [])
  | .write l offset bytes => W.step fs (l, patch ((fs l).getD []) offset bytes)

/-- The writes by which the content of a file grows from `before` to one content after the other. cli/src/main.rs:58-63. -/
def writeCalls {W : World F} (l : W.Loc) : List UInt8 → List (List UInt8) → List (FileCall W)
  | _, [] => []
  | before, c :: cs => .write l before.length (c.drop before.length) :: writeCalls l c cs

/-- The calls for the changes of one round of the loop (`processInput`): the file is created, then written. cli/src/main.rs:57-63. -/
def callsOf {W : World F} : List (Event W) → List (FileCall W)
  | [] => []
  | e :: es => .create e.1 :: writeCalls e.1 e.2 (es.map Prod.snd)

/-- A process: its arguments, the inputs it has not read yet, the calls it still has to make for the input it has read, and the panic that
will end it after these, if any. cli/src/main.rs:30-72. -/
structure Writer (W : World F) where
  suffix : List Char
  folder : Option PathStr
  todo : List PathStr
  calls : List (FileCall W)
  stop : Option Panic

/-- A process at the start of the loop, cli/src/main.rs:30. -/
def Writer.start (W : World F) (suffix : List Char) (folder : Option PathStr) (inputs : List PathStr) : Writer W :=
  ⟨suffix, folder, inputs, [], none⟩

/-- The process has left the loop, cli/src/main.rs:72, or has panicked. -/
def Writer.Ended {W : World F} (r : Writer W) : Prop := r.calls = [] ∧ (r.stop ≠ none ∨ r.todo = [])

/-- One step of a process, cli/src/main.rs:30-72: the next call if there is one; otherwise the next input is read; nothing after the end. -/
def Writer.step (W : World F) (fs : Files W.Loc) (r : Writer W) : Files W.Loc × Writer W :=
  match r.calls with
  | e :: es => (W.call fs e, { r with calls := es })
  | [] =>
    match r.stop with
    | some _ => (fs, r)
    | none =>
      match r.todo with
      | [] => (fs, r)
      | input :: rest =>
        let p := processInput W fs r.suffix r.folder input
        (fs, { r with todo := rest, calls := callsOf p.1, stop := p.2 })

/-- Processes and the files they share. cli/src/main.rs:30-72. -/
structure Writers (W : World F) (ι : Type) where
  files : Files W.Loc
  run : ι → Writer W

/-- The operating system lets process `i` make a step. cli/src/main.rs:30-72. -/
def Writers.step {W : World F} {ι : Type} [DecidableEq ι] (m : Writers W ι) (i : ι) : Writers W ι :=
  let s := Writer.step W m.files (m.run i)
  ⟨s.1, fun j => if j = i then s.2 else m.run j⟩

/-- A schedule: which process makes the next step. A process that is killed does not occur any more. cli/src/main.rs:30-72. -/
def Writers.exec {W : World F} {ι : Type} [DecidableEq ι] (m : Writers W ι) (schedule : List ι) : Writers W ι :=
  schedule.foldl Writers.step m

end
end Sia
