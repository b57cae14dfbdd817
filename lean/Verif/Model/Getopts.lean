import Verif.Model.Cli

/-! The command line of the CLI: `main` (cli/src/main.rs:83-110) with the options `-s SUFFIX`, `-o OUT`, `-h`/`--help`, parsed by
`getopts` 0.2.21 (`Options::parse` with the default parsing style). The crate's source is not in /repo; this follows its published
source, specialised to the three options declared at main.rs:88-90. Not modelled: arguments that are not Unicode (`env::args` panics). -/
namespace Sia

/-- The options declared at cli/src/main.rs:88-90. -/
inductive OptId | suffix | output | help
deriving DecidableEq

/-- getopts `Fail`; every one of them becomes the panic at cli/src/main.rs:93-95. `OptionMissing` cannot occur: no option is
declared as required. -/
inductive OptFail
  | argumentMissing (id : OptId)
  | unrecognizedOption (name : List Char)
  | optionDuplicated (id : OptId)
  | unexpectedArgument (id : OptId)
deriving DecidableEq

/-- `hasarg` of the three options: `optopt` takes an argument, `optflag` does not. cli/src/main.rs:88-90. -/
def OptId.takesArg : OptId → Bool
  | .suffix => true
  | .output => true
  | .help => false

/-- getopts `find_opt` for a one-character name. cli/src/main.rs:88-90. -/
def findShort (c : Char) : Option OptId :=
  if c = 's' then some .suffix else if c = 'o' then some .output else if c = 'h' then some .help else none

/-- getopts `Name::from_str` followed by `find_opt`: a name of one character is a short name, also after two dashes.
cli/src/main.rs:88-90. -/
def findName (name : List Char) : Option OptId :=
  match name with
  | [c] => findShort c
  | n => if n = ['h', 'e', 'l', 'p'] then some .help else none

/-- getopts `is_arg`. cli/src/main.rs:91. -/
def isOptArg (arg : List Char) : Bool :=
  match arg with
  | '-' :: _ :: _ => true
  | _ => false

/-- The values seen so far: `vals` and `free` of getopts `parse`. cli/src/main.rs:91. -/
structure OptVals where
  suffix : List (List Char)
  output : List (List Char)
  help : Nat
  free : List (List Char)

/-- `vals[optid].push(..)` of getopts `parse`. cli/src/main.rs:91. -/
def OptVals.push (v : OptVals) (id : OptId) (value : List Char) : OptVals :=
  match id with
  | .suffix => { v with suffix := v.suffix ++ [value] }
  | .output => { v with output := v.output ++ [value] }
  | .help => { v with help := v.help + 1 }

/-- The characters after a single dash: a series of short options; what follows one that takes an argument is its argument.
getopts `parse`, the loop over `cur.char_indices().skip(1)`. cli/src/main.rs:91. -/
def collectShorts : List Char → Except OptFail (List OptId × Option (List Char))
  | [] => .ok ([], none)
  | c :: cs =>
    match findShort c with
    | none => .error (.unrecognizedOption [c])
    | some id =>
      if id.takesArg = true ∧ cs ≠ [] then .ok ([id], some cs)
      else
        match collectShorts cs with
        | .error e => .error e
        | .ok (ids, a) => .ok (id :: ids, a)

/-- getopts `parse`, the loop over `names`: an option that takes an argument uses the inner argument, once, or else the next
argument of the command line, whatever that is. cli/src/main.rs:91. -/
def applyNames : List OptId → Option (List Char) → List (List Char) → OptVals → Except OptFail (OptVals × List (List Char))
  | [], _, rest, v => .ok (v, rest)
  | id :: ids, a, rest, v =>
    if id.takesArg then
      match a with
      | some x => applyNames ids none rest (v.push id x)
      | none =>
        match rest with
        | [] => .error (.argumentMissing id)
        | y :: rest' => applyNames ids none rest' (v.push id y)
    else if ids = [] ∧ a.isSome = true then .error (.unexpectedArgument id)
    else applyNames ids a rest (v.push id [])

/-- The names and the inner argument of an option word. getopts `parse`. cli/src/main.rs:91. -/
def optionWord (cur : List Char) : Except OptFail (List OptId × Option (List Char)) :=
  match cur with
  | '-' :: '-' :: tail =>
    let name := tail.takeWhile (· ≠ '=')
    let inner := match tail.dropWhile (· ≠ '=') with | [] => none | _ :: value => some value
    match findName name with
    | none => .error (.unrecognizedOption name)
    | some id => .ok ([id], inner)
  | _ => collectShorts cur.tail

/-- Helper for the termination of `parseLoop`: no argument is given back. -/
theorem applyNames_length (ids : List OptId) : ∀ (a : Option (List Char)) (rest : List (List Char)) (v v' : OptVals)
    (rest' : List (List Char)), applyNames ids a rest v = .ok (v', rest') → rest'.length ≤ rest.length := by
  induction ids with
  | nil => intro a rest v v' rest' h; simp only [applyNames, Except.ok.injEq, Prod.mk.injEq] at h; rw [h.2]
  | cons id ids ih =>
    intro a rest v v' rest' h
    unfold applyNames at h
    split at h
    · split at h
      · exact ih _ _ _ _ _ h
      · split at h
        · cases h
        · have := ih _ _ _ _ _ h; simp only [List.length_cons]; omega
    · split at h
      · cases h
      · exact ih _ _ _ _ _ h

/-- The main loop of getopts `parse`: words that are no options are free; `--` ends the options. cli/src/main.rs:91. -/
def parseLoop (args : List (List Char)) (v : OptVals) : Except OptFail OptVals :=
  match args with
  | [] => .ok v
  | cur :: rest =>
    if isOptArg cur = false then parseLoop rest { v with free := v.free ++ [cur] }
    else if cur = ['-', '-'] then .ok { v with free := v.free ++ rest }
    else
      match optionWord cur with
      | .error e => .error e
      | .ok (ids, a) =>
        match h : applyNames ids a rest v with
        | .error e => .error e
        | .ok (v', rest') => parseLoop rest' v'
termination_by args.length
decreasing_by
  · simp
  · have := applyNames_length _ _ _ _ _ _ h; simp only [List.length_cons]; omega

/-- getopts `parse` on `&args[1..]`, with the check for options given twice (in the order of their declaration), and then
`opt_present("h")`, `opt_str("s")`, `opt_str("o")` and `free`. cli/src/main.rs:91-108. -/
def parseArgs (args : List (List Char)) : Except OptFail Matches :=
  match parseLoop args ⟨[], [], 0, []⟩ with
  | .error e => .error e
  | .ok v =>
    if v.suffix.length > 1 then .error (.optionDuplicated .suffix)
    else if v.output.length > 1 then .error (.optionDuplicated .output)
    else if v.help > 1 then .error (.optionDuplicated .help)
    else .ok { help := decide (v.help ≠ 0), suffix := v.suffix.head?, output := v.output.head?, free := v.free }

/-- The program on its arguments (without the program's name): `main`, cli/src/main.rs:83-110. -/
def cliRun {F : Type} [FloatOps F] (W : World F) (fs : Files W.Loc) (args : List (List Char)) : List (Event W) × Option Panic :=
  cliMain W fs (parseArgs args).toOption

end Sia
