import Verif.Model.Cli

/-! Specification of the command line language (C68): what a sequence of words means, as a grammar. -/
namespace Sia

/-- What a user can say on the command line. -/
inductive Item
  | file (name : List Char)
  | suffix (value : List Char)
  | output (value : List Char)
  | help
deriving DecidableEq

/-- The letter of an option with a value, and the item it makes. -/
inductive ValueOption : Char → (List Char → Item) → Prop
  | s : ValueOption 's' .suffix
  | o : ValueOption 'o' .output

/-- The words that spell some items. -/
inductive Words : List Item → List (List Char) → Prop
  /-- a word that does not begin with a dash, or is only a dash, is a file -/
  | file (name : List Char) : name.head? ≠ some '-' ∨ name = ['-'] → Words [.file name] [name]
  /-- `-h`, `-hh`, … -/
  | flags (k : ℕ) : 1 ≤ k → Words (List.replicate k .help) ['-' :: List.replicate k 'h']
  /-- `-sVALUE`, and `-hsVALUE`, … -/
  | joined (k : ℕ) (c : Char) (mk : List Char → Item) (value : List Char) : ValueOption c mk → value ≠ [] →
      Words (List.replicate k .help ++ [mk value]) ['-' :: (List.replicate k 'h' ++ c :: value)]
  /-- `-s VALUE`, and `-hs VALUE`, …; the value can be any word -/
  | separate (k : ℕ) (c : Char) (mk : List Char → Item) (value : List Char) : ValueOption c mk →
      Words (List.replicate k .help ++ [mk value]) ['-' :: (List.replicate k 'h' ++ [c]), value]
  /-- `--help` -/
  | longHelp : Words [.help] [['-', '-', 'h', 'e', 'l', 'p']]
  /-- `--h` -/
  | longH : Words [.help] [['-', '-', 'h']]
  /-- `--s=VALUE`; the value may be empty -/
  | longJoined (c : Char) (mk : List Char → Item) (value : List Char) : ValueOption c mk →
      Words [mk value] ['-' :: '-' :: c :: '=' :: value]
  /-- `--s VALUE` -/
  | longSeparate (c : Char) (mk : List Char → Item) (value : List Char) : ValueOption c mk →
      Words [mk value] [['-', '-', c], value]

/-- A whole command line and its items, in order; after the word `--` everything is a file. -/
inductive CommandLine : List Item → List (List Char) → Prop
  | done : CommandLine [] []
  | dashes (files : List (List Char)) : CommandLine (files.map .file) (['-', '-'] :: files)
  | more (is js : List Item) (ws vs : List (List Char)) : Words is ws → CommandLine js vs → CommandLine (is ++ js) (ws ++ vs)

/-- The values of the suffix option, in order. -/
def suffixValues (is : List Item) : List (List Char) := is.filterMap fun i => match i with | .suffix v => some v | _ => none
/-- The values of the output option, in order. -/
def outputValues (is : List Item) : List (List Char) := is.filterMap fun i => match i with | .output v => some v | _ => none
/-- The files, in order. -/
def fileNames (is : List Item) : List (List Char) := is.filterMap fun i => match i with | .file f => some f | _ => none

/-- No option is given twice, and `m` is what the items say. -/
structure Means (is : List Item) (m : Matches) : Prop where
  files : m.free = fileNames is
  suffix : m.suffix.toList = suffixValues is
  output : m.output.toList = outputValues is
  help : m.help = true ↔ Item.help ∈ is
  help_once : is.count .help ≤ 1

end Sia
