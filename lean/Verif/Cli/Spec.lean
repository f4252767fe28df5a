import Verif.Cli.Model

/-!
# Specification vocabulary for the command line

A command line is described by what the user means: a list of items.  `words` is how an item may be written, `meaning` the value a word stands for.
-/

namespace Verif.Cli

/-- What the user asks for. -/
inductive Item where
  /-- set an option; `joined` says whether as `--name=value` or as two words -/
  | set (name value : Str) (joined : Bool)
  | flag (k : Flag)
  /-- `-c`, `-o`, `-s` with a word; `short` says which of the two names is used -/
  | store (k : Store) (value : Str) (short : Bool)
  /-- the name of a case file -/
  | file (name : Str)

def dash2 (s : Str) : Str := '-' :: '-' :: s

/-- The documented names of the other options. -/
def flagName : Flag → Str
  | .test => "test".toList
  | .uopf => "uopf".toList
  | .wres => "w_res".toList

def storeName : Store → Str
  | .testcase => "testcase".toList
  | .fname => "outfile".toList
  | .solvedcase => "solvedcase".toList

def storeShort : Store → Char
  | .testcase => 'c'
  | .fname => 'o'
  | .solvedcase => 's'

/-- How an item is written on the command line. -/
def Item.words : Item → List Str
  | .set n v true => [dash2 (n ++ '=' :: v)]
  | .set n v false => [dash2 n, v]
  | .flag k => [dash2 (flagName k)]
  | .store k v false => [dash2 (storeName k), v]
  | .store k v true => [['-', storeShort k], v]
  | .file f => [f]

/-- The value a word stands for, given the default of the option: yes and no words for switches, numerals for numbers, the word itself for texts. -/
def meaning (c : Conv) : Val → Str → Option Val
  | .bool _, v => if v ∈ AFFIRMATIVE then some (.bool true) else if v ∈ NEGATIVE then some (.bool false) else none
  | .int _, v => (c.int v).map .int
  | .float _, v => (c.float v).map .float
  | .str _, v => some (.str v)

def IsText : Val → Prop
  | .str _ => True
  | _ => False

/-- The item is one the command documents. -/
def Item.Ok (c : Conv) (opf : Bool) : Item → Prop
  | .set n v _ => ∃ d, (n, d) ∈ optionsOf opf ∧ (meaning c d v).isSome
  | .flag .test => True
  | .flag _ => opf = true
  | .store .testcase v _ => v ∈ CASES
  | .store _ _ _ => True
  | .file f => f.head? ≠ some '-'

/-- The last thing the items say, if any. -/
def lastSaid {α : Type} (f : Item → Option α) (items : List Item) : Option α := items.reverse.findSome? f

/-- The value of option `e` after the items: that of the last item setting it, else its default. -/
def valueOf (c : Conv) (items : List Item) (e : OptDef) : Val :=
  (lastSaid (fun | .set n v _ => if n = e.1 then meaning c e.2 v else none | _ => none) items).getD e.2

/-- The word stored last, else the default. -/
def storedOf (k : Store) (dflt : Str) (items : List Item) : Str :=
  (lastSaid (fun | .store k' v _ => if k' = k then some v else none | _ => none) items).getD dflt

def said (k : Flag) (items : List Item) : Prop := ∃ i ∈ items, i = .flag k

def filesOf (items : List Item) : List Str := items.filterMap fun | .file f => some f | _ => none

/-- A word asks for help or the version. -/
def AsksHelp (a : Str) : Prop :=
  (∃ s, s ≠ [] ∧ (s.isPrefixOf "help".toList = true ∨ s.isPrefixOf "version".toList = true) ∧ a = dash2 s) ∨ ∃ t, a = '-' :: t ∧ 'h' ∈ t

end Verif.Cli
