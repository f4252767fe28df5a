/-!
# User callback registry and the extension switches

Model of `add_userfcn.py:83-113`, `remove_userfcn.py:19-28`, `run_userfcn.py:24-47` and the on/off switches
`toggle_reserves.py:66-93`, `toggle_iflims.py:54-80`, `toggle_dcline.py:53-95`.

`ppc['userfcn']` is an optional dictionary from stage names to lists of entries `{'fcn': f}` or `{'fcn': f, 'args': a}`.
Function objects are elements of a type `F` with decidable equality (`==` on functions); `args` is a list.
Simplifications: text written to `stderr` is not modelled (so the `allow_multiple` argument, which only controls a
message, has no effect, as in the code); the registry is not changed by a callback while the callbacks of a stage run;
the in-place update of the caller's dictionary is modelled by returning the new registry.
-/

namespace Verif.Userfcn

/-- One entry of a stage list (add_userfcn.py:109-111): the function and, if given and non-empty, its arguments. -/
structure Entry (F A : Type) where
  fcn : F
  args : Option (List A)
deriving DecidableEq

/-- `ppc['userfcn']` when present: a dictionary from stage names to lists of entries. -/
abbrev Dict (F A : Type) := String → Option (List (Entry F A))

/-- The field `userfcn` of a case: absent or a dictionary. -/
abbrev Reg (F A : Type) := Option (Dict F A)

variable {F A : Type} [DecidableEq F]

/-- Dictionary assignment `d[s] = l`. -/
def put (d : Dict F A) (s : String) (l : List (Entry F A)) : Dict F A := fun t => if t = s then some l else d t

/-- add_userfcn.py:92-103: the dictionary with a (possibly new) list at `stage`, and that list's length `n`. -/
def prepared (r : Reg F A) (stage : String) : Dict F A × Nat :=
  match r with
  | none => (put (fun _ => none) stage [], 0)
  | some d =>
    match d stage with
    | none => (put d stage [], 0)
    | some l => (d, l.length)

/-- `ppc['userfcn'][stage][n]['args'] = args` (add_userfcn.py:111); `none` is an `IndexError`. -/
def setArgs (l : List (Entry F A)) (n : Nat) (args : List A) : Option (List (Entry F A)) :=
  match l[n]? with
  | some e => some (l.set n { e with args := some args })
  | none => none

/-- `add_userfcn(ppc, stage, fcn, args)` (add_userfcn.py:83-113). -/
def add (r : Reg F A) (stage : String) (f : F) (args : List A) : Option (Reg F A) :=
  let d := (prepared r stage).1
  let n := (prepared r stage).2
  match d stage with
  | none => none
  | some l =>
    let l' := l ++ [⟨f, none⟩]
    if 0 < args.length then
      match setArgs l' n args with
      | some l'' => some (some (put d stage l''))
      | none => none
    else some (some (put d stage l'))

/-- The loop of remove_userfcn.py:23-26: `for k in range(n-1, -1, -1)`: delete entry `k` and stop at the first hit. -/
def removeLoop (f : F) (l : List (Entry F A)) : Nat → List (Entry F A)
  | 0 => l
  | k + 1 =>
    match l[k]? with
    | some e => if e.fcn = f then l.eraseIdx k else removeLoop f l k
    | none => removeLoop f l k

/-- `remove_userfcn(ppc, stage, fcn)` (remove_userfcn.py:19-28); a missing field or stage is a `KeyError`. -/
def remove (r : Reg F A) (stage : String) (f : F) : Option (Reg F A) :=
  match r with
  | none => none
  | some d =>
    match d stage with
    | none => none
    | some l => some (some (put d stage (removeLoop f l l.length)))

/-- How a callback acts (run_userfcn.py:36-45): with two arguments at the first three stages, with four at the
printing stages; `none` is an exception. -/
structure Calls (F A S D O : Type) where
  call2 : F → S → List A → Option S
  call4 : F → S → D → O → List A → Option S

variable {S D O : Type}

/-- The arguments of an entry (run_userfcn.py:27-30). -/
def Entry.given (e : Entry F A) : List A :=
  match e.args with
  | some a => a
  | none => []

/-- One iteration of the loop of run_userfcn.py:26-45. -/
def runOne (c : Calls F A S D O) (stage : String) (extra : Option (D × O)) (rv : S) (e : Entry F A) : Option S :=
  let args := e.given
  if stage = "ext2int" ∨ stage = "formulation" ∨ stage = "int2ext" then c.call2 e.fcn rv args
  else if stage = "printpf" ∨ stage = "savecase" then
    match extra with
    | some (fd, opt) => c.call4 e.fcn rv fd opt args
    | none => none
  else some rv

/-- The loop over `range(len(userfcn[stage]))` of run_userfcn.py:26. -/
def runList (c : Calls F A S D O) (stage : String) (extra : Option (D × O)) : List (Entry F A) → S → Option S
  | [], rv => some rv
  | e :: es, rv =>
    match runOne c stage extra rv e with
    | some rv' => runList c stage extra es rv'
    | none => none

/-- `run_userfcn(userfcn, stage, rv, ...)` (run_userfcn.py:24-47). `extra` holds the optional third and fourth
arguments. -/
def run (c : Calls F A S D O) (d : Dict F A) (stage : String) (rv : S) (extra : Option (D × O)) : Option S :=
  match d stage with
  | none => some rv
  | some l => runList c stage extra l rv

/-- The five functions of one extension. -/
structure Ext (F : Type) where
  ext2int : F
  formulation : F
  int2ext : F
  printpf : F
  savecase : F

/-- What the checks before the registration look at.  toggle_reserves.py:68-72: the field `reserves` (the `|` evaluates
every operand, so a missing field is a `KeyError`; missing subfields only give a message).  toggle_iflims.py:56-59: the
same for `if`.  toggle_dcline.py:59-76: the number of columns and the `LOSS1` column of `dcline` and the number of rows of
`dclinecost`; a negative loss coefficient raises because its message cannot be formatted (an array after `%`). -/
inductive Checks where
  | reserves (present : Bool)
  | iflims (present : Bool)
  | dcline (table : Option (Nat × List Int)) (costRows : Option Nat)

/-- The checks do not raise. `LOSS1` is column 16. -/
def Checks.pass : Checks → Bool
  | .reserves p => p
  | .iflims p => p
  | .dcline none _ => false
  | .dcline (some (cols, loss1)) rows =>
    decide (17 ≤ cols) && (match rows with | none => true | some n => decide (loss1.length = n))
      && (loss1.all fun v => decide (0 ≤ v))

/-- The five `add_userfcn` calls (toggle_reserves.py:78-82, toggle_iflims.py:65-69, toggle_dcline.py:81-85). -/
def turnOn (k : Checks) (x : Ext F) (r : Reg F A) : Option (Reg F A) :=
  if k.pass then do
    let r ← add r "ext2int" x.ext2int []
    let r ← add r "formulation" x.formulation []
    let r ← add r "int2ext" x.int2ext []
    let r ← add r "printpf" x.printpf []
    add r "savecase" x.savecase []
  else none

/-- The five `remove_userfcn` calls (toggle_reserves.py:84-88, toggle_iflims.py:71-75, toggle_dcline.py:87-91). -/
def turnOff (x : Ext F) (r : Reg F A) : Option (Reg F A) := do
  let r ← remove r "savecase" x.savecase
  let r ← remove r "printpf" x.printpf
  let r ← remove r "int2ext" x.int2ext
  let r ← remove r "formulation" x.formulation
  remove r "ext2int" x.ext2int

end Verif.Userfcn
