import Mathlib.Data.List.Basic

/-!
# Model of the argument handling of `opf`

/repo/pypower/opf_args.py.

Arguments and the values of a case dictionary are `Option V`; `none` is Python's `None`, `V` stands for everything else.  A call that raises gives `none`.
-/

namespace Verif.Opf.Args

/-- What is known about values: `len(v)`, `v.shape[0]`, `array([])`, `ppoption()`; the dictionary defined by a case file, and what `loadcase` makes of a dictionary
(loadcase.py:162-193: a copy, converted to version 2; `none` if it raises or reports an error). -/
structure Env (V : Type) where
  len : V → ℕ
  rows : V → ℕ
  empty : V
  ppoption : V
  file : String → Option (String → Option (Option V))
  load : (String → Option (Option V)) → Option (String → Option (Option V))

/-- A dictionary: `none` for a key that is not in it. -/
abbrev Dict (V : Type) := String → Option (Option V)

/-- `d[k] = v`. -/
def set {V : Type} (d : Dict V) (k : String) (v : Option V) : Dict V := fun k' => if k' = k then some v else d k'

/-- The first argument: a string, a dict, or anything else (opf_args.py:92). -/
inductive First (V : Type) where
  | file (name : String)
  | dict (d : Dict V)
  | val (v : Option V)

/-- The optional arguments, after unpacking (opf_args.py:102-193, 230-292); `casefile` or the tables are kept apart. -/
structure Opts (V : Type) where
  Au : Option V
  lbu : Option V
  ubu : Option V
  ppopt : Option V
  N : Option V
  fparm : Option V
  H : Option V
  Cw : Option V
  z0 : Option V
  zl : Option V
  zu : Option V
  userfcn : Option V

/-- What `opf_args` returns (opf_args.py:327-328). -/
structure Parsed (V : Type) extends Opts V where
  baseMVA : Option V
  bus : Option V
  gen : Option V
  branch : Option V
  areas : Option V
  gencost : Option V

section
variable {V : Type} (e : Env V)

/-- `v is None or len(v) == 0` (opf_args.py:210-218, 324). -/
def blank : Option V → Bool
  | none => true
  | some v => e.len v == 0

/-- The arguments after the case, by number (opf_args.py:101-193).  Other numbers: a message is written and the unbound `casefile` raises (194-197). -/
def caseForm : List (Option V) → Option (Opts V)
  | [Au, lbu, ubu, ppopt, N, fparm, H, Cw, z0, zl, zu] => some ⟨Au, lbu, ubu, ppopt, N, fparm, H, Cw, z0, zl, zu, some e.empty⟩
  | [Au, lbu, ubu, ppopt, N, fparm, H, Cw] => some ⟨Au, lbu, ubu, ppopt, N, fparm, H, Cw, some e.empty, some e.empty, some e.empty, some e.empty⟩
  | [Au, lbu, ubu, ppopt] => some ⟨Au, lbu, ubu, ppopt, none, some e.empty, none, some e.empty, some e.empty, some e.empty, some e.empty, some e.empty⟩
  | [Au, lbu, ubu] => some ⟨Au, lbu, ubu, some e.ppoption, none, some e.empty, none, some e.empty, some e.empty, some e.empty, some e.empty, some e.empty⟩
  | [userfcn, ppopt] =>
    some ⟨none, some e.empty, some e.empty, ppopt, none, some e.empty, none, some e.empty, some e.empty, some e.empty, some e.empty, userfcn⟩
  | [ppopt] => some ⟨none, some e.empty, some e.empty, ppopt, none, some e.empty, none, some e.empty, some e.empty, some e.empty, some e.empty, some e.empty⟩
  | [] => some ⟨none, some e.empty, some e.empty, some e.ppoption, none, some e.empty, none, some e.empty, some e.empty, some e.empty, some e.empty, some e.empty⟩
  | _ => none

/-- The arguments after the tables, by number (opf_args.py:229-292).  Other numbers: a message is written and the unbound `N` raises (293-296). -/
def tableForm : List (Option V) → Option (Opts V)
  | [Au, lbu, ubu, ppopt, N, fparm, H, Cw, z0, zl, zu] => some ⟨Au, lbu, ubu, ppopt, N, fparm, H, Cw, z0, zl, zu, some e.empty⟩
  | [Au, lbu, ubu, ppopt, N, fparm, H, Cw] => some ⟨Au, lbu, ubu, ppopt, N, fparm, H, Cw, some e.empty, some e.empty, some e.empty, some e.empty⟩
  | [Au, lbu, ubu, ppopt] => some ⟨Au, lbu, ubu, ppopt, none, some e.empty, none, some e.empty, some e.empty, some e.empty, some e.empty, some e.empty⟩
  | [Au, lbu, ubu] => some ⟨Au, lbu, ubu, some e.ppoption, none, some e.empty, none, some e.empty, some e.empty, some e.empty, some e.empty, some e.empty⟩
  | [userfcn, ppopt] =>
    some ⟨none, some e.empty, some e.empty, ppopt, none, some e.empty, none, some e.empty, some e.empty, some e.empty, some e.empty, userfcn⟩
  | [ppopt] => some ⟨none, some e.empty, some e.empty, ppopt, none, some e.empty, none, some e.empty, some e.empty, some e.empty, some e.empty, some e.empty⟩
  | [] => some ⟨none, some e.empty, some e.empty, some e.ppoption, none, some e.empty, none, some e.empty, some e.empty, some e.empty, some e.empty, some e.empty⟩
  | _ => none

/-- Constraints of the case unless given (opf_args.py:204-205). -/
def caseCons (d : Dict V) (o : Opts V) : Option (Option V × Option V × Option V) :=
  if o.Au.isNone ∧ (d "A").isSome then do
    let A ← d "A"
    let l ← d "l"
    let u ← d "u"
    pure (A, l, u)
  else pure (o.Au, o.lbu, o.ubu)

/-- Generalized cost of the case unless given (opf_args.py:206-207). -/
def caseCost (d : Dict V) (o : Opts V) : Option (Option V × Option V) :=
  if o.N.isNone ∧ (d "N").isSome then do
    let N ← d "N"
    let Cw ← d "Cw"
    pure (N, Cw)
  else pure (o.N, o.Cw)

/-- What the case provides if the arguments do not (opf_args.py:197-219); a missing table or partner key raises. -/
def fromCase (d : Dict V) (o : Opts V) : Option (Parsed V) := do
  let baseMVA ← d "baseMVA"
  let bus ← d "bus"
  let gen ← d "gen"
  let branch ← d "branch"
  let gencost ← d "gencost"
  let areas := (d "areas").getD (some e.empty)
  let cons ← caseCons d o
  let cost ← caseCost d o
  let H := if o.H.isNone then (d "H").getD o.H else o.H
  let fparm := if blank e o.fparm then (d "fparm").getD o.fparm else o.fparm
  let z0 := if blank e o.z0 then (d "z0").getD o.z0 else o.z0
  let zl := if blank e o.zl then (d "zl").getD o.zl else o.zl
  let zu := if blank e o.zu then (d "zu").getD o.zu else o.zu
  let userfcn := if blank e o.userfcn then (d "userfcn").getD o.userfcn else o.userfcn
  pure ⟨⟨cons.1, cons.2.1, cons.2.2, o.ppopt, cost.1, fparm, H, cost.2, z0, zl, zu, userfcn⟩, baseMVA, bus, gen, branch, areas, gencost⟩

/-- Number of rows of `N` (opf_args.py:296-299). -/
def nwOf (p : Parsed V) : ℕ :=
  match p.N with
  | none => 0
  | some N => e.rows N

/-- The checks at the end (opf_args.py:296-325): they write messages, except that a generalized cost without `Cw` or `fparm` raises; default options. -/
def finish (p : Parsed V) : Option (Parsed V) :=
  if nwOf e p ≠ 0 ∧ (p.Cw.isNone ∨ p.fparm.isNone) then none
  else some { p with ppopt := if blank e p.ppopt then some e.ppoption else p.ppopt }

/-- `opf_args` (opf_args.py:25-328). -/
def opfArgs : First V → List (Option V) → Option (Parsed V)
  | .file s, rest => do
    let o ← caseForm e rest
    let d ← e.file s
    let d' ← e.load d
    let p ← fromCase e d' o
    finish e p
  | .dict d, rest => do
    let o ← caseForm e rest
    let d' ← e.load d
    let p ← fromCase e d' o
    finish e p
  | .val baseMVA, bus :: gen :: branch :: areas :: gencost :: rest => do
    let o ← tableForm e rest
    finish e ⟨o, baseMVA, bus, gen, branch, areas, gencost⟩
  | .val _, _ => none

/-- `if v is not None and len(v) > 0: ppc[k] = v` (opf_args.py:345-362). -/
def put (d : Dict V) (k : String) (v : Option V) : Dict V := if blank e v then d else set d k v

/-- The dictionary to begin with: the caller's own, if one was passed (opf_args.py:337). -/
def startDict : First V → Dict V
  | .dict d => d
  | _ => fun _ => none

/-- The tables are put into the dictionary (opf_args.py:339-343). -/
def putTables (p : Parsed V) (d : Dict V) : Dict V :=
  set (set (set (set (set d "baseMVA" p.baseMVA) "bus" p.bus) "gen" p.gen) "branch" p.branch) "gencost" p.gencost

/-- The constraints are put into the dictionary (opf_args.py:347-348). -/
def putCons (p : Parsed V) (d : Dict V) : Dict V := if blank e p.lbu then d else set (set (set d "A" p.Au) "l" p.lbu) "u" p.ubu

/-- The generalized cost is put into the dictionary (opf_args.py:349-354). -/
def putCost (p : Parsed V) (d : Dict V) : Option (Dict V) :=
  if blank e p.Cw then some d
  else if p.fparm.isNone then none
  else some (set (put e (set (set d "N" p.N) "Cw" p.Cw) "fparm" p.fparm) "H" p.H)

/-- `opf_args2` (opf_args.py:331-364): the dictionary `opf` works on -- the caller's own if one was passed -- and the options. -/
def opfArgs2 (first : First V) (rest : List (Option V)) : Option (Dict V × Option V) := do
  let p ← opfArgs e first rest
  let d ← putCost e p (putCons e p (put e (putTables p (startDict first)) "areas" p.areas))
  pure (put e (put e (put e (put e d "z0" p.z0) "zl" p.zl) "zu" p.zu) "userfcn" p.userfcn, p.ppopt)

end

end Verif.Opf.Args
