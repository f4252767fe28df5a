import Verif.Dispatch
import Verif.Opf.DcModel

/-!
# The quadratic programme solver: `qps_pypower` and `qps_pips`

`pips` itself is `Verif/Pips`.  Here are the forms in which a problem can be given (single arguments, a dictionary with any of the keys missing or `None`), the default
values, the options and what is written into the caller's dictionary.  `H` and `A` are sparse matrices as documented; arrays have the length that fits or length zero.
Left out: what is printed, `output`, the solvers other than PIPS.
-/

open Matrix

namespace Verif.Qps

open Verif.Pips Verif.Opf

/-- An entry of a dictionary: no such key, the value `None`, a value. -/
inductive Key (α : Type) where
  | missing
  | none
  | val (a : α)

/-- The value, if there is one. -/
def Key.get? {α : Type} : Key α → Option α
  | .missing => Option.none
  | .none => Option.none
  | .val a => some a

/-- `key in p` -/
def Key.present {α : Type} : Key α → Bool
  | .missing => false
  | .none => true
  | .val _ => true

/-- `'H': H`: the key is there, whatever the argument. -/
def Key.ofArg {α : Type} : Option α → Key α
  | Option.none => .none
  | some a => .val a

/-- `if xmin is not None: p['xmin'] = xmin` -/
def Key.given {α : Type} : Option α → Key α
  | Option.none => .missing
  | some a => .val a

/-- An array of bounds; `none` is an array of length zero. -/
abbrev Arr (k : ℕ) := Option (Fin k → EReal)

/-- A sparse matrix: the number of stored entries and the values. -/
structure Sparse (m n : ℕ) where
  nnz : ℕ
  mat : Matrix (Fin m) (Fin n) ℝ

/-- The dictionary of options of `pips`; keys may be missing. -/
structure PipsOpt where
  feastol : Option ℝ
  gradtol : Option ℝ
  comptol : Option ℝ
  costtol : Option ℝ
  maxIt : Option ℕ
  maxRed : Option ℕ
  stepControl : Option Bool
  costMult : Option ℝ

/-- `{}` -/
def PipsOpt.empty : PipsOpt := ⟨none, none, none, none, none, none, none, none⟩

/-- A problem as a dictionary; `ω` is the type of the options. -/
structure Prob (ω : Type) (m n : ℕ) where
  H : Key (Matrix (Fin n) (Fin n) ℝ)
  c : Key (Fin n → ℝ)
  A : Key (Sparse m n)
  l : Key (Arr m)
  u : Key (Arr m)
  xmin : Key (Arr n)
  xmax : Key (Arr n)
  x0 : Key (Fin n → ℝ)
  opt : Key ω

/-- A problem as single arguments; `none` is `None`. -/
structure Args (ω : Type) (m n : ℕ) where
  H : Option (Matrix (Fin n) (Fin n) ℝ)
  c : Option (Fin n → ℝ)
  A : Option (Sparse m n)
  l : Option (Arr m)
  u : Option (Arr m)
  xmin : Option (Arr n)
  xmax : Option (Arr n)
  x0 : Option (Fin n → ℝ)
  opt : Option ω

noncomputable section

/-- The options `pips` works with (pips.py:200-219). -/
def PipsOpt.full (o : PipsOpt) : Opt where
  feastol := o.feastol.getD (1 / 10 ^ 6)
  gradtol := o.gradtol.getD (1 / 10 ^ 6)
  comptol := o.comptol.getD (1 / 10 ^ 6)
  costtol := o.costtol.getD (1 / 10 ^ 6)
  maxIt := o.maxIt.getD 150
  maxRed := o.maxRed.getD 20
  stepControl := o.stepControl.getD false
  costMult := o.costMult.getD 1

/-- `pips` writes the options it works with into the dictionary it was given (pips.py:200-219). -/
def PipsOpt.filled (o : PipsOpt) : PipsOpt where
  feastol := some o.full.feastol
  gradtol := some o.full.gradtol
  comptol := some o.full.comptol
  costtol := some o.full.costtol
  maxIt := some o.full.maxIt
  maxRed := some o.full.maxRed
  stepControl := some o.full.stepControl
  costMult := some o.full.costMult

variable {m n : ℕ}

/-- Bounds with their default value for missing keys, `None` and arrays of length zero (pips.py:189-192, qps_pips.py:154-155). -/
def fill {k : ℕ} (d : EReal) (b : Key (Arr k)) (i : ℕ) : EReal :=
  match b with
  | .val (some v) => if h : i < k then v ⟨i, h⟩ else d
  | _ => d

/-- The linear constraints and bounds as `pips` sees them (pips.py:185-192). -/
def Prob.linear {ω : Type} (p : Prob ω m n) : Linear where
  nA := match p.A with | .val _ => m | _ => 0
  A := fun k j => match p.A with | .val a => if h : k < m ∧ j < n then a.mat ⟨k, h.1⟩ ⟨j, h.2⟩ else 0 | _ => 0
  l := fill ⊥ p.l
  u := fill ⊤ p.u
  xmin := fill ⊥ p.xmin
  xmax := fill ⊤ p.xmax

/-- An array with entries. -/
def Key.full {k : ℕ} : Key (Arr k) → Bool
  | .val (some _) => decide (0 < k)
  | _ => false

inductive Out (n : ℕ) where
  | raised
  | refused
  | result (r : Result n (Fin 0) (Fin 0))

/-- `qps_pips` from the default values on (qps_pips.py:154-175), for the matrix `H`; `p['c']` raises if the key is missing, `x0.shape` if the value is `None`; bounds
of rows without a matrix do not fit. -/
def solveQp (solve : AnySolver) (H : Matrix (Fin n) (Fin n) ℝ) (p : Prob PipsOpt m n) : Out n :=
  match p.c, p.x0 with
  | .missing, _ => .raised
  | _, .none => .raised
  | _, _ =>
    if p.A.get?.isNone ∧ (p.l.full ∨ p.u.full) then .raised
    else
      match pipsFull (qp H (p.c.get?.getD 0)) p.linear (p.opt.get?.getD .empty).full (solve _ _) (p.x0.get?.getD 0) with
      | none => .raised
      | some r => .result r

/-- `qps_pips(p)` with a dictionary (qps_pips.py:114-175).  `p['A'] is None or p['A'].nnz == 0 and …`: without `H` and without `A` the problem is refused (a message
is printed and `None` returned), with or without bounds. -/
def qpsPips (solve : AnySolver) (p : Prob PipsOpt m n) : Out n :=
  match p.H.get? with
  | some H => solveQp solve H p
  | none =>
    match p.A with
    | .missing => .raised
    | .none => .refused
    | .val a => if a.nnz = 0 ∧ p.xmin.present = false ∧ p.xmax.present = false then .refused else solveQp solve 0 p

/-- Bounds written into the dictionary if the key is missing (qps_pips.py:154-155). -/
def Key.orBounds {k : ℕ} (d : EReal) : Key (Arr k) → Key (Arr k)
  | .missing => .val (some fun _ => d)
  | b => b

/-- What the caller's dictionary holds after a run that returned a result (qps_pips.py:148-159, pips.py:200-219). -/
def Prob.after (p : Prob PipsOpt m n) : Prob PipsOpt m n :=
  { p with
    H := .val (p.H.get?.getD 0)
    xmin := p.xmin.orBounds ⊥
    xmax := p.xmax.orBounds ⊤
    c := .val (p.c.get?.getD 0)
    x0 := .val (p.x0.get?.getD 0)
    opt := match p.opt with | .val o => .val o.filled | b => b }

/-- The dictionary made of single arguments (qps_pips.py:117-122). -/
def Args.prob {ω : Type} (a : Args ω m n) : Prob ω m n :=
  ⟨.ofArg a.H, .ofArg a.c, .ofArg a.A, .ofArg a.l, .ofArg a.u, .given a.xmin, .given a.xmax, .given a.x0, .given a.opt⟩

/-- The options of `qps_pypower`: the algorithm, the options for PIPS, and keys at the top level that have the names of options of `pips`, of which `max_it` is documented. -/
structure QOpt where
  alg : Option ℤ
  pipsOpt : Option PipsOpt
  top : PipsOpt

def QOpt.empty : QOpt := ⟨none, none, .empty⟩

/-- The options for `qps_pips` (qps_pypower.py:169-184); `sc` is step control. -/
def QOpt.forPips (o : QOpt) (sc : Bool) : PipsOpt :=
  { o.pipsOpt.getD .empty with
    maxIt := match o.top.maxIt with | some k => some k | none => (o.pipsOpt.getD .empty).maxIt
    stepControl := some sc }

/-- The forms of a call. -/
inductive Call (m n : ℕ) where
  | args (a : Args QOpt m n)
  | dict (p : Prob QOpt m n)

inductive PyOut (n : ℕ) where
  | raised
  | other (s : Dispatch.Solver)
  | result (r : Result n (Fin 0) (Fin 0))

/-- `x, f, eflag, output, lmbda = qps_pips(…)`: unpacking `None` raises (qps_pypower.py:187-188). -/
def unpack : Out n → PyOut n
  | .raised => .raised
  | .refused => .raised
  | .result r => .result r

/-- The options of a call (qps_pypower.py:121, 139-140). -/
def Call.opt : Call m n → QOpt
  | .args a => a.opt.getD .empty
  | .dict p => p.opt.get?.getD .empty

/-- The call of `qps_pips` (qps_pypower.py:118-138, 187-188).  If the dictionary has no key `H`, the variable `H` still is
the dictionary, which `qps_pips` then takes as the whole problem, options included. -/
def callPips (solve : AnySolver) (sc : Bool) (k : Call m n) : Out n :=
  match k with
  | .args a => qpsPips solve (Args.prob { a with opt := some (k.opt.forPips sc) })
  | .dict p =>
    match p.H with
    | .missing => qpsPips solve { p with opt := match p.opt with | .val o => .val o.top | .none => .none | .missing => .missing }
    | _ => qpsPips solve (Args.prob ⟨p.H.get?, p.c.get?, p.A.get?, p.l.get?, p.u.get?, p.xmin.get?, p.xmax.get?, p.x0.get?, some (k.opt.forPips sc)⟩)

/-- `assert c is not None` for single arguments (qps_pypower.py:132). -/
def Call.asserted : Call m n → Bool
  | .args a => a.c.isSome
  | .dict _ => true

/-- `qps_pypower` (qps_pypower.py:118-207). -/
def qpsPypower (av : Dispatch.Avail) (solve : AnySolver) (k : Call m n) : PyOut n :=
  if k.asserted = false then .raised
  else
    match Dispatch.qps av (k.opt.alg.getD 0) with
    | some (.pips sc) => unpack (callPips solve sc k)
    | some s => .other s
    | none => .raised

end

end Verif.Qps
