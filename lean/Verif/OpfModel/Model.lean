import Mathlib.Data.EReal.Basic
import Mathlib.Data.Real.Basic
import Mathlib.Algebra.BigOperators.Group.Finset.Basic

/-!
# Model of the optimisation model object (`opf_model.py`)

Python dictionaries are functions `String → Option α`; NumPy arrays being filled are functions of the index, meaningful below their length;
a raised exception is `none`.  Messages written to `stderr` are not modelled (they do not stop the call).
-/

noncomputable section

namespace Verif.OpfModel

/-- A Python dict with string keys. -/
abbrev Dict (α : Type) := String → Option α

/-- `d[k] = v`. -/
def Dict.set {α : Type} (d : Dict α) (k : String) (v : α) : Dict α := fun k' => if k' = k then some v else d k'

/-- A (sparse) matrix argument: shape and entries. -/
structure Mat where
  rows : Nat
  cols : Nat
  val : Nat → Nat → ℝ

/-- The bookkeeping part shared by `self.var`, `self.nln`, `self.lin`, `self.cost` (opf_model.py:32-103): dicts `i1`, `iN`, `N`, the total `N`, `NS` and `order`. -/
structure Idx where
  i1 : Dict Nat
  iN : Dict Nat
  N : Dict Nat
  total : Nat
  NS : Nat
  order : List String

/-- opf_model.py:32-103: initial bookkeeping. -/
def Idx.empty : Idx := ⟨fun _ => none, fun _ => none, fun _ => none, 0, 0, []⟩

/-- opf_model.py:204-214, 241-256, 347-377, 405-418: register a block of `n` elements.  A name already in use only produces a message (202, 218, 307, 392). -/
def Idx.add (s : Idx) (name : String) (n : Nat) : Idx :=
  ⟨s.i1.set name s.total, s.iN.set name (s.total + n), s.N.set name n, s.total + n, s.NS + 1, s.order ++ [name]⟩

/-- `varsets` as stored in the object: either the caller's list, or (opf_model.py:230, 313) **the list object** `self.var["order"]` itself, which later
calls of `add_vars` extend in place. -/
inductive VarSets
  | names (l : List String)
  | liveOrder

/-- Full cost parameters (opf_model.py:485-486): `nw` rows, `nx` columns of `N`. -/
structure Params where
  nw : Nat
  nx : Nat
  N : Nat → Nat → ℝ
  Cw : Nat → ℝ
  H : Nat → Nat → ℝ
  dd : Nat → ℝ
  rh : Nat → ℝ
  kk : Nat → ℝ
  mm : Nat → ℝ

/-- The object's state (opf_model.py:28-107).  `ppc` and `user_data` are not modelled. -/
structure Model where
  var : Idx
  v0 : Dict (List EReal)
  vl : Dict (List EReal)
  vu : Dict (List EReal)
  nln : Idx
  lin : Idx
  A : Dict Mat
  l : Dict (List EReal)
  u : Dict (List EReal)
  linVs : Dict VarSets
  cost : Idx
  cN : Dict Mat
  cH : Dict Mat
  cCw : Dict (List ℝ)
  dd : Dict (List ℝ)
  rh : Dict (List ℝ)
  kk : Dict (List ℝ)
  mm : Dict (List ℝ)
  costVs : Dict VarSets
  params : Option Params

/-- `opf_model(ppc)` (opf_model.py:28-107). -/
def Model.init : Model :=
  ⟨.empty, fun _ => none, fun _ => none, fun _ => none, .empty, .empty, fun _ => none, fun _ => none, fun _ => none, fun _ => none,
   .empty, fun _ => none, fun _ => none, fun _ => none, fun _ => none, fun _ => none, fun _ => none, fun _ => none, fun _ => none, none⟩

/-- `None` or an empty vector becomes `n` copies of the default (opf_model.py:395-402, 224-228). -/
def orDefault (n : Nat) (d : EReal) : Option (List EReal) → List EReal
  | none => List.replicate n d
  | some [] => List.replicate n d
  | some (a :: as) => a :: as

/-- `add_vars(name, N, v0, vl, vu)` (opf_model.py:380-418). -/
def Model.addVars (m : Model) (name : String) (n : Nat) (v0 vl vu : Option (List EReal)) : Model :=
  { m with var := m.var.add name n, v0 := m.v0.set name (orDefault n 0 v0), vl := m.vl.set name (orDefault n ⊥ vl),
           vu := m.vu.set name (orDefault n ⊤ vu) }

/-- `add_constraints(name, N, l)` with `u` omitted: nonlinear block (opf_model.py:197-214). -/
def Model.addNln (m : Model) (name : String) (n : Nat) : Model := { m with nln := m.nln.add name n }

/-- The variable sets as stored (opf_model.py:220-221, 230-231, 310-314). -/
def storeVs (vs : List String) : VarSets := if vs = [] then .liveOrder else .names vs

/-- The variable sets as read later: the stored list object's current content. -/
def Model.resolve (m : Model) : VarSets → List String
  | .names l => l
  | .liveOrder => m.var.order

/-- opf_model.py:237-239, 318-320: total width of the named sets; `KeyError` for an unknown one. -/
def Model.width (m : Model) : List String → Option Nat
  | [] => some 0
  | v :: vs => do
    let n ← m.var.N v
    let r ← m.width vs
    some (n + r)

/-- `add_constraints(name, A, l, u, varsets)` with `u` given: linear block (opf_model.py:216-256).  Size mismatches only produce messages (234, 241). -/
def Model.addLin (m : Model) (name : String) (A : Mat) (l u : List EReal) (vs : List String) : Option Model := do
  let _ ← m.width (m.resolve (storeVs vs))
  some { m with lin := m.lin.add name A.rows, A := m.A.set name A, l := m.l.set name (orDefault A.rows ⊥ (some l)),
                u := m.u.set name (orDefault A.rows ⊤ (some u)), linVs := m.linVs.set name (storeVs vs) }

/-- The `cp` argument of `add_costs`; absent keys are `none`. -/
structure CP where
  N : Mat
  Cw : List ℝ
  H : Option Mat
  dd : Option (List ℝ)
  rh : Option (List ℝ)
  kk : Option (List ℝ)
  mm : Option (List ℝ)

/-- opf_model.py:331-349: an optional vector whose length differs from `nw` makes the error message itself raise (`'%d'` applied to a tuple). -/
def badLen (nw : Nat) : Option (List ℝ) → Bool
  | none => false
  | some v => v.length != nw

/-- opf_model.py:334-336: same for `H`. -/
def badH (nw : Nat) : Option Mat → Bool
  | none => false
  | some h => h.rows != nw || h.cols != nw

/-- Write under the key `k` if a value is given. -/
def Dict.setOpt {α : Type} (d : Dict α) (k : String) : Option α → Dict α
  | none => d
  | some v => d.set k v

/-- `add_costs(name, cp, varsets)` (opf_model.py:259-377).  Raises for an unknown variable set, for a zero-row `N` with the wrong number of columns
(`sparse(nw, nx)`, 324), and for wrong lengths (the messages at 329-349 have too few arguments); a wrong number of columns with `nw > 0` only prints.
Lines 360-370 store `dd`, `rh`, `kk`, `mm` under the literal key `"name"`. -/
def Model.addCosts (m : Model) (name : String) (cp : CP) (vs : List String) : Option Model := do
  let nv ← m.width (m.resolve (storeVs vs))
  let nw := cp.N.rows
  if cp.N.cols ≠ nv ∧ nw = 0 then none
  else if cp.Cw.length ≠ nw then none
  else if badH nw cp.H || badLen nw cp.dd || badLen nw cp.rh || badLen nw cp.kk || badLen nw cp.mm then none
  else some { m with
    cost := m.cost.add name nw, cN := m.cN.set name cp.N, cCw := m.cCw.set name cp.Cw, costVs := m.costVs.set name (storeVs vs),
    cH := m.cH.setOpt name cp.H, dd := m.dd.setOpt "name" cp.dd, rh := m.rh.setOpt "name" cp.rh, kk := m.kk.setOpt "name" cp.kk,
    mm := m.mm.setOpt "name" cp.mm }

/-- `getN(selector, name)` (opf_model.py:652-675) on the selected part. -/
def Idx.getN (s : Idx) : Option String → Nat
  | none => s.total
  | some name => (s.N name).getD 0

/-- The names visited by the loops `for k in range(NS): name = order[k]`. -/
def Idx.names (s : Idx) : List String := s.order.take s.NS

/-- opf_model.py:690-694: concatenation of one field over the variable blocks; `KeyError` if a name is missing. -/
def catBlocks (d : Dict (List EReal)) : List String → Option (List EReal)
  | [] => some []
  | v :: vs => do
    let a ← d v
    let r ← catBlocks d vs
    some (a ++ r)

/-- `getv(name)` (opf_model.py:678-705). -/
def Model.getv (m : Model) : Option String → Option (List EReal × List EReal × List EReal)
  | none => do
    let a ← catBlocks m.v0 m.var.names
    let b ← catBlocks m.vl m.var.names
    let c ← catBlocks m.vu m.var.names
    some (a, b, c)
  | some name =>
    if (m.var.N name).isSome then do
      let a ← m.v0 name
      let b ← m.vl name
      let c ← m.vu name
      some (a, b, c)
    else some ([], [], [])

/-- `f[i1:iN] = v` for 1-d arrays, with NumPy's broadcasting of a single element; `none` for a `ValueError`. -/
def setSlice {α : Type} (f : Nat → α) (i1 iN : Nat) (v : List α) : Option (Nat → α) :=
  if v.length = iN - i1 then some (fun i => if i1 ≤ i ∧ i < iN then (v[i - i1]?).getD (f i) else f i)
  else if v.length = 1 then some (fun i => if i1 ≤ i ∧ i < iN then (v[0]?).getD (f i) else f i)
  else none

/-- `F[r0:rN, j1:jN] = Ak[:, k1:kN].todense()` with slice clipping and broadcasting of a single column; `none` for a `ValueError`.
(`Ak` has `rN - r0` rows at all call sites.) -/
def setBlock (F : Nat → Nat → ℝ) (r0 rN j1 jN : Nat) (Ak : Mat) (k1 kN : Nat) : Option (Nat → Nat → ℝ) :=
  let c := min kN Ak.cols - min k1 Ak.cols
  if c = jN - j1 then
    some (fun i j => if (r0 ≤ i ∧ i < rN) ∧ (j1 ≤ j ∧ j < jN) then Ak.val (i - r0) (k1 + (j - j1)) else F i j)
  else if c = 1 then
    some (fun i j => if (r0 ≤ i ∧ i < rN) ∧ (j1 ≤ j ∧ j < jN) then Ak.val (i - r0) k1 else F i j)
  else none

/-- opf_model.py:743-750 and 461-467: the loop over the variable sets of a block; `kN` is the running column. -/
def fillCols (var : Idx) (Ak : Mat) (r0 rN : Nat) : List String → Nat → (Nat → Nat → ℝ) → Option (Nat → Nat → ℝ)
  | [], _, F => some F
  | v :: vs, kN, F => do
    let j1 ← var.i1 v
    let jN ← var.iN v
    let n ← var.N v
    let F' ← setBlock F r0 rN j1 jN Ak kN (kN + n)
    fillCols var Ak r0 rN vs (kN + n) F'

/-- Partially assembled linear constraints. -/
structure LinAcc where
  A : Nat → Nat → ℝ
  l : Nat → EReal
  u : Nat → EReal

/-- opf_model.py:733-755: one pass of the loop of `linear_constraints`. -/
def Model.linStep (m : Model) (acc : LinAcc) (name : String) : Option LinAcc := do
  let n ← m.lin.N name
  if n = 0 then some acc else do
    let Ak ← m.A name
    let i1 ← m.lin.i1 name
    let iN ← m.lin.iN name
    let vs ← m.linVs name
    let Ai ← fillCols m.var Ak 0 n (m.resolve vs) 0 (fun _ _ => 0)
    let lk ← m.l name
    let uk ← m.u name
    let l' ← setSlice acc.l i1 iN lk
    let u' ← setSlice acc.u i1 iN uk
    some ⟨fun i j => if i1 ≤ i ∧ i < iN then Ai (i - i1) j else acc.A i j, l', u'⟩

/-- `linear_constraints()` (opf_model.py:708-757).  `some none` is the result for a model without linear constraint rows (`A = None`). -/
def Model.linearConstraints (m : Model) : Option (Option LinAcc) :=
  if m.lin.total = 0 then some none
  else (m.lin.names.foldlM m.linStep ⟨fun _ _ => 0, fun _ => ⊥, fun _ => ⊤⟩).map some

/-- Optional slice assignment (opf_model.py:469-482): skipped when the key is absent. -/
def optSlice (f : Nat → ℝ) (i1 iN : Nat) : Option (List ℝ) → Option (Nat → ℝ)
  | none => some f
  | some v => setSlice f i1 iN v

/-- `H[i1:iN, i1:iN] = Hk.todense()` (opf_model.py:470-471); skipped when the key is absent. (Shapes were checked when the block was added.) -/
def optH (F : Nat → Nat → ℝ) (i1 iN : Nat) : Option Mat → Nat → Nat → ℝ
  | none => F
  | some h => fun i j => if (i1 ≤ i ∧ i < iN) ∧ (i1 ≤ j ∧ j < iN) then h.val (i - i1) (j - i1) else F i j

/-- opf_model.py:452-482: one pass of the loop of `build_cost_params`. -/
def Model.costStep (m : Model) (P : Params) (name : String) : Option Params := do
  let Nk ← m.cN name
  let i1 ← m.cost.i1 name
  let iN ← m.cost.iN name
  let n ← m.cost.N name
  if n = 0 then some P else do
    let vs ← m.costVs name
    let N' ← fillCols m.var Nk i1 iN (m.resolve vs) 0 P.N
    let Cwk ← m.cCw name
    let Cw' ← setSlice P.Cw i1 iN Cwk
    let dd' ← optSlice P.dd i1 iN (m.dd name)
    let rh' ← optSlice P.rh i1 iN (m.rh name)
    let kk' ← optSlice P.kk i1 iN (m.kk name)
    let mm' ← optSlice P.mm i1 iN (m.mm name)
    some ⟨P.nw, P.nx, N', Cw', optH P.H i1 iN (m.cH name), dd', rh', kk', mm'⟩

/-- opf_model.py:440-450: initial full parameters. -/
def Model.params0 (m : Model) : Params :=
  ⟨m.cost.total, m.var.total, fun _ _ => 0, fun _ => 0, fun _ _ => 0, fun _ => 1, fun _ => 0, fun _ => 0, fun _ => 1⟩

/-- `build_cost_params()` (opf_model.py:421-489). -/
def Model.buildCostParams (m : Model) : Option Model := do
  let P ← m.cost.names.foldlM m.costStep m.params0
  some { m with params := some P }

/-- Rows `i1..iN-1` of the parameters (opf_model.py:593-599). -/
def Params.slice (P : Params) (i1 iN : Nat) : Params :=
  ⟨iN - i1, P.nx, fun i j => P.N (i1 + i) j, fun i => P.Cw (i1 + i), fun i j => P.H (i1 + i) (i1 + j), fun i => P.dd (i1 + i),
   fun i => P.rh (i1 + i), fun i => P.kk (i1 + i), fun i => P.mm (i1 + i)⟩

/-- `get_cost_params(name)` (opf_model.py:567-602).  `cp` **is** the stored dict, so cutting out the rows of a block overwrites the stored parameters:
the new object state is returned too.  `none`: no parameters built (`KeyError`) or rows out of range (`IndexError`). -/
def Model.getCostParams (m : Model) (name : Option String) : Option (Params × Model) := do
  let cp ← m.params
  if m.cost.getN name = 0 then some (cp, m) else
    match name with
    | none => some (cp, m)
    | some nm => do
      let i1 ← m.cost.i1 nm
      let iN ← m.cost.iN nm
      if iN ≤ cp.nw then some (cp.slice i1 iN, { m with params := some (cp.slice i1 iN) }) else none

/-- opf_model.py:541: `r = N x - rh`. -/
def Params.r (P : Params) (x : Nat → ℝ) (i : Nat) : ℝ := (∑ j ∈ Finset.range P.nx, P.N i j * x j) - P.rh i

/-- opf_model.py:550-553: `rr = r + kbar`; the sparse constructor adds up entries of rows that are both below and above (possible for negative `kk`). -/
def Params.rr (P : Params) (x : Nat → ℝ) (i : Nat) : ℝ :=
  P.r x i + ((if P.r x i < -P.kk i then 1 else 0) + (if P.r x i = 0 ∧ P.kk i = 0 then 0 else 0) + (if P.r x i > P.kk i then -1 else 0)) * P.kk i

/-- opf_model.py:554: diagonal of `M`. -/
def Params.M (P : Params) (x : Nat → ℝ) (i : Nat) : ℝ :=
  (if P.r x i < -P.kk i then P.mm i else 0) + (if P.r x i = 0 ∧ P.kk i = 0 then P.mm i else 0) + (if P.r x i > P.kk i then P.mm i else 0)

/-- opf_model.py:555-558: `w = M (LL + QQ diagrr) rr`. -/
def Params.w (P : Params) (x : Nat → ℝ) (i : Nat) : ℝ :=
  P.M x i * (((if P.dd i = 1 then 1 else 0) + (if P.dd i = 2 then 1 else 0) * P.rr x i) * P.rr x i)

/-- opf_model.py:560: `f = dot(w * H, w) / 2 + dot(Cw, w)`. -/
def Params.f (P : Params) (x : Nat → ℝ) : ℝ :=
  (∑ b ∈ Finset.range P.nw, (∑ a ∈ Finset.range P.nw, P.w x a * P.H a b) * P.w x b) / 2 + ∑ i ∈ Finset.range P.nw, P.Cw i * P.w x i

/-- `compute_cost(x, name)` (opf_model.py:492-564): the value and the new object state (`get_cost_params` may change it).
Simplification: with no cost rows (`nw = 0`) the code works with a dense 0-row array; that case is reported as `none` here.
`x` is the vector of `nx` values. -/
def Model.computeCost (m : Model) (x : Nat → ℝ) (name : Option String) : Option (ℝ × Model) := do
  let r ← m.getCostParams name
  if r.1.nw = 0 then none else some (r.1.f x, r.2)

/-- The calls that build up a model. -/
inductive Op
  | addVars (name : String) (n : Nat) (v0 vl vu : Option (List EReal))
  | addNln (name : String) (n : Nat)
  | addLin (name : String) (A : Mat) (l u : List EReal) (vs : List String)
  | addCosts (name : String) (cp : CP) (vs : List String)

/-- One call. -/
def step (m : Model) : Op → Option Model
  | .addVars name n v0 vl vu => some (m.addVars name n v0 vl vu)
  | .addNln name n => some (m.addNln name n)
  | .addLin name A l u vs => m.addLin name A l u vs
  | .addCosts name cp vs => m.addCosts name cp vs

/-- A history of calls on a new object; `none` if one of them raises. -/
def run (h : List Op) : Option Model := h.foldlM step Model.init

end Verif.OpfModel

end
