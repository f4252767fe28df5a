import Verif.OpfModel.Model

/-!
# Specification of a history of calls

What a history of calls says, read off the calls themselves: the named blocks of each kind in the order they were added, and where a block sits if the
blocks are laid out one after the other.
-/

namespace Verif.OpfModel

/-- Variable blocks added by a history: name and size. -/
def varBlocks : List Op → List (String × Nat) := List.filterMap fun
  | .addVars name n _ _ _ => some (name, n)
  | _ => none

/-- Nonlinear constraint blocks. -/
def nlnBlocks : List Op → List (String × Nat) := List.filterMap fun
  | .addNln name n => some (name, n)
  | _ => none

/-- A linear constraint block as given by the caller. -/
structure LinBlk where
  A : Mat
  l : List EReal
  u : List EReal
  vs : List String

def linBlks : List Op → List (String × LinBlk) := List.filterMap fun
  | .addLin name A l u vs => some (name, ⟨A, l, u, vs⟩)
  | _ => none

/-- A cost block as given by the caller. -/
structure CostBlk where
  cp : CP
  vs : List String

def costBlks : List Op → List (String × CostBlk) := List.filterMap fun
  | .addCosts name cp vs => some (name, ⟨cp, vs⟩)
  | _ => none

/-- Values and bounds of a variable block as given by the caller. -/
structure VarVals where
  n : Nat
  v0 : Option (List EReal)
  vl : Option (List EReal)
  vu : Option (List EReal)

def varVals : List Op → List (String × VarVals) := List.filterMap fun
  | .addVars name n v0 vl vu => some (name, ⟨n, v0, vl, vu⟩)
  | _ => none

/-- Rows of each linear block. -/
def linBlocks (h : List Op) : List (String × Nat) := (linBlks h).map fun b => (b.1, b.2.A.rows)

/-- Rows of each cost block. -/
def costBlocks (h : List Op) : List (String × Nat) := (costBlks h).map fun b => (b.1, b.2.cp.N.rows)

/-- Total size of a list of blocks. -/
def total (bs : List (String × Nat)) : Nat := (bs.map Prod.snd).sum

/-- Names in order. -/
def names {α : Type} (bs : List (String × α)) : List String := bs.map Prod.fst

/-- First position of the block called `v` when the blocks are laid out one after the other. -/
def start (bs : List (String × Nat)) (v : String) : Nat := total (bs.takeWhile fun b => b.1 ≠ v)

/-- Size of the block called `v` (0 if there is none). -/
def size (bs : List (String × Nat)) (v : String) : Nat := ((bs.find? fun b => b.1 = v).map Prod.snd).getD 0

/-- The entries of `x` belonging to the block called `v`. -/
def part (bs : List (String × Nat)) (x : Nat → ℝ) (v : String) : List ℝ := (List.range (size bs v)).map fun j => x (start bs v + j)

/-- The vector made up of the named blocks of `x`, in the given order. -/
def subvec (bs : List (String × Nat)) (x : Nat → ℝ) (vs : List String) : List ℝ := vs.flatMap (part bs x)

/-- Row `i` of a matrix times a vector. -/
noncomputable def rowDot (A : Mat) (i : Nat) (y : List ℝ) : ℝ := ∑ k ∈ Finset.range A.cols, A.val i k * y.getD k 0

/-- Total width of a list of variable blocks. -/
def widthOf (bs : List (String × Nat)) (vs : List String) : Nat := (vs.map (size bs)).sum

/-- The variable sets a block refers to when the model is assembled: those it names, or, if it names none, all variable blocks of the model. -/
def eff (bs : List (String × Nat)) (vs : List String) : List String := if vs = [] then names bs else vs

/-- A linear block that fits the model: its matrix has one column per entry of the variable blocks it refers to, and bounds are omitted or of the right length. -/
structure LinFits (bs : List (String × Nat)) (b : LinBlk) : Prop where
  nodup : b.vs.Nodup
  cols : b.A.cols = widthOf bs (eff bs b.vs)
  l : b.l = [] ∨ b.l.length = b.A.rows
  u : b.u = [] ∨ b.u.length = b.A.rows

/-- Row `r` of the assembled constraints is row `i` of block `b`. -/
structure RowOK (bs : List (String × Nat)) (acc : LinAcc) (r : Nat) (b : LinBlk) (i : Nat) : Prop where
  A : ∀ x : Nat → ℝ, ∑ j ∈ Finset.range (total bs), acc.A r j * x j = rowDot b.A i (subvec bs x (eff bs b.vs))
  l : acc.l r = if b.l = [] then ⊥ else b.l.getD i ⊥
  u : acc.u r = if b.u = [] then ⊤ else b.u.getD i ⊤

/-- A cost block that fits the model: one column of `N` per entry of the variable blocks it refers to. -/
structure CostFits (bs : List (String × Nat)) (b : CostBlk) : Prop where
  nodup : b.vs.Nodup
  cols : b.cp.N.cols = widthOf bs (eff bs b.vs)

/-- Row `i` of cost block `b` (placed from row `s` on) is in the assembled parameters: `N`, `Cw`, and the block's square of `H`. -/
structure CostRowOK (bs : List (String × Nat)) (P : Params) (s : Nat) (b : CostBlk) (i : Nat) : Prop where
  N : ∀ x : Nat → ℝ, ∑ j ∈ Finset.range (total bs), P.N (s + i) j * x j = rowDot b.cp.N i (subvec bs x (eff bs b.vs))
  Cw : b.cp.Cw[i]? = some (P.Cw (s + i))
  H : ∀ k, k < b.cp.N.rows → P.H (s + i) (s + k) = (b.cp.H.map fun H => H.val i k).getD 0

/-- The bookkeeping `s` lays the blocks `bs` out one after the other: block number `k` starts after the blocks before it. -/
structure Tiles (s : Idx) (bs : List (String × Nat)) : Prop where
  count : s.getN none = total bs
  order : s.order = names bs
  block : ∀ (pre post : List (String × Nat)) (name : String) (n : Nat), bs = pre ++ (name, n) :: post →
    s.i1 name = some (total pre) ∧ s.iN name = some (total pre + n) ∧ s.N name = some n ∧ s.getN (some name) = n
  none : ∀ name, name ∉ names bs → s.getN (some name) = 0

/-! ### Documented user cost (docstring of `compute_cost`, opf_model.py:511-538) -/

/-- `R = N x - rh`. -/
noncomputable def docR (P : Params) (x : Nat → ℝ) (i : Nat) : ℝ := (∑ j ∈ Finset.range P.nx, P.N i j * x j) - P.rh i

open Classical in
/-- `K(i)`: dead-zone shift. -/
noncomputable def docK (P : Params) (x : Nat → ℝ) (i : Nat) : ℝ :=
  if docR P x i < -P.kk i then P.kk i else if docR P x i ≤ P.kk i then 0 else -P.kk i

/-- `RR = R + K`. -/
noncomputable def docRR (P : Params) (x : Nat → ℝ) (i : Nat) : ℝ := docR P x i + docK P x i

open Classical in
/-- `w = (Dl + Dq diag(RR)) RR`: zero in the dead zone, otherwise scaled by `mm`, linear for `dd = 1`, quadratic for `dd = 2`, zero for other `dd`. -/
noncomputable def docW (P : Params) (x : Nat → ℝ) (i : Nat) : ℝ :=
  if -P.kk i ≤ docR P x i ∧ docR P x i ≤ P.kk i then 0
  else if P.dd i = 1 then P.mm i * docRR P x i
  else if P.dd i = 2 then P.mm i * docRR P x i ^ 2
  else 0

/-- Rows `i1 … i1+n-1` of the cost parameters: the block of `n` costs that begins at row `i1`. -/
def costRows (P : Params) (i1 n : Nat) : Params where
  nw := n
  nx := P.nx
  N := fun i j => P.N (i1 + i) j
  Cw := fun i => P.Cw (i1 + i)
  H := fun i j => P.H (i1 + i) (i1 + j)
  dd := fun i => P.dd (i1 + i)
  rh := fun i => P.rh (i1 + i)
  kk := fun i => P.kk (i1 + i)
  mm := fun i => P.mm (i1 + i)

/-- `f_u = 1/2 w'Hw + Cw'w`. -/
noncomputable def docF (P : Params) (x : Nat → ℝ) : ℝ :=
  1 / 2 * (∑ a ∈ Finset.range P.nw, ∑ b ∈ Finset.range P.nw, docW P x a * P.H a b * docW P x b) + ∑ i ∈ Finset.range P.nw, P.Cw i * docW P x i

end Verif.OpfModel
