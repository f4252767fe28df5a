import Mathlib.Algebra.Order.Field.Basic
import Verif.NumPy

/-!
# Model of the generator cost routines

`polycost.py`, `totcost.py`, `modcost.py`, `pqcost.py`, `poly2pwl.py`, `makeAy.py`, and the one-segment conversion of
`opf_setup.py`.  Numbers are elements of a linearly ordered field (floating point rounding is not modelled).
Exceptions are `none`.
-/

namespace Verif.Cost
open Verif.NumPy

/-- Row of `gencost` (idx_cost.py): `MODEL` (col 0; 1 piecewise linear, 2 polynomial), `NCOST` (col 3) and the data columns
`COST`.. (col 4 on).  `STARTUP`/`SHUTDOWN` are not used by these routines. -/
structure CostRow (K : Type) where
  model : Nat
  ncost : Nat
  data : List K
deriving DecidableEq, Repr

variable {K : Type} [Field K]

/-- polycost.py:44-48: row of the coefficient matrix `c`, constant term first, padded with zeros to `maxN` columns. -/
def polyCoeffs (maxN : Nat) (r : CostRow K) : List K :=
  (r.data.take r.ncost).reverse ++ List.replicate (maxN - r.ncost) 0

/-- One pass of polycost.py:51-59 with at least two columns: drop the constant column, multiply column `j ≥ 1` by `j+1`. -/
def derivCols (c : List K) : List K :=
  (c.drop 1).mapIdx (fun j a => if j = 0 then a else a * ((j + 1 : Nat) : K))

/-- polycost.py:51-59: `der` passes; with fewer than two columns the result is one zero column and the loop stops. -/
def derivs : Nat → List K → List K
  | 0, c => c
  | d + 1, c => if 2 ≤ c.length then derivs d (derivCols c) else [0]

/-- polycost.py:65-67: `f = c[:,0]`, then `f = f + c[:,k] * Pg**k` for `k = 1, 2, …`; `k` is the next column. -/
def evalLoop (x : K) : K → Nat → List K → K
  | f, _, [] => f
  | f, k, a :: as => evalLoop x (f + a * x ^ k) (k + 1) as

/-- polycost.py:61-67 for one row (columns `c`, at least one). -/
def evalCols (c : List K) (x : K) : K := evalLoop x (c.headD 0) 1 c.tail

/-- `polycost(gencost, Pg, der)` (polycost.py:15-67).  An empty table gives an empty result; otherwise rows and `Pg` must have the
same length (simplification: a mismatch is an error here) and every row must hold `NCOST` coefficients.
If all `NCOST` are 0 the value for `der = 0` is an empty array. The warning about piecewise linear rows is not modelled. -/
def polycost (rows : List (CostRow K)) (Pg : List K) (der : Nat) : Option (List K) :=
  if rows = [] then some [] else
  if rows.length ≠ Pg.length then none else
  if rows.any (fun r => decide (r.data.length < r.ncost)) then none else
  let maxN := (rows.map (·.ncost)).foldl max 0
  if maxN = 0 ∧ der = 0 then some [] else
  some (List.zipWith (fun r x => evalCols (derivs der (polyCoeffs maxN r)) x) rows Pg)

/-- Breakpoints of a row: the columns `p = gencost[:, COST:m-1:2]`, `c = gencost[:, COST+1:m:2]` (totcost.py:34-35) paired up. -/
def pairs : List K → List (K × K)
  | a :: b :: r => (a, b) :: pairs r
  | _ => []

variable [LinearOrder K]

/-- Loop of totcost.py:39-48 over the segments of one row; `acc` is `totalcost[i]`. -/
def pwlLoop (x : K) : K → List (K × K) → K
  | _, (p1, c1) :: (p2, c2) :: rest =>
    let m := (c2 - c1) / (p2 - p1)
    let b := c1 - m * p1
    if x < p2 then m * x + b else pwlLoop x (m * x + b) ((p2, c2) :: rest)
  | acc, _ => acc

/-- totcost.py:37-48 for one row. -/
def pwlCost (r : CostRow K) (x : K) : K := pwlLoop x 0 ((pairs r.data).take r.ncost)

/-- `totcost(gencost, Pg)` (totcost.py:15-53).  Rows that are neither piecewise linear nor polynomial cost 0.
A piecewise linear row with fewer than `NCOST` breakpoints raises `IndexError` (if it has more than one). -/
def totcost (rows : List (CostRow K)) (Pg : List K) : Option (List K) :=
  if rows.length ≠ Pg.length then none else
  if rows.any (fun r => r.model == 1 && decide (1 < r.ncost) && decide ((pairs r.data).length < r.ncost)) then none else
  let base := List.zipWith (fun r x => if r.model = 1 then pwlCost r x else 0) rows Pg
  let ipol := find (rows.map (fun r => r.model == 2))
  if ipol = [] then some base else
  do
    let prows ← gather rows ipol
    let pPg ← gather Pg ipol
    let f ← polycost prows pPg 0
    scatter base ipol f

/-- `polyshift(c, a)` (modcost.py:67-89): loop body for step `k`; `b` is the cumulative-sum vector, `crev` the first `n-k`
coefficients reversed (`c[n-k-1::-1]`), `A` the powers of `-a`; the result is `d[n-k-1]`. -/
def shiftEntry (b crev A : List K) : K := (List.zipWith (· * ·) b (List.zipWith (· * ·) crev A)).sum

/-- `numpy.cumsum`. -/
def cumsum : List K → List K := fun l => go 0 l
where
  go (s : K) : List K → List K
    | [] => []
    | x :: xs => (s + x) :: go (s + x) xs

/-- modcost.py:83-87: the coefficients `d[n-1], d[n-2], …, d[0]`, in this order (constant term first).
`crev` is the list `c` reversed; at step `k` the code uses `c[n-k-1::-1]` = `crev` without its first `k` entries. -/
def shiftLoop (A : List K) : List K → List K → List K
  | _, [] => []
  | b, x :: crev => shiftEntry b (x :: crev) A :: shiftLoop A (cumsum (b.take crev.length)) crev

/-- `polyshift(c, a)` (modcost.py:67-89). -/
def polyshift (c : List K) (a : K) : List K :=
  (shiftLoop ((List.range c.length).map (fun j => (-a) ^ j)) (List.replicate c.length 1) c.reverse).reverse

/-- Modification type (modcost.py:41-62); an unknown one changes nothing (a message is written). -/
inductive ModType where
  | scaleF | scaleX | shiftF | shiftX | other
deriving DecidableEq, Repr

/-- Apply `f` to the abscissae, columns `COST:m-1:2` (modcost.py:49,60). -/
def mapX (f : K → K) : List K → List K
  | a :: b :: r => f a :: b :: mapX f r
  | l => l

/-- Apply `f` to the ordinates, columns `COST+1:m:2` (modcost.py:43,54). -/
def mapY (f : K → K) : List K → List K
  | a :: b :: r => a :: f b :: mapY f r
  | l => l

/-- modcost.py:41-62 on one row. `none`: the row holds fewer than `NCOST` coefficients (`IndexError`), or `NCOST = 0` for SHIFT_F
(the code would then overwrite the `NCOST` column itself; not modelled). -/
def modRow (alpha : K) (t : ModType) (r : CostRow K) : Option (CostRow K) :=
  if r.model = 2 then
    match t with
    | .scaleF => some { r with data := r.data.map (alpha * ·) }
    | .scaleX => if r.data.length < r.ncost then none else
        some { r with data := r.data.mapIdx (fun i a => if i < r.ncost then a / alpha ^ (r.ncost - i - 1) else a) }
    | .shiftF => if r.data.length < r.ncost ∨ r.ncost = 0 then none else
        some { r with data := r.data.mapIdx (fun i a => if i = r.ncost - 1 then alpha + a else a) }
    | .shiftX => if r.data.length < r.ncost then none else
        some { r with data := polyshift (r.data.take r.ncost) alpha ++ r.data.drop r.ncost }
    | .other => some r
  else if r.model = 1 then
    match t with
    | .scaleF => some { r with data := mapY (alpha * ·) r.data }
    | .scaleX => some { r with data := mapX (alpha * ·) r.data }
    | .shiftF => some { r with data := mapY (alpha + ·) r.data }
    | .shiftX => some { r with data := mapX (alpha + ·) r.data }
    | .other => some r
  else some r

/-- `modcost(gencost, alpha, modtype)` (modcost.py:15-64). -/
def modcost (alpha : K) (t : ModType) : List (CostRow K) → Option (List (CostRow K))
  | [] => some []
  | r :: rs =>
    match modRow alpha t r, modcost alpha t rs with
    | some r', some rs' => some (r' :: rs')
    | _, _ => none

/-- `pqcost(gencost, ng, on)` (pqcost.py:13-37); `on = none` is the default (all).  A wrong number of rows writes a message and then
raises `UnboundLocalError`. -/
def pqcost {α : Type} (gencost : List α) (ng : Nat) (on : Option (List Nat)) : Option (List α × List α) :=
  let on := on.getD (List.range ng)
  if gencost.length = ng then
    (gather gencost on).map (fun p => (p, []))
  else if gencost.length = 2 * ng then do
    let p ← gather gencost on
    let q ← gather gencost (on.map (· + ng))
    some (p, q)
  else none

/-- Builtin `range` on `numpy.float64` arguments (poly2pwl.py:37,40,43): raises `TypeError` (a float cannot be interpreted as an integer). -/
def rangeFloat (_start _stop _step : K) : Option (List K) := none

/-- `0 & Pmax[i]` on a float (poly2pwl.py:41; `&` binds tighter than `<`): raises `TypeError`. -/
def andFloat (_a : Nat) (_b : K) : Option K := none

/-- `totcost(polycost[i, :], xx)` (poly2pwl.py:44): the row is one-dimensional, so `ng, m = gencost.shape` (totcost.py:27) raises `ValueError`. -/
def totcostVec (_row : CostRow K) (_xx : List K) : Option (List K) := none

/-- poly2pwl.py:35-43: the sample points of one row. -/
def samplePoints (Pmin Pmax : K) (npts : Nat) : Option (List K) :=
  if Pmin = 0 then rangeFloat Pmin ((Pmax - Pmin) / ((npts : K) - 1)) Pmax
  else if 0 < Pmin then (rangeFloat Pmin ((Pmax - Pmin) / ((npts : K) - 2)) Pmax).map (0 :: ·)
  else (andFloat 0 Pmax).bind (fun t =>
    if Pmin < t ∧ 0 < t then rangeFloat Pmin ((Pmax - Pmin) / ((npts : K) - 1)) Pmax else none)

/-- Interleave abscissae and ordinates (poly2pwl.py:45-46). -/
def interleave : List K → List K → List K
  | x :: xs, y :: ys => x :: y :: interleave xs ys
  | _, _ => []

/-- `poly2pwl(polycost, Pmin, Pmax, npts)` (poly2pwl.py:15-48), row by row; the limits are floats.  The rows passed to `totcostVec` have already been
zeroed (lines 28-32).  An empty table is returned as it is. -/
def poly2pwl (rows : List (CostRow K)) (Pmin Pmax : List K) (npts : Nat) : Option (List (CostRow K)) :=
  match rows, Pmin, Pmax with
  | [], _, _ => some []
  | r :: rs, lo :: los, hi :: his => do
    let xx ← samplePoints lo hi npts
    let yy ← totcostVec { model := 1, ncost := npts, data := r.data.map (fun _ => (0 : K)) } xx
    let rest ← poly2pwl rs los his npts
    some ({ model := 1, ncost := npts, data := interleave xx yy } :: rest)
  | _, _, _ => none

/-- opf_setup.py:94-107: a piecewise linear row with two breakpoints becomes a linear polynomial. -/
def pwl1Row (r : CostRow K) : CostRow K :=
  if r.model = 1 ∧ r.ncost = 2 then
    match r.data with
    | x0 :: y0 :: x1 :: y1 :: rest =>
      let m := (y1 - y0) / (x1 - x0)
      let b := y0 - m * x0
      { model := 2, ncost := 2, data := m :: b :: x1 :: y1 :: rest }
    | _ => r
  else r

/-- One row of the constraint system `Ay x ≤ by` (makeAy.py:61-97): coefficient `slope` in column `col`, `-1` in column `ycol`. -/
structure AyRow (K : Type) where
  col : Nat
  slope : K
  ycol : Nat
  rhs : K
deriving DecidableEq, Repr

/-- makeAy.py:69-75: slopes and right-hand sides of consecutive breakpoints (abscissae already divided by `baseMVA`). -/
def segRows (col ycol : Nat) : List (K × K) → List (AyRow K)
  | (p1, c1) :: (p2, c2) :: rest =>
    let m := (c2 - c1) / (p2 - p1)
    { col := col, slope := m, ycol := ycol, rhs := m * p1 - c1 } :: segRows col ycol ((p2, c2) :: rest)
  | _ => []

/-- makeAy.py:76-79: column of the output variable for cost row `i` (0-based). -/
def ayCol (ng pgbas qgbas i : Nat) : Nat :=
  if ng < i then qgbas + (i - ng) - 1 else pgbas + i - 1

/-- Loop of makeAy.py:63-97 over the piecewise linear rows; `i` is the cost row, `j` counts the piecewise linear rows before it.
(The code fills slopes and `-1` entries in two passes.) -/
def ayLoop (baseMVA : K) (ng pgbas qgbas ybas : Nat) : Nat → Nat → List (CostRow K) → List (AyRow K)
  | _, _, [] => []
  | i, j, r :: rs =>
    if r.model = 1 then
      segRows (ayCol ng pgbas qgbas i) (ybas + j - 1)
        (((pairs r.data).take r.ncost).map (fun pc => (pc.1 / baseMVA, pc.2))) ++
        ayLoop baseMVA ng pgbas qgbas ybas (i + 1) (j + 1) rs
    else ayLoop baseMVA ng pgbas qgbas ybas (i + 1) j rs

/-- `makeAy(baseMVA, ng, gencost, pgbas, qgbas, ybas)` (makeAy.py:15-99).  Simplifications: the sparse matrix is the list of its
rows; column indices past the width of the matrix are not checked. -/
def makeAy (baseMVA : K) (ng : Nat) (gencost : List (CostRow K)) (pgbas qgbas ybas : Nat) : List (AyRow K) :=
  ayLoop baseMVA ng pgbas qgbas ybas 0 0 gencost

/-- The constraint `Ay x ≤ by` for one row. -/
def AyRow.holds (x : Nat → K) (r : AyRow K) : Prop := r.slope * x r.col - x r.ycol ≤ r.rhs

end Verif.Cost
