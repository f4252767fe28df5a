import Verif.DType.Model
import Verif.Opf.EconModel

/-!
# Model of the DC optimal power flow with a cost table of a given element type

`opf_setup` replaces one-segment costs in the cost table itself (opf_setup.py:94-106); everything after that reads the table it has written.  Nothing before converts the table:
`ext2int`, `pqcost` and `opf` select and reorder rows (opf.py:155-163 appends columns to `bus`, `gen` and `branch` only).
-/

namespace Verif.DType

open Verif.Opf Verif.Cost Verif.Pips

noncomputable section

/-- One row after opf_setup.py:94-106: slope and intercept are computed in floating point and stored in the table. -/
def storeRow (e : Elem) (r : CostRow ℝ) : CostRow ℝ :=
  if r.model = 1 ∧ r.ncost = 2 then
    match r.data with
    | x0 :: y0 :: x1 :: y1 :: rest =>
      let m := (y1 - y0) / (x1 - x0)
      let b := y0 - m * x0
      { model := 2, ncost := 2, data := e.put m :: e.put b :: x1 :: y1 :: rest }
    | _ => r
  else r

/-- The case with its cost rows replaced, in the saved external version too. -/
def mapCost (f : CostRow ℝ → CostRow ℝ) (c : Index.Case Tables) : Index.Case Tables :=
  { c with
    gencost := c.gencost.map (List.map f)
    order := c.order.map fun o => { o with extGencost := o.extGencost.map (List.map f) } }

/-- A formulation that reads the cost table after the replacement (opf_setup.py:94-110). -/
def readsAfter (f : CostRow ℝ → CostRow ℝ) (S : DcSetup) : DcSetup where
  extra := fun d c => S.extra d (mapCost f c)
  H := fun c m => S.H (mapCost f c) m
  C := fun c m => S.C (mapCost f c) m
  C0 := fun c m => S.C0 (mapCost f c) m
  x0 := fun c m => S.x0 (mapCost f c) m
  post := fun c m _ _ _ s => S.post (mapCost f c) m s

/-- `opf` with `PF_DC` on a case without user variables, constraints and costs, the cost table having elements of type `e`. -/
def opfDcEconT (e : Elem) (srt : List ℕ → List ℕ) (base : ℝ) (E : Econ) (o : Opt) (solve : AnySolver) (c : Index.Case Tables) : Option Ret :=
  opfDc srt base (readsAfter (storeRow e) (econSetup base E)) o solve c

end

end Verif.DType
