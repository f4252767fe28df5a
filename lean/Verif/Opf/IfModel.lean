import Verif.Opf.AddModel
import Verif.Iflims.Model

/-!
# Model of the DC optimal power flow with interface flow limits

`opf` with `PF_DC` of a case with the callbacks of `toggle_iflims` (toggle_iflims.py:81-186): opf.py:166-191 around opf_setup.py:262-263.  The callbacks themselves are those of
`Verif/Iflims/Model.lean`.  Not modelled: messages, the callbacks that print and save (toggle_iflims.py:189-298).
-/

namespace Verif.Opf

open Verif.OpfModel Verif.Pips Verif.Network Verif.Cost Verif.OpfCost

noncomputable section

/-- Which rows of the caller's branch table are in service: `order['branch']['status']['on']` as a mask over the rows of `order['ext']['branch']` (toggle_iflims.py:89, 97). -/
def ifOn (o : Index.Order Tables) : List Bool := (List.range o.extBranch.length).map fun i => decide (i ∈ o.branchOn)

/-- The callbacks `ext2int` and `formulation` (toggle_iflims.py:81-152): saved map, internal map, rows of the constraint. -/
def ifForm {nb ng nl : ℕ} (ifmap : List Iflims.MapRow) (lims : List Iflims.LimRow) (d : Case nb ng nl) (c : Index.Case Tables) :
    Option (List Iflims.MapRow × List Iflims.MapRow × List (Iflims.Row (Fin nb))) := do
  let o ← c.order
  let p ← Iflims.ext2int (ifOn o) ifmap
  let rows ← Iflims.formulation d.base (List.ofFn d.branch) p.2 lims
  some (p.1, p.2, rows)

/-- The block added by toggle_iflims.py:150. -/
def ifBlk {nb : ℕ} (rows : List (Iflims.Row (Fin nb))) : LinBlk :=
  ⟨matOf fun (i : Fin rows.length) j => (rows.get i).A j, rows.map fun r => ((r.lower : ℝ) : EReal), rows.map fun r => ((r.upper : ℝ) : EReal), ["Va"]⟩

/-- The calls of the formulation callback; none if it raises (then the run raises as well, `opfDcIflims`). -/
def ifOps (ifmap : List Iflims.MapRow) (lims : List Iflims.LimRow) {nb ng nl : ℕ} (d : Case nb ng nl) (c : Index.Case Tables) : List Op :=
  match ifForm ifmap lims d c with
  | some F => [.addLin "iflims" (ifBlk F.2.2).A (ifBlk F.2.2).l (ifBlk F.2.2).u (ifBlk F.2.2).vs]
  | none => []

/-- The setup with interface flow limits. -/
def ifSetup (base : ℝ) (E : Econ) (ifmap : List Iflims.MapRow) (lims : List Iflims.LimRow) : DcSetup := addSetup base E (ifOps ifmap lims)

/-- `results['if']`: map, flows in MW, multipliers (one entry per interface). -/
structure IfOut where
  map : List Iflims.MapRow
  P : List ℝ
  mu_l : List ℝ
  mu_u : List ℝ

/-- The `int2ext` callback (toggle_iflims.py:155-186) on the results in internal numbering.  The multipliers of a block are stored only if it is not empty (opf_execute.py:162), so
without limits the callback raises `KeyError`. -/
def ifResults {nb ng nl : ℕ} (lims : List Iflims.LimRow) (saved im : List Iflims.MapRow) (m : Model) (s : DcRes nb ng nl) : Option IfOut :=
  if (Iflims.ifidx lims).length = 0 then none
  else do
    let q ← Iflims.int2ext (List.ofFn s.PF) saved im lims
    let j ← m.lin.i1 "iflims"
    let n := (Iflims.ifidx lims).length
    some ⟨q.1, q.2, (List.range n).map fun k => s.mu_l (j + k), (List.range n).map fun k => s.mu_u (j + k)⟩

/-- `opf` with `PF_DC` and the interface flow limit callbacks (opf.py:166-191). -/
def opfDcIflims (srt : List ℕ → List ℕ) (base : ℝ) (E : Econ) (ifmap : List Iflims.MapRow) (lims : List Iflims.LimRow) (o : Opt) (solve : AnySolver) (c : Index.Case Tables) :
    Option (Ret × IfOut) := do
  let c' ← Index.ext2int srt c
  let d ← readCase base c'
  let F ← ifForm ifmap lims d c'
  let m ← OpfModel.run (dcOps d ++ (ifSetup base E ifmap lims).extra d c')
  let s ← dcopfSolver d m ((ifSetup base E ifmap lims).H c' m) ((ifSetup base E ifmap lims).C c' m) ((ifSetup base E ifmap lims).C0 c' m) o solve (E.x0 c' m)
  let out ← ifResults lims F.1 F.2.1 m s
  let t ← Index.int2ext (write c' (dcUpd s (angPost E c' m s)))
  some (⟨s.success, s.f, s.tol, s.dual, m.var.total + m.lin.total, zeroOff opfOff t⟩, out)

end

end Verif.Opf
