import Verif.Opf.EconModel

/-!
# Model of the DC optimal power flow with further constraints of a callback

A `formulation` callback (opf_setup.py:262-263) that adds linear constraints but neither variables nor costs: interface flow limits (`toggle_iflims.py`), DC lines (`toggle_dcline.py`).
-/

namespace Verif.Opf

open Verif.OpfModel Verif.Pips Verif.Network Verif.Cost Verif.OpfCost

noncomputable section

/-- The setup of a case without user variables, constraints and costs, followed by the calls `f` of a callback on the tables in internal numbering (opf_setup.py:222, 235-237,
262-263); objective from the cost table. -/
def addSetup (base : ℝ) (E : Econ) (f : ∀ {nb ng nl : ℕ}, Case nb ng nl → Index.Case Tables → List Op) : DcSetup :=
  { econSetup base E with
    extra := fun {nb ng _} d c => angOps E nb c ++ (pwlOps d.base (fun p : Fin ng => pwl1Row (costAt c p)) ++ f d c) }

end

end Verif.Opf
