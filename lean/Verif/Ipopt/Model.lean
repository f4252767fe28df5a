import Verif.Opf.AcModel

/-!
# Model of the derivative callbacks of `ipoptopf_solver`

`pypower/ipoptopf_solver.py`: the sparsity structures fixed before the run (lines 105-160) and the callbacks `eval_g`, `eval_jac_g`, `eval_h` (lines 361-449),
for a case in internal numbering (`Opf.Case`).  Positions of the blocks are those of `opf_setup` (`Va`, `Vm`, `Pg`, `Qg` first, C38); `A` are the linear
constraints (`nA` rows over the `nx` variables).  A callback hands IPOPT a list of numbers, one per stored position of the structure; the model gives
the matrix IPOPT makes of it: the numbers at the stored positions, zero elsewhere.
-/

open Matrix ComplexConjugate

namespace Verif.Ipopt

open Verif.Opf Verif.Network Verif.OpfNl Verif.OpfCost Verif.Pips

noncomputable section

variable {nb ng nl : ℕ}

/-- `Cl = Cf + Ct` (ipoptopf_solver.py:116-120): buses at the ends of each branch. -/
def Cl (d : Case nb ng nl) : Matrix (Fin nl) (Fin nb) ℝ :=
  coo id (fun l => (d.branch l).f) (fun _ => 1) + coo id (fun l => (d.branch l).t) (fun _ => 1)

/-- `Cb = Cl.T * Cl + speye(nb, nb)` (ipoptopf_solver.py:121). -/
def Cb (d : Case nb ng nl) : Matrix (Fin nb) (Fin nb) ℝ := (Cl d)ᵀ * Cl d + 1

/-- `Cl2 = Cl[il, :]` (ipoptopf_solver.py:122). -/
def Cl2 (d : Case nb ng nl) : Matrix (Fin d.il.length) (Fin nb) ℝ := Matrix.of fun k b => Cl d (d.il.get k) b

/-- `Cg` (ipoptopf_solver.py:123). -/
def Cg (d : Case nb ng nl) : Matrix (Fin nb) (Fin ng) ℝ := coo (fun g => (d.gen g).bus) id (fun _ => 1)

/-- A row of `hstack([a, m, p, q, 0])` with blocks of widths `nb`, `nb`, `ng`, `ng`, `nz` (ipoptopf_solver.py:126-139). -/
def hrow (a m : Fin nb → ℝ) (p q : Fin ng → ℝ) (j : ℕ) : ℝ :=
  if h : j < nb then a ⟨j, h⟩
  else if h : j - nb < nb then m ⟨j - nb, h⟩
  else if h : j - nb - nb < ng then p ⟨j - nb - nb, h⟩
  else if h : j - nb - nb - ng < ng then q ⟨j - nb - nb - ng, h⟩
  else 0

/-- The constraints in the order they are handed to IPOPT: active and reactive balance, flow limits at from and to ends, linear constraints. -/
abbrev Row (nb k nA : ℕ) := (Fin nb ⊕ Fin nb) ⊕ ((Fin k ⊕ Fin k) ⊕ Fin nA)

/-- `Js` (ipoptopf_solver.py:126-142): its nonzero entries are the stored positions of the Jacobian. -/
def Js (d : Case nb ng nl) {nA : ℕ} (A : Fin nA → ℕ → ℝ) : Row nb d.il.length nA → ℕ → ℝ
  | .inl (.inl i) => hrow (Cb d i) (Cb d i) (Cg d i) 0
  | .inl (.inr i) => hrow (Cb d i) (Cb d i) 0 (Cg d i)
  | .inr (.inl (.inl k)) => hrow (ng := ng) (Cl2 d k) (Cl2 d k) 0 0
  | .inr (.inl (.inr k)) => hrow (ng := ng) (Cl2 d k) (Cl2 d k) 0 0
  | .inr (.inr r) => A r

/-- The data handed to the callbacks (ipoptopf_solver.py:155-169); same as in `pipsopf_solver`. -/
def userdata (d : Case nb ng nl) (lim : Int) (c : AcData) : Nl nb ng d.il.length := nlOf d lim c 0 nb (2 * nb) (2 * nb + ng)

/-- `eval_g` (ipoptopf_solver.py:361-378).  Without limited branches `opf_consfcn` returns an `h` of shape (0, 1), which cannot be joined to the vector `g`.
Flow limit rows of limited branches are real numbers. -/
def evalG (d : Case nb ng nl) (lim : Int) (c : AcData) (nx : ℕ) {nA : ℕ} (A : Fin nA → ℕ → ℝ) (x : ℕ → ℝ) : Option (Row nb d.il.length nA → ℝ) :=
  if d.il.length = 0 then none else
  some fun
    | .inl i => (userdata d lim c).g x i
    | .inr (.inl k) => ((userdata d lim c).h x k).toReal
    | .inr (.inr r) => ∑ j ∈ Finset.range nx, A r j * x j

/-- The full Jacobian `J` (ipoptopf_solver.py:400-405). -/
def jac (d : Case nb ng nl) (lim : Int) (c : AcData) {nA : ℕ} (A : Fin nA → ℕ → ℝ) (x : ℕ → ℝ) : Row nb d.il.length nA → ℕ → ℝ
  | .inl i => (userdata d lim c).dg x i
  | .inr (.inl k) => (userdata d lim c).dh x k
  | .inr (.inr r) => A r

/-- `eval_jac_g` (ipoptopf_solver.py:381-415): the entries of `J` at the stored positions of `Js`.  Without limited branches `opf_consfcn` returns `None` for
`dh`, which has no transpose. -/
def evalJac (d : Case nb ng nl) (lim : Int) (c : AcData) {nA : ℕ} (A : Fin nA → ℕ → ℝ) (x : ℕ → ℝ) : Option (Row nb d.il.length nA → ℕ → ℝ) :=
  if d.il.length = 0 then none else
  some fun r j => if Js d A r j ≠ 0 then jac d lim c A x r j else 0

/-- The Hessian part of `opf_costfcn(x, om, True)` (opf_costfcn.py:142-167), which differs from that of `opf_hessfcn`: `qcost` starts one row late, so for a
single generator reactive costs are overlooked instead of raising (`any` of a table with rows raises), and the user part is guarded by `issparse(N)` alone,
so that rows without any entry use variables never assigned. -/
def costHess (c : AcData) (x : ℕ → ℝ) : Option (ℕ → ℕ → ℝ) := do
  let p ← d2fPg c x
  let _ ← if c.ng < c.gencost.length ∧ c.ng + 1 < min (2 * c.ng) c.gencost.length then none else some ()
  let _ ← if c.user = false ∧ 0 < c.P.nw then none else some ()
  some fun j k => (if j = k ∧ c.iPg ≤ j ∧ j < c.iPg + c.ng then p.getD (j - c.iPg) 0 else 0) + (if c.user then d2user c.P x j k else 0)

/-- `vstack([hstack([Cb, Cb, 0]), hstack([Cb, Cb, 0]), 0])` (ipoptopf_solver.py:145-149). -/
def hsBase (d : Case nb ng nl) : ℕ → ℕ → ℝ := blocks (Cb d) (Cb d) (Cb d) (Cb d)

/-- `Hs`, before `tril` (ipoptopf_solver.py:144-149): the sum of two sparse matrices stores only nonzero results. -/
def Hs (d : Case nb ng nl) (lim : Int) (c : AcData) (x0 : ℕ → ℝ) : Option (ℕ → ℕ → ℝ) :=
  (costHess (userdata d lim c).cost x0).map fun f2 j k => f2 j k + hsBase d j k

/-- `eval_h` (ipoptopf_solver.py:418-449) after a start at `x0`: the entries of the lower triangle of the Hessian at the stored positions of `tril(Hs)`. -/
def evalH (d : Case nb ng nl) (lim : Int) (c : AcData) (x0 x : ℕ → ℝ) (lamP lamQ : Fin nb → ℝ) (muF muT : Fin d.il.length → ℝ) (objFactor : ℝ) :
    Option (ℕ → ℕ → ℝ) := do
  let hs ← Hs d lim c x0
  let h ← (userdata d lim c).hess x lamP lamQ muF muT objFactor
  some fun j k => if k ≤ j ∧ hs j k ≠ 0 then h j k else 0

end

end Verif.Ipopt
