import Verif.Ipopt.Model

/-!
# Model of `ipoptopf_solver`: the problem handed to IPOPT and the results made of its answer

`pypower/ipoptopf_solver.py:64-340`.  IPOPT itself is not part of the repository: it is an arbitrary function of the problem and the starting point.  Results are put in
the record `Opf.AcRes` of `pipsopf_solver`, whose fields `tol` and `dual` (accuracy of PIPS) have no counterpart here and are zero.
-/

open Matrix ComplexConjugate

namespace Verif.Ipopt

open Verif.Opf Verif.Network Verif.OpfNl Verif.OpfCost Verif.Pips Verif.OpfModel

noncomputable section

variable {nb ng nl : ℕ}

/-- The arguments of `pyipopt.create` (ipoptopf_solver.py:186-220): number of variables, bounds of variables and constraints, callbacks (the Hessian, C104, only
guides the search).  `R` are the constraints, `pos` their positions in the vectors. -/
structure Nlp (R : Type) where
  n : ℕ
  xl : ℕ → EReal
  xu : ℕ → EReal
  pos : R → ℕ
  gl : ℕ → EReal
  gu : ℕ → EReal
  f : (ℕ → ℝ) → Option ℝ
  grad : (ℕ → ℝ) → Option (ℕ → ℝ)
  g : (ℕ → ℝ) → Option (R → ℝ)
  jac : (ℕ → ℝ) → Option (R → ℕ → ℝ)

/-- `x, zl, zu, obj, status, zg = nlp.solve(x0, m, userdata)` (ipoptopf_solver.py:243-247); `obj` is only kept for information. -/
structure Out where
  x : ℕ → ℝ
  zl : ℕ → ℝ
  zu : ℕ → ℝ
  status : Int
  lmbda : ℕ → ℝ

/-- Any nonlinear programming solver. -/
abbrev AnyIpopt := ∀ R : Type, Nlp R → (ℕ → ℝ) → Out

/-- Position in `r_[gn, hn, A * x]` (ipoptopf_solver.py:374-377), where `gn` and `hn` have two halves (opf_consfcn.py:98-99, 102-124). -/
def pos (nb k : ℕ) {nA : ℕ} : Row nb k nA → ℕ
  | .inl (.inl b) => b
  | .inl (.inr b) => nb + b
  | .inr (.inl (.inl i)) => 2 * nb + i
  | .inr (.inl (.inr i)) => 2 * nb + k + i
  | .inr (.inr r) => 2 * nb + (2 * k + r)

/-- The problem handed over (ipoptopf_solver.py:80-84, 186-220, 343-415). -/
def nlp (d : Case nb ng nl) (lim : Int) (c : AcData) (n : ℕ) (q : Linear) : Nlp (Row nb d.il.length q.nA) where
  n := n
  xl := q.xmin
  xu := q.xmax
  pos := pos nb d.il.length
  gl := fun k => if k < 2 * nb then 0 else if k - 2 * nb < 2 * d.il.length then ⊥ else q.l (k - 2 * nb - 2 * d.il.length)
  gu := fun k => if k < 2 * nb then 0 else if k - 2 * nb < 2 * d.il.length then 0 else q.u (k - 2 * nb - 2 * d.il.length)
  f := fun x => (userdata d lim c).cost.f x
  grad := fun x => (userdata d lim c).cost.df x
  g := fun x => evalG d lim c n (fun r j => q.A r j) x
  jac := fun x => evalJac d lim c (fun r j => q.A r j) x

open Classical in
/-- `ipoptopf_solver(om, ppopt)` (ipoptopf_solver.py:64-340) for any starting point; `none` if a callback or the construction of the structures raises or a block is missing. -/
def ipoptSolver (d : Case nb ng nl) (lim : Int) (c : AcData) (m : Model) (ipopt : AnyIpopt) (x0 : ℕ → ℝ) : Option (AcRes nb ng nl) := do
  let q ← linearOf m
  let iVa ← m.var.i1 "Va"
  let iVm ← m.var.i1 "Vm"
  let iPg ← m.var.i1 "Pg"
  let iQg ← m.var.i1 "Qg"
  let jP ← m.nln.i1 "Pmis"
  let jQ ← m.nln.i1 "Qmis"
  let _ ← Hs d lim c x0
  if ¬ Evaluable (userdata d lim c) then none else
  let r := ipopt _ (nlp d lim c m.var.total q) x0
  let f ← (userdata d lim c).cost.f r.x
  let Va : Fin nb → ℝ := fun b => r.x (iVa + b)
  let Vm : Fin nb → ℝ := fun b => r.x (iVm + b)
  let V : Fin nb → ℂ := fun b => (Vm b : ℂ) * Complex.exp (Complex.I * (Va b : ℂ))
  let Sf : Fin nl → ℂ := fun l => V (d.branch l).f * conj ((Network.Yf d.branch *ᵥ V) l)
  let St : Fin nl → ℂ := fun l => V (d.branch l).t * conj ((Network.Yt d.branch *ᵥ V) l)
  let muSf : Fin nl → ℝ := fun l => if l ∈ d.il then 2 * r.lmbda (2 * nb + d.il.idxOf l) * d.rateA l / d.base else 0
  let muSt : Fin nl → ℝ := fun l => if l ∈ d.il then 2 * r.lmbda (2 * nb + d.il.length + d.il.idxOf l) * d.rateA l / d.base else 0
  some {
    success := r.status == 0 || r.status == 1
    f := f
    VA := fun b => Va b * 180 / Real.pi
    VM := Vm
    PG := fun g => r.x (iPg + g) * d.base
    QG := fun g => r.x (iQg + g) * d.base
    VG := fun g => Vm (d.gen g).bus
    PF := fun l => (Sf l).re * d.base
    QF := fun l => (Sf l).im * d.base
    PT := fun l => (St l).re * d.base
    QT := fun l => (St l).im * d.base
    MU_VMAX := fun b => r.zu (iVm + b)
    MU_VMIN := fun b => r.zl (iVm + b)
    MU_PMAX := fun g => r.zu (iPg + g) / d.base
    MU_PMIN := fun g => r.zl (iPg + g) / d.base
    MU_QMAX := fun g => r.zu (iQg + g) / d.base
    MU_QMIN := fun g => r.zl (iQg + g) / d.base
    LAM_P := fun b => r.lmbda (jP + b) / d.base
    LAM_Q := fun b => r.lmbda (jQ + b) / d.base
    MU_SF := fun l => muSf l / d.base
    MU_ST := fun l => muSt l / d.base
    x := r.x
    muVarL := r.zl
    muVarU := r.zu
    mu_l := fun k => if k < q.nA ∧ r.lmbda (2 * nb + 2 * d.il.length + k) < 0 then -r.lmbda (2 * nb + 2 * d.il.length + k) else 0
    mu_u := fun k => if k < q.nA ∧ r.lmbda (2 * nb + 2 * d.il.length + k) > 0 then r.lmbda (2 * nb + 2 * d.il.length + k) else 0
    muNlnL := fun k => if k < 2 * nb ∧ r.lmbda k < 0 then -r.lmbda k else 0
    muNlnU := fun k => if k < 2 * nb then (if r.lmbda k > 0 then r.lmbda k else 0)
      else if k < 2 * nb + nl then pad muSf (k - 2 * nb) else pad muSt (k - 2 * nb - nl)
    tol := 0
    dual := 0 }

/-! ### Specification: what is expected of IPOPT -/

/-- A value within bounds up to `ε`; IPOPT takes bounds beyond `±1e19` for absent. -/
def Obeys (lo hi : EReal) (v ε : ℝ) : Prop := (((-10 ^ 19 : ℝ) : EReal) < lo → lo ≤ ((v + ε : ℝ) : EReal)) ∧ (hi < ((10 ^ 19 : ℝ) : EReal) → ((v - ε : ℝ) : EReal) ≤ hi)

/-- The point obeys constraints and bounds up to `ε`. -/
def Out.Feasible {R : Type} (o : Out) (P : Nlp R) (ε : ℝ) : Prop :=
  (∀ G, P.g o.x = some G → ∀ r, Obeys (P.gl (P.pos r)) (P.gu (P.pos r)) (G r) ε) ∧ ∀ k < P.n, Obeys (P.xl k) (P.xu k) (o.x k) ε

/-- The multipliers make the gradient of the Lagrangian vanish up to `ε`; those of bounds are not negative, and those of constraints without lower bound not below `-ε`. -/
def Out.Stationary {R : Type} [Fintype R] (o : Out) (P : Nlp R) (ε : ℝ) : Prop :=
  (∀ gr J, P.grad o.x = some gr → P.jac o.x = some J → ∀ k < P.n, |gr k + ∑ r, o.lmbda (P.pos r) * J r k - o.zl k + o.zu k| ≤ ε) ∧
    (∀ k, 0 ≤ o.zl k ∧ 0 ≤ o.zu k) ∧ ∀ r, P.gl (P.pos r) = ⊥ → -ε ≤ o.lmbda (P.pos r)

/-- Multipliers times the distance from the bound they belong to are at most `ε`. -/
def Out.Complementary {R : Type} (o : Out) (P : Nlp R) (ε : ℝ) : Prop :=
  (∀ k < P.n, ∀ a : ℝ, (P.xl k = a → o.zl k * (o.x k - a) ≤ ε) ∧ (P.xu k = a → o.zu k * (a - o.x k) ≤ ε)) ∧
    ∀ G, P.g o.x = some G → ∀ r, ∀ a : ℝ, P.gl (P.pos r) = ⊥ → P.gu (P.pos r) = a → o.lmbda (P.pos r) * (a - G r) ≤ ε

/-- A solver that reports success (status 0 or 1) only for points that are feasible up to `ε`, stationary up to `δ` and complementary up to `γ`. -/
def Sound (ipopt : AnyIpopt) (ε δ γ : ℝ) : Prop :=
  ∀ (R : Type) [Fintype R] (P : Nlp R) (x0 : ℕ → ℝ), (ipopt R P x0).status = 0 ∨ (ipopt R P x0).status = 1 →
    (ipopt R P x0).Feasible P ε ∧ (ipopt R P x0).Stationary P δ ∧ (ipopt R P x0).Complementary P γ

end

end Verif.Ipopt
