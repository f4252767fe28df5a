import Verif.Solvers.Model

/-!
# Model of the continuation power flow

`cpf_p.py`, `cpf_p_jac.py`, `cpf_predictor.py`, `cpf_corrector.py`, the tracing loop of `runcpf.py` and the history kept by
`cpf_default_callback` (`cpf_callbacks.py`).

`B` is the set of buses. Values that are not finite are `none`. Parameterisations other than 1, 2, 3 raise and are not modelled, nor are
plotting, printing and user callbacks. The linear solver (`pplinsolve`) is any function, see `Solvers.LinSolver`.
-/

open Matrix ComplexConjugate

namespace Verif.Cpf

open Verif.Solvers

noncomputable section

variable {B : Type} [Fintype B] [DecidableEq B]

/-- `CPF_PARAMETERIZATION` (ppoption.py:36-39): 1, 2, 3. -/
inductive Par
  | natural
  | arc
  | pseudo
  deriving DecidableEq

/-- The tangent vector `z` of length `2*nb + 1` (runcpf.py:179): angles, magnitudes, lambda. -/
structure Tan (B : Type) where
  a : B → ℝ
  m : B → ℝ
  l : ℝ

/-- `cpf_p` (cpf_p.py:7-36). -/
def cpfP (par : Par) (step : ℝ) (z : Tan B) (V : B → ℂ) (lam : ℝ) (Vprv : B → ℂ) (lamprv : ℝ) (pv pq : List B) : ℝ :=
  match par with
  | .natural => if @decide (lamprv ≤ lam) (Classical.dec _) then lam - lamprv - step else lamprv - lam - step
  | .arc =>
    (((pv ++ pq).map fun b => ((V b).arg - (Vprv b).arg) ^ 2) ++ (pq.map fun b => (‖V b‖ - ‖Vprv b‖) ^ 2) ++ [(lam - lamprv) ^ 2]).sum
      - step ^ 2
  | .pseudo =>
    (((pv ++ pq).map fun b => z.a b * ((V b).arg - (Vprv b).arg)) ++ (pq.map fun b => z.m b * (‖V b‖ - ‖Vprv b‖))
      ++ [z.l * (lam - lamprv)]).sum - step

/-- `dP_dV` of `cpf_p_jac` (cpf_p_jac.py:7-36): angles at PV and PQ buses, then magnitudes at PQ buses. -/
def dPdV (par : Par) (z : Tan B) (V Vprv : B → ℂ) (pv pq : List B) : List ℝ :=
  match par with
  | .natural => List.replicate (pv.length + 2 * pq.length) 0
  | .arc => ((pv ++ pq).map fun b => 2 * ((V b).arg - (Vprv b).arg)) ++ (pq.map fun b => 2 * (‖V b‖ - ‖Vprv b‖))
  | .pseudo => ((pv ++ pq).map fun b => z.a b) ++ (pq.map fun b => z.m b)

/-- `dP_dlam` of `cpf_p_jac` (cpf_p_jac.py:7-36). -/
def dPdlam (par : Par) (z : Tan B) (lam lamprv : ℝ) : ℝ :=
  match par with
  | .natural => if @decide (lamprv ≤ lam) (Classical.dec _) then 1 else -1
  | .arc => if @decide (lam = lamprv) (Classical.dec _) then 1 else 2 * (lam - lamprv)
  | .pseudo => z.l

/-- `mis = V * conj(Ybus.dot(V)) - Sbus - lam*Sxfr` (cpf_corrector.py:51, 115). -/
def misL (Y : Matrix B B ℂ) (S X : B → ℂ) (V : B → ℂ) (lam : ℝ) (b : B) : ℂ := V b * conj ((Y *ᵥ V) b) - S b - (lam : ℂ) * X b

/-- `F = r_[mis[pv].real, mis[pq].real, mis[pq].imag, P]` (cpf_corrector.py:52-58, 116-122). -/
def Faug (Y : Matrix B B ℂ) (S X : B → ℂ) (pv pq : List B) (V : B → ℂ) (lam P : ℝ) : List ℝ :=
  ((pv ++ pq).map fun b => (misL Y S X V lam b).re) ++ (pq.map fun b => (misL Y S X V lam b).im) ++ [P]

/-- `-r_[Sxfr[pvpq].real, Sxfr[pq].imag]` (cpf_corrector.py:89, cpf_predictor.py:34). -/
def dFdlam (X : B → ℂ) (pv pq : List B) : List ℝ := ((pv ++ pq).map fun b => -(X b).re) ++ (pq.map fun b => -(X b).im)

/-- The augmented Jacobian (cpf_corrector.py:77-96, cpf_predictor.py:22-41). -/
def jacAug (Y : Matrix B B ℂ) (X : B → ℂ) (pv pq : List B) (V : B → ℂ) (dV : List ℝ) (dlam : ℝ) : List (List ℝ) :=
  List.zipWith (fun row d => row ++ [d]) (jacobian Y pv pq V) (dFdlam X pv pq) ++ [dV ++ [dlam]]

/-! ## Corrector -/

/-- A point of the curve: voltages and lambda. -/
abbrev Pt (B : Type) := (B → ℂ) × ℝ

/-- The fixed data of a trace. -/
structure Net (B : Type) where
  Y : Matrix B B ℂ
  S : B → ℂ
  X : B → ℂ
  pv : List B
  pq : List B
  lin : LinSolver B
  tol : ℝ
  maxIt : Nat

/-- Previous point, tangent, step and parameterisation: what `cpf_p` needs besides the current point. -/
structure Param (B : Type) where
  par : Par
  step : ℝ
  z : Tan B
  prv : Pt B

/-- `cpf_p` at a point. -/
def Param.P (q : Param B) (n : Net B) (p : Pt B) : ℝ := cpfP q.par q.step q.z p.1 p.2 q.prv.1 q.prv.2 n.pv n.pq

/-- `normF < tol` (cpf_corrector.py:61-67, 125-129). -/
def corrOk (n : Net B) (q : Param B) : Option (Pt B) → Prop
  | none => False
  | some p => normInf (Faug n.Y n.S n.X n.pv n.pq p.1 p.2 (q.P n p)) < n.tol

/-- One Newton iteration (cpf_corrector.py:77-112); a solver result that is too short leaves lambda unchanged (the solver returns a vector
of the length of `F`). -/
def corrStep (n : Net B) (q : Param B) (p : Pt B) : Option (Pt B) :=
  (n.lin p.1 (jacAug n.Y n.X n.pv n.pq p.1 (dPdV q.par q.z p.1 q.prv.1 n.pv n.pq) (dPdlam q.par q.z p.2 q.prv.2))
      (Faug n.Y n.S n.X n.pv n.pq p.1 p.2 (q.P n p))).map fun x =>
    (newtonUpdate n.pv n.pq p.1 x, p.2 + -1 * (x.drop (n.pv.length + 2 * n.pq.length)).headD 0)

/-- `cpf_corrector` (cpf_corrector.py:15-137): point, converged, iterations. -/
def corrector (n : Net B) (q : Param B) (start : Option (Pt B)) : Option (Pt B) × Bool × Nat :=
  loop (corrOk n q) (fun s => s.bind (corrStep n q)) n.maxIt 0 start

/-! ## Predictor -/

/-- `x[idx] = d`; with a repeated index the last assignment wins. -/
def setAt (x : B → ℝ) (idx : List B) (d : List ℝ) : B → ℝ := fun b => ((idx.zip d).reverse.lookup b).getD (x b)

/-- `z[r_[pvpq, nb+pq, 2*nb]] = x` (cpf_predictor.py:49). -/
def setTan (z : Tan B) (pv pq : List B) (x : List ℝ) : Tan B :=
  ⟨setAt z.a (pv ++ pq) (x.take (pv.length + pq.length)), setAt z.m pq ((x.drop (pv.length + pq.length)).take pq.length),
    (x.drop (pv.length + 2 * pq.length)).headD z.l⟩

/-- `linalg.norm(z)`. -/
def Tan.norm (z : Tan B) : ℝ := Real.sqrt (∑ b, z.a b ^ 2 + ∑ b, z.m b ^ 2 + z.l ^ 2)

/-- `z / linalg.norm(z)` (cpf_predictor.py:50): not finite when `z` is zero. -/
def Tan.unit (z : Tan B) : Option (Tan B) :=
  if @decide (z.norm = 0) (Classical.dec _) then none else some ⟨fun b => z.a b / z.norm, fun b => z.m b / z.norm, z.l / z.norm⟩

/-- The predicted point (cpf_predictor.py:43-60). -/
def advance (pv pq : List B) (p : Pt B) (step : ℝ) (z : Tan B) : Pt B :=
  (polar (addAt (fun b => ‖p.1 b‖) pq (pq.map fun b => step * z.m b)) (addAt (fun b => (p.1 b).arg) (pv ++ pq) ((pv ++ pq).map fun b => step * z.a b)),
    p.2 + step * z.l)

/-- `cpf_predictor` (cpf_predictor.py:13-62). `s` has a one in the last place only. -/
def predictor (n : Net B) (p : Pt B) (step : ℝ) (z : Tan B) (prv : Pt B) (par : Par) : Option (Pt B × Tan B) := do
  let s := List.replicate (n.pv.length + 2 * n.pq.length) 0 ++ [1]
  let x ← n.lin p.1 (jacAug n.Y n.X n.pv n.pq p.1 (dPdV par z p.1 prv.1 n.pv n.pq) (dPdlam par z p.2 prv.2)) s
  let z' ← (setTan z n.pv n.pq x).unit
  pure (advance n.pv n.pq p step z', z')

/-! ## Tracing loop -/

/-- `CPF_STOP_AT` (ppoption.py:41-44). -/
inductive StopAt
  | full
  | nose
  | lam (target : ℝ)

/-- Step control of the loop: step size (`none`: not finite), parameterisation, `adapt_step`. -/
structure Ctl where
  step : Option ℝ
  par : Par
  adapt : Bool

/-- runcpf.py:213-247: `none` ends the trace, otherwise the step control for the next step (before adaptation). `step` is the step just
made; comparisons with a step that is not finite cannot arise, the corrector having converged. -/
def stopOrGo (stopAt : StopAt) (lam lamprv step : ℝ) (c : Ctl) : Option Ctl :=
  match stopAt with
  | .full =>
    if @decide (|lam| < 1 / 10 ^ 8) (Classical.dec _) then none
    else if @decide (lam < lamprv ∧ lam - step < 0) (Classical.dec _) then some ⟨some lam, .natural, false⟩
    else some c
  | .nose => if @decide (lam < lamprv) (Classical.dec _) then none else some c
  | .lam target =>
    if @decide (lam < lamprv) (Classical.dec _) then none
    else if @decide (|target - lam| < 1 / 10 ^ 8) (Classical.dec _) then none
    else if @decide (target < lam + step) (Classical.dec _) then some ⟨some (target - lam), .natural, false⟩
    else some c

/-- Division of finite floats: NaN is `none`. -/
def fdiv (a b : ℝ) : Option EReal :=
  if @decide (b = 0) (Classical.dec _) then
    (if @decide (0 < a) (Classical.dec _) then some ⊤ else if @decide (a < 0) (Classical.dec _) then some ⊥ else none)
  else some ((a / b : ℝ) : EReal)

/-- A finite number, or `none`. -/
def finite (x : EReal) : Option ℝ := if x = ⊤ ∨ x = ⊥ then none else some x.toReal

/-- Options of the step adaptation. -/
structure Adapt where
  errTol : ℝ
  stepMin : ℝ
  stepMax : ℝ

/-- The new step size (runcpf.py:254-263). -/
def adaptStep (o : Adapt) (err step : ℝ) : Option ℝ :=
  (fdiv (step * o.errTol) err).bind fun s =>
    if @decide (err < o.errTol) (Classical.dec _) then (if (o.stepMax : EReal) < s then some o.stepMax else finite s)
    else (if s < (o.stepMin : EReal) then some o.stepMin else finite s)

/-- `cpf_error` (runcpf.py:250-253). -/
def cpfError (pv pq : List B) (p p0 : Pt B) : ℝ :=
  normInf ((pq.map fun b => (p.1 b).arg - (p0.1 b).arg) ++ ((pv ++ pq).map fun b => ‖p.1 b‖ - ‖p0.1 b‖) ++ [p.2 - p0.2])

/-- runcpf.py:249-263. -/
def adaptCtl (o : Adapt) (pv pq : List B) (p p0 : Pt B) (c : Ctl) : Ctl :=
  if c.adapt then { c with step := c.step.bind fun s => adaptStep o (cpfError pv pq p p0) s } else c

/-- A history entry: predicted and corrected point (cpf_callbacks.py:64-70, 87-91). -/
structure Entry (B : Type) where
  p : Pt B
  c : Pt B

/-- State of the loop: current and previous point, tangent, step control, `cont_steps`, history. -/
structure St (B : Type) where
  cur : Pt B
  prv : Pt B
  z : Tan B
  ctl : Ctl
  k : Nat
  hist : List (Entry B)

/-- Outcome of one pass: continue, traced (success), or corrector failure; the last carries the corrector's iterations and the point it ended
at. -/
inductive Pass (B : Type)
  | next (s : St B)
  | done (s : St B)
  | fail (k : Nat) (i : Nat) (p : Option (Pt B))

/-- After a converged correction (runcpf.py:209-263). -/
def accept (n : Net B) (stopAt : StopAt) (o : Adapt) (s : St B) (step : ℝ) (p0 : Pt B) (z : Tan B) (p : Pt B) : Pass B :=
  let s' : St B := ⟨p, s.cur, z, s.ctl, s.k + 1, s.hist ++ [⟨p0, p⟩]⟩
  match stopOrGo stopAt p.2 s.cur.2 step s.ctl with
  | none => .done s'
  | some c => .next { s' with ctl := adaptCtl o n.pv n.pq p p0 c }

/-- The correction from a predicted point (runcpf.py:187-200). -/
def correct (n : Net B) (stopAt : StopAt) (o : Adapt) (s : St B) (step : ℝ) (p0 : Pt B) (z : Tan B) : Pass B :=
  let r := corrector n ⟨s.ctl.par, step, z, s.cur⟩ (some p0)
  match r.1, r.2.1 with
  | some p, true => accept n stopAt o s step p0 z p
  | p, _ => .fail (s.k + 1) r.2.2 p

/-- One pass of `while continuation` (runcpf.py:181-263). A step or prediction that is not finite makes the corrector fail after
`PF_MAX_IT` iterations. -/
def pass (n : Net B) (stopAt : StopAt) (o : Adapt) (s : St B) : Pass B :=
  match s.ctl.step with
  | none => .fail (s.k + 1) n.maxIt none
  | some step =>
    match predictor n s.cur step s.z s.prv s.ctl.par with
    | none => .fail (s.k + 1) n.maxIt none
    | some (p0, z) => correct n stopAt o s step p0 z

/-- The loop, for at most `fuel` passes; `none`: still running. -/
def trace (n : Net B) (stopAt : StopAt) (o : Adapt) : Nat → St B → Option (Pass B)
  | 0, _ => none
  | fuel + 1, s =>
    match pass n stopAt o s with
    | .next s' => trace n stopAt o fuel s'
    | r => some r

/-- The state on entering the loop (runcpf.py:138-180): the history has the base point. -/
def start (V : B → ℂ) (c : Ctl) : St B := ⟨(V, 0), (V, 0), ⟨0, 0, 1⟩, c, 0, [⟨(V, 0), (V, 0)⟩]⟩

/-- What the traced loop reports. -/
structure Report (B : Type) where
  success : Bool
  V : Option (B → ℂ)
  lam : Option ℝ
  iterations : Nat
  hist : List (Entry B)
  maxLam : Option ℝ

/-- `amax(cb_state["lam_c"])` (cpf_callbacks.py:50). -/
def maxLam (h : List (Entry B)) : Option ℝ := (h.map fun e => e.c.2).max?

/-- runcpf.py:266-273: on failure the history is not reported and `iterations` is that of the last corrector call. -/
def report : Pass B → Report B
  | .done s => ⟨true, some s.cur.1, some s.cur.2, s.k, s.hist, maxLam s.hist⟩
  | .next s => ⟨false, some s.cur.1, some s.cur.2, s.k, [], none⟩
  | .fail _ i p => ⟨false, p.map Prod.fst, p.map Prod.snd, i, [], none⟩

/-- The solver part of `runcpf` (runcpf.py:132-273) from the initial voltages; `none` is raising, `some none` is still running after `fuel`
passes. The base power flow may fail without being noticed; a base solution that is not finite makes the first prediction not finite.
With identical base and target (`Sxfr = 0`) the call raises: `i` is undefined if the base power flow failed (line 273), otherwise line
293 assigns a vector to a one-column table, which raises unless there is one bus (simplification: also taken as raising then). -/
def runcpf (n : Net B) (stopAt : StopAt) (o : Adapt) (c : Ctl) (V0 : B → ℂ) (fuel : Nat) : Option (Option (Report B)) := do
  let r ← newtonpf n.lin n.Y n.S V0 n.pv n.pq n.tol n.maxIt
  if @decide (n.X = 0) (Classical.dec _) then none
  else
    match r.V with
    | none => some (some (report (.fail 1 n.maxIt none)))
    | some V => some ((trace n stopAt o fuel (start V c)).map report)

end

end Verif.Cpf
