import Mathlib.Analysis.SpecialFunctions.Complex.Arg
import Verif.Derivs.Model

/-!
# Models of the AC power flow solvers

`pypower/newtonpf.py`, `pypower/gausspf.py`, `pypower/fdpf.py`.

`B` is the set of buses.  Bus lists are lists, as in the code; nothing is assumed about repetitions.  A voltage vector containing a NaN or an
infinity is `none`: once one appears at a PV or PQ bus the mismatch there is NaN, comparisons with it are false, and every later update keeps
it.  Raising is the outer `none` of the three solver functions.  Printing (`VERBOSE`) is not modelled.  `max_it` is a natural number.
-/

open Matrix ComplexConjugate

namespace Verif.Solvers

noncomputable section

variable {B : Type*} [Fintype B] [DecidableEq B]

/-- `mis = V * conj(Ybus * V) - Sbus` (newtonpf.py:68, 113; gausspf.py:58, 92; numerator of fdpf.py:59, 98, 122). -/
def mis (Y : Matrix B B ℂ) (S V : B → ℂ) (b : B) : ℂ := V b * conj ((Y *ᵥ V) b) - S b

/-- `linalg.norm(F, inf)` of a real vector; the code's `norm` raises on an empty vector, which the solvers below test for. -/
def normInf (F : List ℝ) : ℝ := F.foldr (fun x acc => max |x| acc) 0

/-- `F = r_[mis[pv].real, mis[pq].real, mis[pq].imag]` (newtonpf.py:69-71, 114-116; gausspf.py:59-60, 93-95). -/
def Fvec (Y : Matrix B B ℂ) (S : B → ℂ) (pv pq : List B) (V : B → ℂ) : List ℝ :=
  (pv.map fun b => (mis Y S V b).re) ++ (pq.map fun b => (mis Y S V b).re) ++ (pq.map fun b => (mis Y S V b).im)

/-- `x[idx] = x[idx] + d` (newtonpf.py:103-106, fdpf.py:94, 118): with a repeated index the last assignment wins. -/
def addAt (x : B → ℝ) (idx : List B) (d : List ℝ) : B → ℝ := fun b =>
  match (idx.zip d).reverse.lookup b with
  | some e => x b + e
  | none => x b

/-- `Vm * exp(1j * Va)` (newtonpf.py:107, fdpf.py:95, 119). -/
def polar (Vm Va : B → ℝ) (b : B) : ℂ := (Vm b : ℂ) * Complex.exp (Complex.I * (Va b : ℂ))

/-- What a solver returns: voltages (`none`: not all finite), the convergence flag, the number of iterations. -/
structure Res (B : Type*) where
  V : Option (B → ℂ)
  converged : Bool
  i : Nat

/-! ## Newton -/

/-- `J` (newtonpf.py:86-96): rows are lists, `pvpq` angles first, then `pq` magnitudes.  Where a voltage is zero the code's `V / abs(V)` is NaN;
here it is zero, and the linear solver below, which may return anything, also gets `V`. -/
def jacobian (Y : Matrix B B ℂ) (pv pq : List B) (V : B → ℂ) : List (List ℝ) :=
  ((pv ++ pq).map fun i => ((pv ++ pq).map fun j => (Derivs.dSbus_dVa Y V i j).re) ++ (pq.map fun j => (Derivs.dSbus_dVm Y V i j).re)) ++
  (pq.map fun i => ((pv ++ pq).map fun j => (Derivs.dSbus_dVa Y V i j).im) ++ (pq.map fun j => (Derivs.dSbus_dVm Y V i j).im))

/-- A linear solver: `pplinsolve` with the current voltages; any function; `none` is a vector that is not finite. -/
abbrev LinSolver (B : Type*) := (B → ℂ) → List (List ℝ) → List ℝ → Option (List ℝ)

/-- Voltage update from `dx = -1 * pplinsolve(J, F)` (newtonpf.py:99-109); `x` is the value of `pplinsolve`. -/
def newtonUpdate (pv pq : List B) (V : B → ℂ) (x : List ℝ) : B → ℂ :=
  let dx := x.map fun e => -1 * e
  let Va := fun b => (V b).arg
  let Vm := fun b => ‖V b‖
  let npv := pv.length
  let npq := pq.length
  let Va := if npv ≠ 0 then addAt Va pv (dx.take npv) else Va
  let Va := if npq ≠ 0 then addAt Va pq ((dx.drop npv).take npq) else Va
  let Vm := if npq ≠ 0 then addAt Vm pq ((dx.drop (npv + npq)).take npq) else Vm
  polar Vm Va

/-- One pass of the Newton loop without the convergence check (newtonpf.py:81-109). -/
def newtonStep (lin : LinSolver B) (Y : Matrix B B ℂ) (S : B → ℂ) (pv pq : List B) (V : B → ℂ) : Option (B → ℂ) :=
  (lin V (jacobian Y pv pq V) (Fvec Y S pv pq V)).map (newtonUpdate pv pq V)

/-- `normF < tol` (newtonpf.py:75-80, 119-123): false when a NaN is present. -/
def newtonOk (Y : Matrix B B ℂ) (S : B → ℂ) (pv pq : List B) (tol : ℝ) : Option (B → ℂ) → Prop
  | none => False
  | some V => normInf (Fvec Y S pv pq V) < tol

/-- A solver loop `while not converged and i < max_it` (newtonpf.py:83-126, gausspf.py:72-103); `n` is `max_it - i`. -/
def loop {σ : Type*} (ok : σ → Prop) (step : σ → σ) : Nat → Nat → σ → σ × Bool × Nat
  | 0, i, s => (s, @decide (ok s) (Classical.dec _), i)
  | n + 1, i, s => if @decide (ok s) (Classical.dec _) then (s, true, i) else loop ok step n (i + 1) (step s)

/-- `newtonpf(Ybus, Sbus, V0, ref, pv, pq, ppopt)` (newtonpf.py:19-134). -/
def newtonpf (lin : LinSolver B) (Y : Matrix B B ℂ) (S V0 : B → ℂ) (pv pq : List B) (tol : ℝ) (maxIt : Nat) : Option (Res B) :=
  if pv = [] ∧ pq = [] then none
  else
    let r := loop (newtonOk Y S pv pq tol) (fun V => V.bind (newtonStep lin Y S pv pq)) maxIt 0 (some V0)
    some ⟨r.1, r.2.1, r.2.2⟩

/-! ## Gauss-Seidel -/

/-- The bus update of lines 78-79 and 86-87 of gausspf.py.  Division by zero gives NaN or infinity. -/
def gaussBus (Y : Matrix B B ℂ) (S : B → ℂ) (V : B → ℂ) (k : B) : Option (B → ℂ) :=
  if V k = 0 ∨ Y k k = 0 then none
  else some (Function.update V k (V k + (conj (S k / V k) - (Y *ᵥ V) k) / Y k k))

/-- State of the Gauss-Seidel loop: voltages and the (mutated) injection vector. -/
structure GS (B : Type*) where
  V : Option (B → ℂ)
  S : B → ℂ

/-- One PQ bus (gausspf.py:77-79). -/
def gaussPQ (Y : Matrix B B ℂ) (st : GS B) (k : B) : GS B := { st with V := st.V.bind fun V => gaussBus Y st.S V k }

/-- `Sbus[k] = Sbus[k].real + 1j * tmp` for finite voltages (gausspf.py:84-85). -/
def setQ (Y : Matrix B B ℂ) (S V : B → ℂ) (k : B) : B → ℂ :=
  Function.update S k (((S k).re : ℂ) + Complex.I * (((V k * conj ((Y *ᵥ V) k)).im : ℝ) : ℂ))

/-- The PV update of lines 83-87 for finite voltages. -/
def gaussPVat (Y : Matrix B B ℂ) (S V : B → ℂ) (k : B) : GS B := ⟨gaussBus Y (setQ Y S V k) V k, setQ Y S V k⟩

/-- One PV bus (gausspf.py:83-87): writes the imaginary part of `Sbus[k]` first.  When the voltages are already not finite the written value is not
finite either and is left out; nothing later depends on it. -/
def gaussPV (Y : Matrix B B ℂ) (st : GS B) (k : B) : GS B :=
  match st.V with
  | none => st
  | some V => gaussPVat Y st.S V k

/-- `V[pv] = Vm[pv] * V[pv] / abs(V[pv])` (gausspf.py:89). -/
def renorm (Vm : B → ℝ) (pv : List B) (V : B → ℂ) : Option (B → ℂ) :=
  if ∃ k ∈ pv, V k = 0 then none
  else some fun b => if b ∈ pv then (Vm b : ℂ) * V b / (‖V b‖ : ℂ) else V b

/-- One Gauss-Seidel sweep (gausspf.py:75-89). -/
def gaussStep (Y : Matrix B B ℂ) (Vm : B → ℝ) (pv pq : List B) (st : GS B) : GS B :=
  let st := pq.foldl (gaussPQ Y) st
  let st := pv.foldl (gaussPV Y) st
  { st with V := st.V.bind (renorm Vm pv) }

/-- `gausspf(Ybus, Sbus, V0, ref, pv, pq, ppopt)` (gausspf.py:15-116); the second component is the caller's `Sbus` afterwards. -/
def gausspf (Y : Matrix B B ℂ) (S V0 : B → ℂ) (pv pq : List B) (tol : ℝ) (maxIt : Nat) : Option (Res B × (B → ℂ)) :=
  if pv = [] ∧ pq = [] then none
  else
    let r := loop (fun st : GS B => newtonOk Y st.S pv pq tol st.V) (gaussStep Y (fun b => ‖V0 b‖) pv pq) maxIt 0 ⟨some V0, S⟩
    some (⟨r.1.V, r.2.1, r.2.2⟩, r.1.S)

/-! ## Fast decoupled -/

/-- State of the fast-decoupled loop: angles, magnitudes (`none`: not finite). -/
abbrev FD (B : Type*) := Option ((B → ℝ) × (B → ℝ))

/-- `normP < tol and normQ < tol` with `mis = (V * conj(Ybus * V) - Sbus) / Vm` (fdpf.py:59-72, 98-110, 122-134).  A zero magnitude makes an entry NaN or infinite. -/
def fdOk (Y : Matrix B B ℂ) (S : B → ℂ) (pv pq : List B) (tol : ℝ) : FD B → Prop
  | none => False
  | some (Va, Vm) => (∀ b ∈ pv ++ pq, Vm b ≠ 0) ∧
      normInf ((pv ++ pq).map fun b => (mis Y S (polar Vm Va) b / (Vm b : ℂ)).re) < tol ∧
      normInf (pq.map fun b => (mis Y S (polar Vm Va) b / (Vm b : ℂ)).im) < tol

/-- `Bp_solver.solve` / `Bpp_solver.solve`: any function of the mismatches; `none` when the result is not finite. -/
abbrev BSolver := List ℝ → Option (List ℝ)

/-- P half-iteration (fdpf.py:90-95). -/
def pHalf (Y : Matrix B B ℂ) (S : B → ℂ) (pv pq : List B) (solve : BSolver) (st : FD B) : FD B :=
  st.bind fun s =>
    if ∃ b ∈ pv ++ pq, s.2 b = 0 then none
    else (solve ((pv ++ pq).map fun b => (mis Y S (polar s.2 s.1) b / (s.2 b : ℂ)).re)).map fun x =>
      (addAt s.1 (pv ++ pq) (x.map fun e => -e), s.2)

/-- Q half-iteration (fdpf.py:114-119). -/
def qHalf (Y : Matrix B B ℂ) (S : B → ℂ) (pv pq : List B) (solve : BSolver) (st : FD B) : FD B :=
  st.bind fun s =>
    if ∃ b ∈ pv ++ pq, s.2 b = 0 then none
    else (solve (pq.map fun b => (mis Y S (polar s.2 s.1) b / (s.2 b : ℂ)).im)).map fun x =>
      (s.1, addAt s.2 pq (x.map fun e => -e))

/-- The loop of fdpf.py:84-137, entered when not converged; `n` is `max_it - i`. -/
def fdLoop (ok : FD B → Prop) (pStep qStep : FD B → FD B) : Nat → Nat → FD B → FD B × Bool × Nat
  | 0, i, s => (s, false, i)
  | n + 1, i, s =>
    if @decide (ok (pStep s)) (Classical.dec _) then (pStep s, true, i + 1)
    else if @decide (ok (qStep (pStep s))) (Classical.dec _) then (qStep (pStep s), true, i + 1)
    else fdLoop ok pStep qStep n (i + 1) (qStep (pStep s))

/-- `fdpf(Ybus, Sbus, V0, Bp, Bpp, ref, pv, pq, ppopt)` (fdpf.py:16-142).  `norm` of an empty `Q` raises, so does `splu` of a singular reduced matrix
(`okB = false`), even when the start is converged.  The initial voltages are returned as they are when the start is converged. -/
def fdpf (Y : Matrix B B ℂ) (S V0 : B → ℂ) (okB : Bool) (solveP solveQ : BSolver) (pv pq : List B) (tol : ℝ) (maxIt : Nat) : Option (Res B) :=
  if pq = [] then none
  else if okB = false then none
  else
    let s0 : FD B := some (fun b => (V0 b).arg, fun b => ‖V0 b‖)
    if @decide (fdOk Y S pv pq tol s0) (Classical.dec _) then some ⟨some V0, true, 0⟩
    else
      let r := fdLoop (fdOk Y S pv pq tol) (pHalf Y S pv pq solveP) (qHalf Y S pv pq solveQ) maxIt 0 s0
      some ⟨r.1.map fun s => polar s.2 s.1, r.2.1, r.2.2⟩

end

end Verif.Solvers
