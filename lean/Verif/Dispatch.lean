/-!
# Solver dispatch (pypower/qps_pypower.py:147-206, opf_execute.py:60-93)

Which solver an algorithm code reaches.  Property C37 of `properties.jsonl`.
-/

namespace Verif.Dispatch

/-- The QP/LP solvers. -/
inductive Solver where
  | bpmpd | pips (stepControl : Bool) | mips | ipopt | cplex | mosek | gurobi
deriving DecidableEq, Repr

/-- Availability of the optional packages (`have_fcn`, qps_pypower.py:158-162). -/
structure Avail where
  cplex : Bool
  mosek : Bool
  gurobi : Bool

/-- Code chosen for `alg = 0` (qps_pypower.py:157-165). -/
def autoAlg (a : Avail) : Int := if a.cplex then 500 else if a.mosek then 600 else if a.gurobi then 700 else 200

/-- The branches after `alg` is known (qps_pypower.py:168-201): `elif 700:` is always true (line 197), so the final `else` with its
error message is never reached. -/
def dispatchAlg (alg : Int) : Option Solver :=
  if alg = 200 ∨ alg = 250 then some (.pips (alg = 250))
  else if alg = 400 then some .ipopt
  else if alg = 500 then some .cplex
  else if alg = 600 then some .mosek
  else if (700 : Int) ≠ 0 then some .gurobi
  else none

/-- `qps_pypower` (qps_pypower.py:147-206); `none` would be the rejection branch. -/
def qps (a : Avail) (alg : Int) : Option Solver := dispatchAlg (if alg = 0 then autoAlg a else alg)

/-- The solver each documented code should reach (doc string, qps_pypower.py:45-57); `none` for codes that are not documented. -/
def documented : Int → Option Solver
  | 100 => some .bpmpd
  | 200 => some (.pips false)
  | 250 => some (.pips true)
  | 300 => some .mips
  | 400 => some .ipopt
  | 500 => some .cplex
  | 600 => some .mosek
  | 700 => some .gurobi
  | _ => none

/-- The documented meaning of code 0 (qps_pypower.py:46-47): the first available of CPLEX, Gurobi, PIPS (BPMPD_MEX is never available in Python). -/
def firstOf (a : Avail) : Option Solver := if a.cplex then some .cplex else if a.gurobi then some .gurobi else some (.pips false)

/-- What `opf_execute` does with an AC algorithm code. -/
inductive AcSolver where
  | pips (stepControl : Bool) | ipopt
deriving DecidableEq, Repr

/-- `if alg == a | alg == b:` is parsed as the chained comparison `alg == (a | alg) == b` (opf_execute.py:68, 70, 72, 74). -/
def chained (a b alg : Nat) : Bool := alg == (a ||| alg) && (a ||| alg) == b

/-- The mapping of deprecated codes (opf_execute.py:68-75). -/
def updateAlg (alg : Nat) : Nat :=
  if chained 100 200 alg then 300
  else if chained 120 220 alg then 320
  else if chained 140 240 alg then 340
  else if chained 160 260 alg then 360
  else alg

/-- `opf_execute` for an AC problem (opf_execute.py:63-91).  `none`: the "not a valid algorithm code" branch, after which reading
the unbound `raw` (line 93) raises.  The step control flag is computed from `OPF_ALG` in pipsopf_solver.py:77.
Simplification: the availability of the `pyipopt` package is not modelled. -/
def opfAc (alg0 : Nat) : Option AcSolver :=
  let alg := updateAlg (if alg0 = 0 then 560 else alg0)
  if alg = 560 ∨ alg = 565 then some (.pips (alg0 = 565))
  else if alg = 580 then some .ipopt
  else none

/-- **C37 (negation).**  No code whatsoever is rejected by `qps_pypower`; every code other than the five it recognises is handed to
Gurobi — undocumented codes as well as the documented codes 100 (BPMPD) and 300 (Optimization Toolbox). -/
theorem C37_negation (a : Avail) :
    (∀ alg, qps a alg ≠ none) ∧
    (∀ alg, alg ∉ [0, 200, 250, 400, 500, 600] → qps a alg = some .gurobi) ∧
    (∃ alg, documented alg = none ∧ alg ≠ 0 ∧ qps a alg = some .gurobi) ∧
    (documented 100 = some .bpmpd ∧ qps a 100 = some .gurobi) ∧
    (documented 300 = some .mips ∧ qps a 300 = some .gurobi) := by
  refine ⟨?_, ?_, ⟨7, by decide, by decide, rfl⟩, ⟨by decide, rfl⟩, by decide, rfl⟩
  · intro alg
    unfold qps dispatchAlg
    generalize (if alg = 0 then autoAlg a else alg) = t
    split <;> (try simp)
    split <;> (try simp)
    split <;> (try simp)
    split <;> simp
  · intro alg h
    simp only [List.mem_cons, List.not_mem_nil, or_false, not_or] at h
    obtain ⟨h0, h1, h2, h3, h4, h5⟩ := h
    simp [qps, dispatchAlg, h0, h1, h2, h3, h4, h5]

/-- **C37 (partial).**  The documented codes other than 100 and 300 do reach their own solver (200 and 250 the plain and the
step-controlled PIPS), and code 0 reaches CPLEX, MOSEK or Gurobi only if that package is available and PIPS otherwise; it reaches the first available of the
documented order CPLEX, Gurobi, PIPS (qps_pypower.py:46-47) if MOSEK is not available or CPLEX is. -/
theorem C37_partial (a : Avail) :
    (∀ alg s, documented alg = some s → alg ≠ 100 → alg ≠ 300 → qps a alg = some s) ∧
    (qps a 0 = some .cplex → a.cplex = true) ∧ (qps a 0 = some .mosek → a.mosek = true) ∧
    (qps a 0 = some .gurobi → a.gurobi = true) ∧
    (a.cplex = false → a.mosek = false → a.gurobi = false → qps a 0 = some (.pips false)) ∧
    (a.mosek = false ∨ a.cplex = true → qps a 0 = firstOf a) := by
  refine ⟨?_, ?_, ?_, ?_, ?_, ?_⟩
  · intro alg s h h1 h3
    unfold documented at h
    split at h <;> first | contradiction | (simp at h; subst h; simp [qps, dispatchAlg])
  all_goals
    obtain ⟨x, y, z⟩ := a
    cases x <;> cases y <;> cases z <;> simp [qps, dispatchAlg, autoAlg, firstOf]

/-- **C37 (negation, code 0).**  With MOSEK and Gurobi but not CPLEX, code 0 does not reach the first available solver of the documented order. -/
theorem C37_auto_negation : firstOf ⟨false, true, true⟩ = some .gurobi ∧ qps ⟨false, true, true⟩ 0 = some .mosek := ⟨rfl, rfl⟩

theorem chained_false (a b alg : Nat) (h : a ||| b ≠ b) : chained a b alg = false := by
  unfold chained
  by_cases h1 : (a ||| alg) = b
  · by_cases h2 : alg = a ||| alg
    · exfalso
      apply h
      rw [h1] at h2
      rw [h2] at h1
      exact h1
    · simp [h2]
  · simp [h1]

/-- **C37 (AC codes).**  For the AC OPF an algorithm code is accepted exactly if it is 0, 560, 565 (PIPS, step control exactly for 565) or 580
(IPOPT); every other code — in particular each deprecated code the source means to translate — is rejected. -/
theorem C37_ac (alg : Nat) :
    (opfAc alg = some (.pips true) ↔ alg = 565) ∧ (opfAc alg = some (.pips false) ↔ alg = 0 ∨ alg = 560) ∧
    (opfAc alg = some .ipopt ↔ alg = 580) ∧ (opfAc alg = none ↔ alg ∉ [0, 560, 565, 580]) := by
  have h : ∀ t, updateAlg t = t := by
    intro t
    simp [updateAlg, chained_false 100 200 t (by decide), chained_false 120 220 t (by decide),
      chained_false 140 240 t (by decide), chained_false 160 260 t (by decide)]
  unfold opfAc
  rw [h]
  by_cases h0 : alg = 0
  · subst h0; decide
  · by_cases h1 : alg = 560
    · subst h1; decide
    · by_cases h2 : alg = 565
      · subst h2; decide
      · by_cases h3 : alg = 580
        · subst h3; decide
        · simp [h0, h1, h2, h3]

/-- Hypotheses of `C37_partial` and `C37_negation` are met, e.g. by codes 250 and 999. -/
example : documented 250 = some (.pips true) ∧ (999 : Int) ∉ [0, 200, 250, 400, 500, 600] := by decide

end Verif.Dispatch
