import Verif.Runpf.TableCore

/-!
# C87: what `runpf` returns, in the caller's numbering
-/

open ComplexConjugate

namespace Verif.Runpf

open Verif.Opf (Tables readCase Upd write Off zeroOff Bridge BusD GenD BrD genAt fromAt toAt dcBalance acBalanceP acBalanceQ asBranch rowPhasor)
open Verif.Index (BusRow GenRow BranchRow IsArgsort WF GenInService BranchInService Connected)
open Verif.Network Verif.Solvers Verif.Pfsoln

/-- The tolerance at a bus: `PF_TOL`, scaled by the voltage magnitude in the fast-decoupled methods (they test mismatches divided by it). -/
noncomputable def tolAt (o : PfOpt) (vm : ℝ) : ℝ := if o.alg = 2 ∨ o.alg = 3 then o.tol * vm else o.tol

/-- Every algorithm meets the common guarantee. -/
theorem pick_guarantee {nb nl ng : ℕ} (o : PfOpt) (lib : PfLib) (p : Case (Fin nb) (Fin nl) ng) (hd : ∀ b ∈ p.pq, b ∉ p.pv) :
    Guarantee (pickSolver o lib p) (Ybus p.baseMVA p.bus p.branch) p.pv p.pq fun V b => tolAt o ‖V b‖ := by
  unfold pickSolver tolAt
  by_cases h1 : o.alg = 1
  · simp only [h1, if_true, show ¬ ((1 : Int) = 2 ∨ (1 : Int) = 3) by decide, if_false]
    exact newton_guarantee _ _ _ _ _ _
  · by_cases h2 : o.alg = 2 ∨ o.alg = 3
    · simp only [h1, if_false, h2, if_true]
      exact fd_guarantee _ _ _ _ _ _ _ _
    · by_cases h4 : o.alg = 4
      · simp only [h4, show ¬ ((4 : Int) = 1) by decide, if_false, show ¬ ((4 : Int) = 2 ∨ (4 : Int) = 3) by decide, if_true]
        exact gauss_guarantee _ _ _ hd _ _
      · simp only [h1, h2, h4, if_false]
        exact ⟨fun _ _ _ h => by simp at h, fun _ _ _ _ h => by simp at h, fun _ _ _ _ h => by simp at h, fun _ _ _ _ h => by simp at h⟩

section ac
variable {srt : List ℕ → List ℕ} (hs : IsArgsort srt) {base : ℝ} (hb : 0 < base) {o : PfOpt} {lib : PfLib} {c : Index.Case Tables} (h : WF c)
  {ok : Bool} {R : Index.Case Tables} (hrun : runpfAc srt base o lib c = some ⟨ok, some R⟩)

include hs h hrun in
theorem ac_bridge : ∃ (nb ng nl : ℕ) (p : Case (Fin nb) (Fin nl) ng) (s : Out (Fin nb) (Fin nl) ng) (bp : Fin nb → ℕ) (gp : Fin ng → ℕ) (lp : Fin nl → ℕ),
    PfBridge c R base p (acUpd s) bp gp lp ∧ runAC o.EPS o.viol o.qlim (pickSolver o lib p) p = some (.ok s) ∧ s.success = ok := by
  unfold runpfAc at hrun
  simp only [Option.bind_eq_bind, Option.bind_eq_some_iff] at hrun
  obtain ⟨c', hc', p, hp, q, hq, e⟩ := hrun
  cases q with
  | nan s => simp at e
  | ok s =>
    simp only [Option.map_eq_some_iff, PfRet.mk.injEq, Option.some.injEq] at e
    obtain ⟨r, hr, e1, rfl⟩ := e
    obtain ⟨bp, gp, lp, B⟩ := pf_bridge hs h hc' hp _ hr
    exact ⟨_, _, _, p, s, bp, gp, lp, B, hq, e1⟩

include hs h hrun hb

/-- **C87 (AC balance).**  In the tables of a successful AC power flow, with any of the algorithms and in the caller's own numbering: at every connected bus active generation, demand,
shunt and flows over *all* rows balance within the tolerance, exactly at slack buses; reactive ones balance within the tolerance at buses without a generator in service. -/
theorem C87_ac (hok : ok = true) : ∀ (i : ℕ) b, R.bus[i]? = some b → b.typ ≠ 4 →
    (¬ IsSlack c i → |acBalanceP R b| < tolAt o b.data.VM * base) ∧ (IsSlack c i → acBalanceP R b = 0) ∧
    (¬ HasGenOn c b.num → |acBalanceQ R b| < tolAt o b.data.VM * base) := by
  obtain ⟨nb, ng, nl, p, s, bp, gp, lp, B, hr, hsucc⟩ := ac_bridge hs h hrun
  exact core_balance h (acUpd_writes s) B hr (pick_guarantee o lib p B.disjoint) hb (by rw [hsucc, hok])

/-- **C87 (AC, reactive balance at generator buses).**  There the generators in service supply what is needed, up to the machine epsilon in the sharing rule: exactly when the limits of
the generators add up to the same, else with a relative error of `EPS`.  `need` is demand + flows − shunt. -/
theorem C87_ac_reactive (hok : ok = true) : ∀ (i : ℕ) b, R.bus[i]? = some b → HasGenOn c b.num →
    let lo := genOnAt c b.num GenD.QMIN
    let hi := genOnAt c b.num GenD.QMAX
    let need := genAt R b.num GenD.QG - acBalanceQ R b
    (acBalanceQ R b = 0 ∨ lo ≠ hi ∧ acBalanceQ R b = (lo - need) * (1 - (hi - lo) / (hi - lo + o.EPS))) ∧
    (0 ≤ o.EPS → lo ≤ hi → |acBalanceQ R b| * (hi - lo) ≤ |need - lo| * o.EPS) := by
  obtain ⟨nb, ng, nl, p, s, bp, gp, lp, B, hr, hsucc⟩ := ac_bridge hs h hrun
  exact core_reactive h (acUpd_writes s) B hr (pick_guarantee o lib p B.disjoint) hb (by rw [hsucc, hok])

omit hb in
/-- **C87 (AC voltages).**  Successful or not: at a bus whose voltage is controlled the magnitude is the set point of one of the generators in service there, and at a slack bus the angle
is the given one too (angles compared as phasors). -/
theorem C87_ac_voltages : ∀ (i : ℕ) b b0, R.bus[i]? = some b → c.bus[i]? = some b0 → IsControlled c i →
    ∃ g ∈ c.gen, GenInService c g ∧ g.bus = b.num ∧ b.data.VM = |g.data.VG| ∧
      (IsSlack c i → 0 < b0.data.VM → 0 ≤ g.data.VG → rowPhasor b = rowPhasor { b0 with data := { b0.data with VM := g.data.VG } }) := by
  obtain ⟨nb, ng, nl, p, s, bp, gp, lp, B, hr, hsucc⟩ := ac_bridge hs h hrun
  exact core_voltages (acUpd_writes s) B hr (pick_guarantee o lib p B.disjoint)

omit hb in
/-- **C87 (AC, dispatch).**  Only slack generation is changed: the active output of every generator in service keeps its given value, except for one generator at each slack bus. -/
theorem C87_ac_dispatch : ∃ slackGen : ℕ → ℕ, ∀ (j : ℕ) g g0, R.gen[j]? = some g → c.gen[j]? = some g0 → GenInService c g0 → g.data.PG ≠ g0.data.PG →
    ∃ (i : ℕ) (b : BusRow BusD), c.bus[i]? = some b ∧ IsSlack c i ∧ b.num = g0.bus ∧ slackGen i = j := by
  obtain ⟨nb, ng, nl, p, s, bp, gp, lp, B, hr, hsucc⟩ := ac_bridge hs h hrun
  exact core_dispatch (acUpd_writes s) B hr

omit hb in
/-- **C87 (AC flows).**  Successful or not: the flows of every branch in service are those of the branch model at the returned voltages of its end buses. -/
theorem C87_ac_flows : ∀ l ∈ R.branch, BranchInService R l → l.status = 1 → (l.data.r : ℂ) + Complex.I * l.data.x ≠ 0 →
    ∀ bf ∈ R.bus, bf.num = l.f → ∀ bt ∈ R.bus, bt.num = l.t →
    ∃ If It : ℂ, PiModel (asBranch l) (rowPhasor bf) (rowPhasor bt) If It ∧
      (l.data.PF : ℂ) + Complex.I * l.data.QF = rowPhasor bf * conj If * base ∧ (l.data.PT : ℂ) + Complex.I * l.data.QT = rowPhasor bt * conj It * base := by
  obtain ⟨nb, ng, nl, p, s, bp, gp, lp, B, hr, hsucc⟩ := ac_bridge hs h hrun
  exact core_flows h (acUpd_writes s) B hr

omit hb in
/-- **C87 (AC, inputs).**  Successful or not: the rows and their order, the bus numbers, types, statuses, demands, limits, set points and every other column except voltages, outputs
and flows come back unchanged; outputs and flows of equipment out of service are zero. -/
theorem C87_ac_inputs :
    R.bus.map pfBusInput = c.bus.map pfBusInput ∧ R.gen.map pfGenInput = c.gen.map pfGenInput ∧ R.branch.map pfBranchInput = c.branch.map pfBranchInput ∧
    (∀ g ∈ R.gen, ¬ GenInService R g → g.data.PG = 0 ∧ g.data.QG = 0) ∧
    (∀ l ∈ R.branch, ¬ BranchInService R l → l.data.PF = 0 ∧ l.data.QF = 0 ∧ l.data.PT = 0 ∧ l.data.QT = 0) := by
  obtain ⟨nb, ng, nl, p, s, bp, gp, lp, B, -⟩ := ac_bridge hs h hrun
  obtain ⟨d, D, -⟩ := B.bridge
  exact D.kept (fun _ _ => rfl) (fun _ _ => rfl) (fun _ _ => rfl) (fun _ => ⟨rfl, rfl, rfl⟩) (fun _ => ⟨rfl, rfl, rfl, rfl, rfl⟩)

end ac

/-- **C87 (no false success).**  A run whose results are not finite is not reported as a success. -/
theorem C87_ac_finite {srt : List ℕ → List ℕ} (hs : IsArgsort srt) {base : ℝ} {o : PfOpt} {lib : PfLib} {c : Index.Case Tables} (h : WF c) {ok : Bool}
    (hrun : runpfAc srt base o lib c = some ⟨ok, none⟩) : ok = false := by
  unfold runpfAc at hrun
  simp only [Option.bind_eq_bind, Option.bind_eq_some_iff] at hrun
  obtain ⟨c', hc', p, hp, q, hq, e⟩ := hrun
  cases q with
  | nan s =>
    simp only [Option.some.injEq, PfRet.mk.injEq, and_true] at e
    subst e
    obtain ⟨c2, d2, he2, -, hw⟩ := Opf.bridge_exists hs base h
    rw [hc'] at he2; cases he2
    obtain ⟨r, hr⟩ := hw ⟨fun _ b => b, fun _ g => g, fun _ l => l⟩
    obtain ⟨bp, gp, lp, B⟩ := pf_bridge hs h hc' hp _ hr
    exact C70_no_false_success (pick_guarantee o lib p B.disjoint) hq
  | ok s => simp at e

end Verif.Runpf
