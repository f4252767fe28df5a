import Verif.Opf.EconProps
import Verif.UnitOpf.Lemmas

/-!
# C123: unit decommitment on the tables of a case
-/

namespace Verif.UnitOpf

open Verif.Index (BusRow GenRow BranchRow IsArgsort WF GenInService BranchInService Connected)
open Verif.Opf Verif.Pips Verif.OpfModel Verif.Network

/-! ### The search -/

section search
variable {opf : Index.Case Tables → Option Ret} {c : Index.Case Tables} {n : ℕ}

/-- **C123 (refused).**  If the lower limits of the generators add up to more than the load, `uopf` raises, whatever the optimal power flow. -/
theorem C123_refused (h : loadCapacity c < sumPmin c) : uopf opf c n = .raised := by
  unfold uopf; rw [if_pos h]

/-- **C123 (returned).**  A returned result is that of the best of the cases looked at: the units shut down (`off`) were in service with positive lower limits; all other
inputs are the caller's; it was reached by shutting down one unit after the other, each time the one that makes the result cheapest; shutting down one more unit at a
binding lower limit does not give a successful result that is cheaper. -/
theorem C123_returned (hk : Keeps opf) (hw : WF c) {r : Ret} (h : uopf opf c n = .done r) : sumPmin c ≤ loadCapacity c ∧
    ∃ off, Best opf c off r ∧ Committed c off r.tables.bus r.tables.gen ∧ ∀ k t, Trial opf c r k t → t.success = true → r.f ≤ t.f := by
  unfold uopf at h
  split_ifs at h with hcap
  refine ⟨not_lt.1 hcap, ?_⟩
  cases ho : opf c with
  | none => simp [ho] at h
  | some r0 =>
    simp only [ho] at h
    obtain ⟨off, -, h1, h2⟩ := stages_spec opf c n ∅ r0 r (.start ho) h
    obtain ⟨-, -, -, -, h3, -⟩ := best_case hk hw h1
    exact ⟨off, h1, h3, h2⟩

/-- **C123 (objective).**  It is the result of the plain optimal power flow, or a successful one that is strictly cheaper. -/
theorem C123_objective {off : Finset ℕ} {r r0 : Ret} (h : Best opf c off r) (h0 : opf c = some r0) :
    r.f ≤ r0.f ∧ (off = ∅ ∧ r = r0 ∨ off.Nonempty ∧ r.success = true ∧ r.f < r0.f) := by
  induction h with
  | start h => rw [h0] at h; cases h; exact ⟨le_refl _, Or.inl ⟨rfl, rfl⟩⟩
  | shut hb htr hs hlt hmin ih =>
    exact ⟨hlt.le.trans ih.1, Or.inr ⟨Finset.insert_nonempty _ _, hs, lt_of_lt_of_le hlt ih.1⟩⟩

/-- **C123 (success is kept).**  If the plain optimal power flow succeeds, so does the unit decommitment.  If the result is not successful it is the plain one, and a
successful trial was passed over because the objective of the failed run was not higher. -/
theorem C123_success (hk : Keeps opf) (hw : WF c) {r r0 : Ret} (h : uopf opf c n = .done r) (h0 : opf c = some r0) :
    (r0.success = true → r.success = true) ∧
    (r.success = false → r = r0 ∧ ∀ k t, Trial opf c r0 k t → t.success = true → r0.f ≤ t.f) := by
  obtain ⟨-, off, h1, -, h2⟩ := C123_returned hk hw h
  rcases (C123_objective h1 h0).2 with ⟨-, rfl⟩ | ⟨-, h3, -⟩
  · exact ⟨id, fun _ => ⟨rfl, h2⟩⟩
  · exact ⟨fun _ => h3, fun h4 => by rw [h3] at h4; cases h4⟩

/-- **C123 (ends).**  The search ends after at most one more stage than there are generators. -/
theorem C123_ends (hk : Keeps opf) (hw : WF c) (hn : c.gen.length < n) : uopf opf c n ≠ .running := by
  unfold uopf
  split_ifs with hcap
  · simp
  · cases ho : opf c with
    | none => simp
    | some r => exact stages_end hk hw n ∅ r (.start ho) (by simpa using hn)

theorem uopf_returns (hk : Keeps opf) (hw : WF c) (hn : c.gen.length < n) (hcap : sumPmin c ≤ loadCapacity c) {r0 : Ret} (h0 : opf c = some r0)
    (htot : ∀ off r k, Best opf c off r → Binding r k → ∃ t, opf (withOff c r k) = some t) : ∃ r, uopf opf c n = .done r := by
  have h1 := C123_ends hk hw hn
  unfold uopf at h1 ⊢
  rw [if_neg (not_lt.2 hcap)] at h1 ⊢
  simp only [h0] at h1 ⊢
  cases hst : stages opf c n r0 with
  | done r => exact ⟨r, rfl⟩
  | raised => exact absurd hst (stages_returns htot n ∅ r0 (.start h0))
  | running => exact absurd hst h1

end search

/-! ### Inputs of the decommitted cases -/

section inputs
variable {c : Index.Case Tables} {off : Finset ℕ} {bus : List (BusRow BusD)} {gen : List (GenRow GenD)} (h : Committed c off bus gen)
include h

theorem Committed.genOn {i : ℕ} {g' : GenRow GenD} (hg : gen[i]? = some g') : GenInService { c with bus := bus, gen := gen } g' ↔
    i ∉ off ∧ ∃ g, c.gen[i]? = some g ∧ GenInService c g ∧ genInput g' = genInput g := by
  obtain ⟨g, h0, e⟩ := h.row hg
  obtain ⟨e1, e2, -⟩ := genInput_cols e
  have hcon := connected_iff (c := c) { c with bus := bus, gen := gen } h.bus
  by_cases ho : i ∈ off
  · rw [if_pos ho] at e2
    constructor
    · rintro ⟨h1, -⟩
      rw [e2] at h1
      exact absurd h1 (lt_irrefl _)
    · rintro ⟨h1, -⟩; exact absurd ho h1
  · rw [if_neg ho] at e e1 e2
    constructor
    · rintro ⟨h1, h2⟩
      exact ⟨ho, g, h0, ⟨e2 ▸ h1, (hcon _).1 (e1 ▸ h2)⟩, e⟩
    · rintro ⟨-, g1, h1, ⟨h2, h3⟩, -⟩
      rw [h0] at h1; cases h1
      exact ⟨by rw [e2]; exact h2, (hcon _).2 (by rw [e1]; exact h3)⟩

theorem Committed.brOn (l : BranchRow BrD) : BranchInService { c with bus := bus, gen := gen } l ↔ BranchInService c l := by
  have hcon := connected_iff (c := c) { c with bus := bus, gen := gen } h.bus
  exact and_congr_right fun _ => and_congr (hcon _) (hcon _)

theorem Committed.dc {base : ℝ} (hin : DcInputs base c) (hva : ∀ b ∈ bus, b.typ ≠ 4 → |b.data.VA * (Real.pi / 180)| < 10 ^ 10) :
    DcInputs base { c with bus := bus, gen := gen } where
  pos := hin.pos
  bus := fun b hb ht => by
    obtain ⟨b0, h0, e⟩ := busInput_mem h.bus hb
    obtain ⟨-, e2, e3, e4, -⟩ := busInput_num e
    refine ⟨hva b hb ht, ?_⟩
    rw [e3, e4]
    exact (hin.bus b0 h0 (by rw [← e2]; exact ht)).2
  gen := fun g' hg hon => by
    obtain ⟨i, hi⟩ := List.getElem?_of_mem hg
    obtain ⟨-, g, h0, h1, e⟩ := (h.genOn hi).1 hon
    obtain ⟨-, -, e3, e4, -⟩ := genInput_cols e
    rw [e3, e4]
    exact hin.gen g (List.mem_of_getElem? h0) h1
  branch := fun l hl hon => hin.branch l hl ((h.brOn l).1 hon)

theorem Committed.ac {base : ℝ} (hin : AcInputs base c) (hva : ∀ b ∈ bus, b.typ ≠ 4 → |b.data.VA * (Real.pi / 180)| < 10 ^ 10) :
    AcInputs base { c with bus := bus, gen := gen } where
  pos := hin.pos
  bus := fun b hb ht => by
    obtain ⟨b0, h0, e⟩ := busInput_mem h.bus hb
    obtain ⟨-, e2, -, -, e5, e6⟩ := busInput_num e
    refine ⟨hva b hb ht, ?_⟩
    rw [e5, e6]
    exact (hin.bus b0 h0 (by rw [← e2]; exact ht)).2
  gen := fun g' hg hon => by
    obtain ⟨i, hi⟩ := List.getElem?_of_mem hg
    obtain ⟨-, g, h0, h1, e⟩ := (h.genOn hi).1 hon
    obtain ⟨-, -, e3, e4, e5, e6⟩ := genInput_cols e
    rw [e3, e4, e5, e6]
    exact hin.gen g (List.mem_of_getElem? h0) h1
  limited := by
    obtain ⟨l, h1, h2, h3⟩ := hin.limited
    exact ⟨l, h1, (h.brOn l).2 h2, h3⟩

theorem Committed.ang {E : Econ} (hang : AngInputs E c) : AngInputs E { c with bus := bus, gen := gen } := fun l hl hon => hang l hl ((h.brOn l).1 hon)

theorem Committed.onGens : onGens { c with bus := bus, gen := gen } = Opf.onGens c \ off := by
  ext i
  simp only [Opf.onGens, Finset.mem_filter, Finset.mem_range, Finset.mem_sdiff, h.len]
  constructor
  · rintro ⟨h1, g', h2, h3⟩
    obtain ⟨h4, g, h5, h6, -⟩ := (h.genOn h2).1 h3
    exact ⟨⟨h1, g, h5, h6⟩, h4⟩
  · rintro ⟨⟨h1, g, h2, h3⟩, h4⟩
    obtain ⟨g', h5, h6⟩ := h.gen i g h2
    rw [if_neg h4] at h6
    exact ⟨h1, g', h5, (h.genOn h5).2 ⟨h4, g, h2, h3, h6⟩⟩

theorem Committed.pwlGens : pwlGens { c with bus := bus, gen := gen } = Opf.pwlGens c \ off := by
  have : ∀ i, costAt { c with bus := bus, gen := gen } i = costAt c i := fun _ => rfl
  unfold Opf.pwlGens
  rw [h.onGens]
  ext i
  simp only [Finset.mem_filter, Finset.mem_sdiff, this]
  tauto

theorem Committed.costs (hc : EconCosts c) : EconCosts { c with bus := bus, gen := gen } where
  table := hc.table
  ok := fun i hi => hc.ok i (by rw [h.onGens] at hi; exact (Finset.mem_sdiff.1 hi).1)
  big := fun i hi => hc.big i (by rw [h.onGens] at hi; exact (Finset.mem_sdiff.1 hi).1)

end inputs

/-! ### With the DC optimal power flow -/

section dc
variable {srt : List ℕ → List ℕ} (hs : IsArgsort srt) {base : ℝ} {E : Econ} {o : Opt} {solve : AnySolver} {c : Index.Case Tables} (hw : WF c)
  (hin : DcInputs base c) (hang : AngInputs E c)
  (hva : ∀ off r, Best (opfDcEcon srt base E o solve) c off r → ∀ b ∈ r.tables.bus, b.typ ≠ 4 → |b.data.VA * (Real.pi / 180)| < 10 ^ 10)

include hs hw hin hang hva

/-- **C123 (DC, returns).**  With the DC optimal power flow, on a well-formed case with data in range, unit decommitment returns a result whenever the lower limits do not exceed the
load, whatever the linear solver does (provided no result on the way shows angles of `1e10` radians, which would count as no limit at the reference bus). -/
theorem C123_dc_returns {n : ℕ} (hn : c.gen.length < n) (hcap : sumPmin c ≤ loadCapacity c) : ∃ r, uopf (opfDcEcon srt base E o solve) c n = .done r := by
  have hk := keeps_dc hs base (econSetup base E) o solve
  obtain ⟨r0, h0⟩ := (C96_completes hs hw hin E hang).1 o solve
  refine uopf_returns hk hw hn hcap h0 fun off r k hr hb => ?_
  obtain ⟨-, h1, h2⟩ := best_trial hk hw hr hb
  exact (C96_completes hs h2 (h1.dc hin (hva off r hr)) E (h1.ang hang)).1 o solve

/-- A best result as the result of the DC optimal power flow of a case in range. -/
theorem best_dc {off : Finset ℕ} {r : Ret} (h : Best (opfDcEcon srt base E o solve) c off r) : ∃ bus gen, Committed c off bus gen ∧
    WF { c with bus := bus, gen := gen } ∧ opfDcEcon srt base E o solve { c with bus := bus, gen := gen } = some r ∧
    ∀ c' d, Index.ext2int srt { c with bus := bus, gen := gen } = some c' → readCase base c' = some d → Good (dcOps d ++ (econSetup base E).extra d c') := by
  obtain ⟨bus, gen, h1, h2, -, h4⟩ := best_case (keeps_dc hs base (econSetup base E) o solve) hw h
  have hb : ∀ b ∈ bus, b.typ ≠ 4 → |b.data.VA * (Real.pi / 180)| < 10 ^ 10 := by
    rcases h4 with rfl | ⟨off', r', h5, rfl⟩
    · exact fun b hb ht => (hin.bus b hb ht).1
    · exact hva off' r' h5
  exact ⟨bus, gen, h2, h2.wf hw, h1, econ_wellposed hs (h2.wf hw) (h2.dc hin hb) E (h2.ang hang)⟩

/-- **C123 (DC, schedule).**  The returned tables are a feasible schedule of the caller's system: the units shut down are reported with status and outputs zero; if the
result is successful, every bus balances, every generator left in service is between the caller's limits, branch flows follow from the angles and respect the ratings. -/
theorem C123_dc {n : ℕ} {r : Ret} (h : uopf (opfDcEcon srt base E o solve) c n = .done r) (hst : ∀ l ∈ c.branch, l.status = 0 ∨ l.status = 1) :
    ∃ off, Committed c off r.tables.bus r.tables.gen ∧ r.tables.branch.map branchInput = c.branch.map branchInput ∧
    (∀ i ∈ off, ∃ g, r.tables.gen[i]? = some g ∧ g.status = 0 ∧ g.data.PG = 0 ∧ g.data.QG = 0) ∧
    (∀ θ : ℕ → ℝ, (∀ b ∈ r.tables.bus, θ b.num = b.data.VA * (Real.pi / 180)) → ∀ l ∈ r.tables.branch, BranchInService r.tables l →
      l.data.PF = base * dcFlow (asBranch l) θ ∧ l.data.PT = -l.data.PF) ∧
    (r.success = true →
      (∀ b ∈ r.tables.bus, b.typ ≠ 4 → |dcBalance r.tables b| < r.tol * base) ∧
      (∀ (i : ℕ) g g0, r.tables.gen[i]? = some g → c.gen[i]? = some g0 → GenInService c g0 → i ∉ off →
        g0.data.PMIN - r.tol * base < g.data.PG ∧ g.data.PG < g0.data.PMAX + r.tol * base) ∧
      (∀ l ∈ r.tables.branch, BranchInService r.tables l → l.data.rateA ≠ 0 → l.data.rateA < 10 ^ 10 →
        l.data.rateA / base + |Pfinj (fun _ : Unit => asBranch l) ()| < 10 ^ 10 →
        |l.data.PF| < l.data.rateA + r.tol * base ∧ |l.data.PT| < l.data.rateA + r.tol * base)) := by
  obtain ⟨-, off, h1, h2, -⟩ := C123_returned (keeps_dc hs base (econSetup base E) o solve) hw h
  obtain ⟨bus, gen, hk, hwk, hrun, hgood⟩ := best_dc hs hw hin hang hva h1
  obtain ⟨-, -, k3, k4, -⟩ := C86_dc_inputs hs hwk hrun
  refine ⟨off, h2, k3, ?_, fun θ hθ l hl hon => ?_, fun hok => ?_⟩
  · intro i hi
    obtain ⟨g0, h3, -⟩ := h2.was i hi
    obtain ⟨g, h4, e⟩ := h2.gen i g0 h3
    rw [if_pos hi] at e
    have e2 : g.status = 0 := (genInput_cols e).2.1
    have := k4 g (List.mem_of_getElem? h4) (fun hon => by have := hon.1; rw [e2] at this; exact lt_irrefl _ this)
    exact ⟨g, h4, e2, this⟩
  · have := C86_dc_flows hs hwk hgood hrun hst θ hθ l hl hon
    exact ⟨this.1, this.2.1⟩
  · obtain ⟨m1, m2, m3, -⟩ := C86_dc hs hin.pos hwk hgood hrun hok
    refine ⟨m1, ?_, m3⟩
    intro i g g0 hg hg0 hon hi
    obtain ⟨g1, h3, e⟩ := h2.gen i g0 hg0
    rw [hg] at h3; cases h3
    rw [if_neg hi] at e
    obtain ⟨e1, e2, e3, e4, -⟩ := genInput_cols e
    have hong : GenInService r.tables g := ⟨by rw [e2]; exact hon.1, by rw [e1]; exact (connected_iff _ h2.bus _).2 hon.2⟩
    obtain ⟨h5, h6⟩ := m2 g (List.mem_of_getElem? hg) hong
    obtain ⟨-, h7, h8⟩ := hin.gen g0 (List.mem_of_getElem? hg0) hon
    rw [e3] at h6
    rw [e4] at h5
    exact ⟨h6 (abs_lt.1 h7).1, h5 (abs_lt.1 h8).2⟩

/-- **C123 (DC, cost).**  The costs counted are those of the generators left in service; a unit shut down costs nothing, not even its cost at zero output.  The reported objective
is at least the cost of the returned schedule, and at most that of any other schedule with the same units shut down (`bus`: reference angles as in the result of the
stage before), up to tolerances. -/
theorem C123_dc_cost {n : ℕ} {r : Ret} (h : uopf (opfDcEcon srt base E o solve) c n = .done r) (hst : ∀ l ∈ c.branch, l.status = 0 ∨ l.status = 1)
    (hcost : EconCosts c) (hc : 0 < o.costMult) (hft : 0 ≤ o.feastol) (hct : 0 ≤ o.comptol) (hok : r.success = true) :
    ∃ off bus gen, Committed c off r.tables.bus r.tables.gen ∧ Committed c off bus gen ∧ ∃ y : ℕ → ℝ,
      ∑ i ∈ onGens c \ off, genCost c i (pgAt r.tables i) ≤ r.f + (pwlGens c \ off).card * r.tol ∧
      ∀ t θ, DcFeasible base E { c with bus := bus, gen := gen } t θ → ∀ M : ℝ, 0 ≤ M → (∀ i ∈ onBuses c, |vaAt r.tables i| ≤ M) →
        (∀ i ∈ onGens c \ off, |pgAt r.tables i / base| ≤ M) → (∀ i ∈ pwlGens c \ off, |y i| ≤ M) →
        r.f ≤ ∑ i ∈ onGens c \ off, genCost c i (pgAt t i) +
          gap o r.size M r.dual r.tol (dist base { c with bus := bus, gen := gen } r.tables t y) := by
  obtain ⟨-, off, h1, h2, -⟩ := C123_returned (keeps_dc hs base (econSetup base E) o solve) hw h
  obtain ⟨bus, gen, hk, hwk, hrun, hgood⟩ := best_dc hs hw hin hang hva h1
  obtain ⟨y, -, -, h5, h6⟩ := C96_least_cost hs hin.pos hwk (hk.costs hcost) hst hc hft hct hgood hrun hok
  have hlen : bus.length = c.bus.length := by simpa using congrArg List.length hk.bus
  have hbus : onBuses { c with bus := bus, gen := gen } = onBuses c := by
    ext i
    simp only [onBuses, Finset.mem_filter, Finset.mem_range, hlen]
    refine and_congr_right fun _ => ⟨?_, ?_⟩
    · rintro ⟨b, hb, ht⟩
      obtain ⟨b0, h0, e⟩ := map_row hk.bus.symm hb
      exact ⟨b0, h0, by rw [(busInput_num e).2.1]; exact ht⟩
    · rintro ⟨b, hb, ht⟩
      obtain ⟨b0, h0, e⟩ := map_row hk.bus hb
      exact ⟨b0, h0, by rw [(busInput_num e).2.1]; exact ht⟩
  unfold dispatchCost at h5 h6
  rw [hk.onGens, hk.pwlGens] at h5 h6
  rw [hbus] at h6
  exact ⟨off, bus, gen, h2, hk, y, h5, h6⟩

omit hva in
/-- **C123 (DC, compared with all units on).**  If the plain DC optimal power flow succeeds, the objective of unit decommitment is also at most the cost of every feasible
schedule with all units of the caller on, up to the tolerances of the plain run `r0`. -/
theorem C123_dc_all_on {n : ℕ} {r r0 : Ret} (h : uopf (opfDcEcon srt base E o solve) c n = .done r) (h0 : opfDcEcon srt base E o solve c = some r0)
    (hst : ∀ l ∈ c.branch, l.status = 0 ∨ l.status = 1)
    (hcost : EconCosts c) (hc : 0 < o.costMult) (hft : 0 ≤ o.feastol) (hct : 0 ≤ o.comptol) (hok : r0.success = true) :
    r.success = true ∧ ∃ y : ℕ → ℝ, ∀ t θ, DcFeasible base E c t θ → ∀ M : ℝ, 0 ≤ M → (∀ i ∈ onBuses c, |vaAt r0.tables i| ≤ M) →
      (∀ i ∈ onGens c, |pgAt r0.tables i / base| ≤ M) → (∀ i ∈ pwlGens c, |y i| ≤ M) →
      r.f ≤ dispatchCost c t + gap o r0.size M r0.dual r0.tol (dist base c r0.tables t y) := by
  have hk := keeps_dc hs base (econSetup base E) o solve
  obtain ⟨-, off, h1, -, -⟩ := C123_returned hk hw h
  obtain ⟨y, -, -, -, h6⟩ := C96_least_cost hs hin.pos hw hcost hst hc hft hct (econ_wellposed hs hw hin E hang) h0 hok
  exact ⟨(C123_success hk hw h h0).1 hok, y, fun t θ F M m1 m2 m3 m4 => (C123_objective h1 h0).1.trans (h6 t θ F M m1 m2 m3 m4)⟩

end dc

/-! ### With the AC optimal power flow -/

/-- **C123 (AC, schedule).**  The same for the AC optimal power flow (without user constraints): if the result is successful, both powers balance at every bus, the
generators left in service and the voltages are within the caller's limits. -/
theorem C123_ac {srt : List ℕ → List ℕ} (hs : IsArgsort srt) {base : ℝ} {lim : Int} {S : AcSetup} (hS : ∀ (nb ng nl : ℕ) (d : Case nb ng nl) c', S.extra d c' = [])
    {o : Opt} {solve : AnySolver} {c : Index.Case Tables} (hw : WF c) (hin : AcInputs base c)
    (hva : ∀ off r, Best (opfAc srt base lim S o solve) c off r → ∀ b ∈ r.tables.bus, b.typ ≠ 4 → |b.data.VA * (Real.pi / 180)| < 10 ^ 10)
    {n : ℕ} {r : Ret} (h : uopf (opfAc srt base lim S o solve) c n = .done r) :
    ∃ off, Committed c off r.tables.bus r.tables.gen ∧ r.tables.branch.map branchInput = c.branch.map branchInput ∧
    (∀ i ∈ off, ∃ g, r.tables.gen[i]? = some g ∧ g.status = 0 ∧ g.data.PG = 0 ∧ g.data.QG = 0) ∧
    (r.success = true →
      (∀ (i : ℕ) b b0, r.tables.bus[i]? = some b → c.bus[i]? = some b0 → b0.typ ≠ 4 → |acBalanceP r.tables b| < r.tol * base ∧ |acBalanceQ r.tables b| < r.tol * base ∧
        b0.data.VMIN - r.tol < b.data.VM ∧ b.data.VM < b0.data.VMAX + r.tol) ∧
      (∀ (i : ℕ) g g0, r.tables.gen[i]? = some g → c.gen[i]? = some g0 → GenInService c g0 → i ∉ off →
        g0.data.PMIN - r.tol * base < g.data.PG ∧ g.data.PG < g0.data.PMAX + r.tol * base ∧
        g0.data.QMIN - r.tol * base < g.data.QG ∧ g.data.QG < g0.data.QMAX + r.tol * base) ∧
      (∀ l ∈ r.tables.branch, BranchInService r.tables l → l.data.rateA ≠ 0 → l.data.rateA < 10 ^ 10 → lim ≠ 1 → lim ≠ 2 →
        l.data.PF ^ 2 + l.data.QF ^ 2 < l.data.rateA ^ 2 + r.tol * base ^ 2 ∧ l.data.PT ^ 2 + l.data.QT ^ 2 < l.data.rateA ^ 2 + r.tol * base ^ 2)) := by
  have hkp := keeps_ac hs base lim S o solve
  obtain ⟨-, off, h1, h2, -⟩ := C123_returned hkp hw h
  obtain ⟨bus, gen, hrun, hk, -, h4⟩ := best_case hkp hw h1
  have hb : ∀ b ∈ bus, b.typ ≠ 4 → |b.data.VA * (Real.pi / 180)| < 10 ^ 10 := by
    rcases h4 with rfl | ⟨off', r', h5, rfl⟩
    · exact fun b hb ht => (hin.bus b hb ht).1
    · exact hva off' r' h5
  have hwk := hk.wf hw
  have hgood : ∀ c' d, Index.ext2int srt { c with bus := bus, gen := gen } = some c' → readCase base c' = some d →
      Good (acOps d ++ S.extra d c') ∧ (names (nlnBlocks (acOps d ++ S.extra d c'))).Nodup := by
    intro c' d he hd
    rw [hS, List.append_nil]
    exact (acInputs_ok hs hwk (hk.ac hin hb) he hd).1.good
  obtain ⟨-, -, k3, k4, -⟩ := C86_ac_inputs hs hwk hrun
  refine ⟨off, h2, k3, ?_, fun hok => ?_⟩
  · intro i hi
    obtain ⟨g0, h3, -⟩ := h2.was i hi
    obtain ⟨g, h4, e⟩ := h2.gen i g0 h3
    rw [if_pos hi] at e
    have e2 : g.status = 0 := (genInput_cols e).2.1
    have := k4 g (List.mem_of_getElem? h4) (fun hon => by have := hon.1; rw [e2] at this; exact lt_irrefl _ this)
    exact ⟨g, h4, e2, this⟩
  · obtain ⟨m1, m2, m3, -⟩ := C86_ac hs hin.pos hwk hgood hrun hok
    refine ⟨?_, ?_, ?_⟩
    · intro i b b0 hbi hb0 ht
      obtain ⟨b1, h3, e⟩ := map_row h2.bus hb0
      rw [hbi] at h3; cases h3
      obtain ⟨-, e2, -, -, e5, e6⟩ := busInput_num e
      obtain ⟨h5, h6, h7, h8⟩ := m1 b (List.mem_of_getElem? hbi) (by rw [e2]; exact ht)
      obtain ⟨-, -, h9, h10⟩ := hin.bus b0 (List.mem_of_getElem? hb0) ht
      rw [e6] at h7
      rw [e5] at h8
      exact ⟨h5, h6, h8 (abs_lt.1 h9).1, h7 (abs_lt.1 h10).2⟩
    · intro i g g0 hg hg0 hon hi
      obtain ⟨g1, h3, e⟩ := h2.gen i g0 hg0
      rw [hg] at h3; cases h3
      rw [if_neg hi] at e
      obtain ⟨e1, e2, e3, e4, e5, e6⟩ := genInput_cols e
      have hong : GenInService r.tables g := ⟨by rw [e2]; exact hon.1, by rw [e1]; exact (connected_iff _ h2.bus _).2 hon.2⟩
      obtain ⟨p1, p2, q1, q2, -⟩ := m2 g (List.mem_of_getElem? hg) hong
      obtain ⟨⟨-, h7, h8⟩, -, h9, h10⟩ := hin.gen g0 (List.mem_of_getElem? hg0) hon
      rw [e4] at p1
      rw [e3] at p2
      rw [e6] at q1
      rw [e5] at q2
      exact ⟨p2 (abs_lt.1 h7).1, p1 (abs_lt.1 h8).2, q2 (abs_lt.1 h9).1, q1 (abs_lt.1 h10).2⟩
    · intro l hl hon hr1 hr2 hl1 hl2
      have vm : ∀ n : ℕ, ∃ v : ℝ, ∀ b ∈ r.tables.bus, b.num = n → b.data.VM = v := by
        intro n
        by_cases hex : ∃ b ∈ r.tables.bus, b.num = n
        · obtain ⟨b, hb, rfl⟩ := hex
          refine ⟨b.data.VM, fun b' hb' e => ?_⟩
          have hnd : (r.tables.bus.map (·.num)).Nodup := by
            have := congrArg (fun l => l.map BusRow.num) h2.bus
            simp only [List.map_map, Function.comp_def, busInput] at this
            rw [this]; exact hw.busNodup
          have := List.inj_on_of_nodup_map hnd hb' hb e
          rw [this]
        · exact ⟨0, fun b hb e => absurd ⟨b, hb, e⟩ hex⟩
      obtain ⟨vf, hvf⟩ := vm l.f
      obtain ⟨vt, hvt⟩ := vm l.t
      exact (m3 l hl hon hr1 hr2 vf vt fun b hb => ⟨hvf b hb, hvt b hb⟩).1 hl1 hl2

/-! ### Example -/

/-- A solver that gives up at once leaves everything at the starting point. -/
theorem pips_still {X Q I : Type} [Fintype X] [Fintype Q] [Fintype I] [DecidableEq X] [DecidableEq I] (P : Problem X Q I) (o : Opt) (x0 : X → ℝ) :
    (pips P o (fun _ _ => none) x0).x = x0 := by
  have hl : ∀ (n i : ℕ) (s : St X Q I), (loop P o (fun _ _ => none) n i s).st = s := by
    intro n i s
    cases n with
    | zero => rfl
    | succ n => simp [loop, direction]
  simp only [pips, Pips.run]
  split_ifs
  · rfl
  · rw [hl]; rfl

theorem exE_still {o : Opt} {k : Index.Case Tables} (hw : WF k) (hin : DcInputs 100 k) (hang : AngInputs exE k) {r : Ret}
    (hr : opfDcEcon Index.stableArgsort 100 exE o (fun _ _ _ _ => none) k = some r) : ∀ b ∈ r.tables.bus, b.typ ≠ 4 → |b.data.VA * (Real.pi / 180)| < 10 ^ 10 := by
  intro b hb ht
  have hs := Index.stableArgsort_isArgsort
  have hrun := hr
  unfold opfDcEcon opfDc at hrun
  simp only [Option.bind_eq_bind, Option.bind_eq_some_iff] at hrun
  obtain ⟨c', hc', d, hd, m, hm, s, hs', r1, hr1, e⟩ := hrun
  injection e with e
  subst e
  obtain ⟨bp, gp, lp, B⟩ := bridge hs hw hc' hd _ hr1 opfOff
  have g := econ_wellposed hs hw hin exE hang c' d hc' hd
  obtain ⟨q, r', hq, hr', -, -, -, -, -, hVA, -⟩ := dc_ofSolver hm g hs'
  obtain ⟨k, b0, h0, rfl, -⟩ := B.busRow hb ht
  have hx : r'.x = 0 := by
    rw [(ofFull hr').1]
    exact pips_still _ _ _
  have : s.VA k = 0 := by
    rw [hVA k, hx]
    simp [pad]
  simp [dcUpd, this]

/-- The hypotheses of C123 hold on the example of C96, and unit decommitment is successful there. -/
example : ∃ o r, WF exEcon ∧ DcInputs 100 exEcon ∧ AngInputs exE exEcon ∧ EconCosts exEcon ∧ sumPmin exEcon ≤ loadCapacity exEcon ∧
    0 < o.costMult ∧ 0 ≤ o.feastol ∧ 0 ≤ o.comptol ∧
    (∀ off r, Best (opfDcEcon Index.stableArgsort 100 exE o (fun _ _ _ _ => none)) exEcon off r → ∀ b ∈ r.tables.bus, b.typ ≠ 4 →
      |b.data.VA * (Real.pi / 180)| < 10 ^ 10) ∧
    uopf (opfDcEcon Index.stableArgsort 100 exE o (fun _ _ _ _ => none)) exEcon 5 = .done r ∧ r.success = true := by
  obtain ⟨o, r0, h1, h2, -, h3, h4, h5⟩ := (C96_completes Index.stableArgsort_isArgsort exEcon_wf exEcon_dc exE exE_ang).2 (fun _ _ _ _ => none)
  have hk := keeps_dc Index.stableArgsort_isArgsort 100 (econSetup 100 exE) o (fun _ _ _ _ => none)
  have hva : ∀ off r, Best (opfDcEcon Index.stableArgsort 100 exE o (fun _ _ _ _ => none)) exEcon off r → ∀ b ∈ r.tables.bus, b.typ ≠ 4 →
      |b.data.VA * (Real.pi / 180)| < 10 ^ 10 := by
    intro off r h
    induction h with
    | start h => exact exE_still exEcon_wf exEcon_dc exE_ang h
    | shut hb htr _ _ _ ih =>
      obtain ⟨-, h6, h7⟩ := best_trial hk exEcon_wf hb htr.1
      exact exE_still h7 (h6.dc exEcon_dc ih) (h6.ang exE_ang) htr.2
  have hcap : sumPmin exEcon ≤ loadCapacity exEcon := by
    norm_num [sumPmin, loadCapacity, exEcon, exTables, loadRow]
  obtain ⟨r, hr⟩ := C123_dc_returns (n := 5) Index.stableArgsort_isArgsort exEcon_wf exEcon_dc exE_ang hva (by simp [exEcon, exTables]) hcap
  exact ⟨o, r, exEcon_wf, exEcon_dc, exE_ang, exEcon_costs, hcap, h1, h2.le, h3.le, hva, hr, (C123_success hk exEcon_wf hr h4).1 h5⟩

/-- A toy optimal power flow that finds every unit in service at its lower limit and charges 1 for it: the unit is shut down. -/
example : ∃ r, uopf (fun k => some ⟨true, (k.gen.map fun g => (g.status : ℝ)).sum, 0, 0, 0,
      { k with gen := k.gen.map fun g => { g with data := { g.data with MU_PMIN := g.status } } }⟩)
    { exEcon with gen := [⟨2, 1, ⟨10, 0, 50, -50, 1, 200, 10, 0, 0, 0, 0, []⟩⟩] } 5 = .done r ∧ r.tables.gen.map (·.status) = [0] := by
  have h : ¬ (loadCapacity { exEcon with gen := [⟨2, 1, ⟨10, 0, 50, -50, 1, 200, 10, 0, 0, 0, 0, []⟩⟩] } <
      sumPmin { exEcon with gen := [⟨2, 1, ⟨10, 0, 50, -50, 1, 200, 10, 0, 0, 0, 0, []⟩⟩] }) := by
    norm_num [sumPmin, loadCapacity, exEcon, exTables, loadRow]
  unfold uopf
  rw [if_neg h]
  simp [stages, candidates, NumPy.find, NumPy.findFrom, tryAll, withOff, shutRow]

/-- A unit with a lower limit above the load: refused. -/
example : uopf (fun _ => none) { exEcon with gen := [⟨2, 1, ⟨10, 0, 50, -50, 1, 200, 101, 0, 0, 0, 0, []⟩⟩] } 5 = .raised :=
  C123_refused (by norm_num [sumPmin, loadCapacity, exEcon, exTables, loadRow])

end Verif.UnitOpf
