import Verif.Opf.AcFeasSpec
import Verif.Opf.AcAccept
import Verif.Opf.ResProps

/-! # Operating points in the tables of the caller, in internal numbering -/

open Matrix ComplexConjugate

namespace Verif.Network

variable {B : Type} [Fintype B] [DecidableEq B]

/-- The standard branch model determines its currents. -/
theorem PiModel.unique {br : Branch B} (hz : (br.r : ℂ) + Complex.I * br.x ≠ 0) {Vf Vt If It If' It' : ℂ} (h : PiModel br Vf Vt If It) (h' : PiModel br Vf Vt If' It') :
    If = If' ∧ It = It' := by
  obtain ⟨E, IE, J, a1, -, a3, a4, a5, a6⟩ := h
  obtain ⟨E', IE', J', b1, -, b3, b4, b5, b6⟩ := h'
  have ht : turns br ≠ 0 := by rw [← ctap_eq_turns]; exact ctap_ne br
  have hct : conj (turns br) ≠ 0 := by simpa using ht
  have hE : E = E' := mul_left_cancel₀ ht (a1.symm.trans b1)
  subst hE
  have hJ : J = J' := mul_left_cancel₀ hz (a4.symm.trans b4)
  subst hJ
  refine ⟨mul_left_cancel₀ hct ?_, a6.trans b6.symm⟩
  rw [a3, b3, a5, b5]

end Verif.Network

namespace Verif.Opf

open Verif.Index (BusRow GenRow BranchRow IsArgsort WF GenInService BranchInService Connected posOf orderOf)
open Verif.OpfModel Verif.Pips Verif.Network Verif.OpfCost

noncomputable section

/-- A column in row `i` of the branch table. -/
def brAt (f : BrD → ℝ) (t : Index.Case Tables) (i : ℕ) : ℝ := ((t.branch[i]?).map fun l => f l.data).getD 0

theorem connected_of_inputs {a b : Index.Case Tables} (hab : a.bus.map busInput = b.bus.map busInput) (n : ℕ) : Connected a n ↔ Connected b n := by
  have one : ∀ {a b : Index.Case Tables}, a.bus.map busInput = b.bus.map busInput → Connected b n → Connected a n := by
    rintro a b hab ⟨x, hx, rfl, ht⟩
    obtain ⟨i, hi⟩ := List.getElem?_of_mem hx
    obtain ⟨y, hy, e⟩ := map_at hab i x hi
    have e1 : y.num = x.num := by simpa [busInput] using congrArg BusRow.num e
    have e2 : y.typ = x.typ := by simpa [busInput] using congrArg BusRow.typ e
    exact ⟨y, List.mem_of_getElem? hy, e1, by rw [e2]; exact ht⟩
  exact ⟨one hab.symm, one hab⟩

section feasible
variable {c R t : Index.Case Tables} {z : Off} {nb ng nl : ℕ} {d : Case nb ng nl} {u : Upd nb ng nl} {bp : Fin nb → ℕ} {gp : Fin ng → ℕ} {lp : Fin nl → ℕ}
  (B : Bridge c R z d u bp gp lp) (h : WF c) {lim : Int} {K : Curves} (F : AcFeasible d.base lim K c t)

include B F

/-- Rows of the operating point. -/
theorem AcFeasible.busT (k : Fin nb) : ∃ b0 b, c.bus[bp k]? = some b0 ∧ t.bus[bp k]? = some b ∧ b.num = b0.num ∧ b.typ = b0.typ ∧ b0.typ ≠ 4 ∧
    b.data.PD = b0.data.PD ∧ b.data.QD = b0.data.QD ∧ b.data.GS = b0.data.GS ∧ b.data.BS = b0.data.BS ∧ b.data.VMIN = b0.data.VMIN ∧ b.data.VMAX = b0.data.VMAX ∧
    vaAt t (bp k) = b.data.VA * (Real.pi / 180) ∧ vmAt t (bp k) = b.data.VM := by
  obtain ⟨b0, h0, h1, -⟩ := B.bus k
  obtain ⟨b, hb, e⟩ := map_at F.bus _ _ h0
  exact ⟨b0, b, h0, hb, by simpa [busInput] using congrArg BusRow.num e, by simpa [busInput] using congrArg BusRow.typ e, h1,
    by simpa [busInput] using congrArg (fun b => b.data.PD) e, by simpa [busInput] using congrArg (fun b => b.data.QD) e,
    by simpa [busInput] using congrArg (fun b => b.data.GS) e, by simpa [busInput] using congrArg (fun b => b.data.BS) e,
    by simpa [busInput] using congrArg (fun b => b.data.VMIN) e, by simpa [busInput] using congrArg (fun b => b.data.VMAX) e,
    by simp [vaAt, hb], by simp [vmAt, hb]⟩

theorem AcFeasible.genT (k : Fin ng) : ∃ g0 g, c.gen[gp k]? = some g0 ∧ t.gen[gp k]? = some g ∧ g.bus = g0.bus ∧ g.data.PMIN = g0.data.PMIN ∧ g.data.PMAX = g0.data.PMAX ∧
    g.data.QMIN = g0.data.QMIN ∧ g.data.QMAX = g0.data.QMAX ∧ g.data.rest = g0.data.rest ∧
    GenInService c g0 ∧ GenInService t g ∧ pgAt t (gp k) = g.data.PG ∧ qgAt t (gp k) = g.data.QG := by
  obtain ⟨g0, h0, h1, -⟩ := B.gen k
  obtain ⟨g, hg, e⟩ := map_at F.gen _ _ h0
  have e1 : g.bus = g0.bus := by simpa [genInput] using congrArg GenRow.bus e
  have e2 : g.status = g0.status := by simpa [genInput] using congrArg GenRow.status e
  refine ⟨g0, g, h0, hg, e1, by simpa [genInput] using congrArg (fun g => g.data.PMIN) e, by simpa [genInput] using congrArg (fun g => g.data.PMAX) e,
    by simpa [genInput] using congrArg (fun g => g.data.QMIN) e, by simpa [genInput] using congrArg (fun g => g.data.QMAX) e,
    by simpa [genInput] using congrArg (fun g => g.data.rest) e, h1, ?_, by simp [pgAt, hg], by simp [qgAt, hg]⟩
  unfold GenInService at h1 ⊢
  rw [e1, e2, connected_of_inputs F.bus]
  exact h1

theorem AcFeasible.brT (k : Fin nl) : ∃ l0 l, c.branch[lp k]? = some l0 ∧ t.branch[lp k]? = some l ∧ l.f = l0.f ∧ l.t = l0.t ∧ l.status = l0.status ∧
    l.data.r = l0.data.r ∧ l.data.x = l0.data.x ∧ l.data.b = l0.data.b ∧ l.data.tap = l0.data.tap ∧ l.data.shift = l0.data.shift ∧ l.data.rateA = l0.data.rateA ∧
    l.data.rest = l0.data.rest ∧ BranchInService c l0 ∧ BranchInService t l ∧ ∀ f : BrD → ℝ, brAt f t (lp k) = f l.data := by
  obtain ⟨l0, h0, h1, -⟩ := B.branch k
  obtain ⟨l, hl, e⟩ := map_at F.branch _ _ h0
  have e1 : l.f = l0.f := by simpa [branchInput] using congrArg BranchRow.f e
  have e2 : l.t = l0.t := by simpa [branchInput] using congrArg BranchRow.t e
  have e3 : l.status = l0.status := by simpa [branchInput] using congrArg BranchRow.status e
  refine ⟨l0, l, h0, hl, e1, e2, e3, by simpa [branchInput] using congrArg (fun l => l.data.r) e, by simpa [branchInput] using congrArg (fun l => l.data.x) e,
    by simpa [branchInput] using congrArg (fun l => l.data.b) e, by simpa [branchInput] using congrArg (fun l => l.data.tap) e,
    by simpa [branchInput] using congrArg (fun l => l.data.shift) e, by simpa [branchInput] using congrArg (fun l => l.data.rateA) e,
    by simpa [branchInput] using congrArg (fun l => l.data.rest) e, h1, ?_, fun f => by simp [brAt, hl]⟩
  unfold BranchInService at h1 ⊢
  rw [e1, e2, e3, connected_of_inputs F.bus, connected_of_inputs F.bus]
  exact h1

include h

theorem AcFeasible.genSum (col : GenD → ℝ) (hoff : ∀ g ∈ t.gen, ¬ GenInService t g → col g.data = 0) (f : Fin ng → ℝ)
    (hf : ∀ p g, t.gen[gp p]? = some g → f p = col g.data) (k : Fin nb) (b0 : BusRow BusD) (h0 : c.bus[bp k]? = some b0) :
    genAt t b0.num col = ∑ p with (d.gen p).stat > 0 ∧ (d.gen p).bus = k, f p := by
  unfold genAt
  rw [filter_sum, Finset.sum_filter]
  refine sum_rows t.gen gp B.gInj _ _ (fun p => ?_) ?_
  · obtain ⟨g0, g, h5, h6, e3, -⟩ := F.genT B p
    obtain ⟨g1, h7, hon, -, ⟨b', hb', hn⟩, hst, -⟩ := B.gen p
    rw [h5] at h7; cases h7
    refine ⟨g, h6, ?_⟩
    have hpos : (d.gen p).stat > 0 := by
      rw [hst]
      exact_mod_cast hon.1
    have : (g.bus == b0.num) = decide ((d.gen p).bus = k) := by
      rw [e3, ← hn]
      have := B.sameBus h hb' h0
      by_cases e : (d.gen p).bus = k <;> simp [e, this]
    simp only [this, hf p g h6, decide_eq_true_eq, hpos, true_and]
  · intro i g hi hk
    obtain ⟨g0, hg0, e⟩ := map_at F.gen.symm _ _ hi
    have e3 : g0.bus = g.bus := by simpa [genInput] using congrArg GenRow.bus e
    have e4 : g0.status = g.status := by simpa [genInput] using congrArg GenRow.status e
    have : ¬ GenInService t g := fun hh => by
      obtain ⟨p, hp⟩ := B.genOn i g0 hg0 (by
        unfold GenInService at hh ⊢
        rw [e3, e4, ← connected_of_inputs F.bus]; exact hh)
      exact hk p hp
    rw [hoff g (List.mem_of_getElem? hi) this]
    simp

omit h in
theorem AcFeasible.brOffRow (i : ℕ) (l : BranchRow BrD) (hi : t.branch[i]? = some l) (hk : ∀ k, lp k ≠ i) : ¬ BranchInService t l := by
  obtain ⟨l0, hl0, e⟩ := map_at F.branch.symm _ _ hi
  have e3 : l0.f = l.f := by simpa [branchInput] using congrArg BranchRow.f e
  have e4 : l0.t = l.t := by simpa [branchInput] using congrArg BranchRow.t e
  have e5 : l0.status = l.status := by simpa [branchInput] using congrArg BranchRow.status e
  intro hh
  obtain ⟨p, hp⟩ := B.brOn i l0 hl0 (by
    unfold BranchInService at hh ⊢
    rw [e3, e4, e5, ← connected_of_inputs F.bus, ← connected_of_inputs F.bus]; exact hh)
  exact hk p hp

theorem AcFeasible.fromSum (col : BrD → ℝ) (hoff : ∀ l ∈ t.branch, ¬ BranchInService t l → col l.data = 0) (k : Fin nb) (b0 : BusRow BusD) (h0 : c.bus[bp k]? = some b0) :
    fromAt t b0.num col = ∑ l with (d.branch l).f = k, brAt col t (lp l) := by
  unfold fromAt
  rw [filter_sum, Finset.sum_filter]
  refine sum_rows t.branch lp B.lInj _ _ (fun p => ?_) ?_
  · obtain ⟨l0, l, h5, h6, e3, -, -, -, -, -, -, -, -, -, -, -, e4⟩ := F.brT B p
    obtain ⟨l1, h7, -, -, ⟨b', hb', hn⟩, -⟩ := B.branch p
    rw [h5] at h7; cases h7
    refine ⟨l, h6, ?_⟩
    have : (l.f == b0.num) = decide ((d.branch p).f = k) := by
      rw [e3, ← hn]
      have := B.sameBus h hb' h0
      by_cases e : (d.branch p).f = k <;> simp [e, this]
    simp only [this, e4, decide_eq_true_eq]
  · intro i l hi hk
    simp [hoff l (List.mem_of_getElem? hi) (F.brOffRow B i l hi hk)]

theorem AcFeasible.toSum (col : BrD → ℝ) (hoff : ∀ l ∈ t.branch, ¬ BranchInService t l → col l.data = 0) (k : Fin nb) (b0 : BusRow BusD) (h0 : c.bus[bp k]? = some b0) :
    toAt t b0.num col = ∑ l with (d.branch l).t = k, brAt col t (lp l) := by
  unfold toAt
  rw [filter_sum, Finset.sum_filter]
  refine sum_rows t.branch lp B.lInj _ _ (fun p => ?_) ?_
  · obtain ⟨l0, l, h5, h6, -, e3, -, -, -, -, -, -, -, -, -, -, e4⟩ := F.brT B p
    obtain ⟨l1, h7, -, -, -, ⟨b', hb', hn⟩, -⟩ := B.branch p
    rw [h5] at h7; cases h7
    refine ⟨l, h6, ?_⟩
    have : (l.t == b0.num) = decide ((d.branch p).t = k) := by
      rw [e3, ← hn]
      have := B.sameBus h hb' h0
      by_cases e : (d.branch p).t = k <;> simp [e, this]
    simp only [this, e4, decide_eq_true_eq]
  · intro i l hi hk
    simp [hoff l (List.mem_of_getElem? hi) (F.brOffRow B i l hi hk)]

/-- An operating point in the tables of the caller is one of the case in internal numbering. -/
theorem AcFeasible.point (hm : AcModel K c) : AcPoint d lim (fun k => vaAt t (bp k)) (fun k => vmAt t (bp k)) (fun k => pgAt t (gp k)) (fun k => qgAt t (gp k))
    (fun k => brAt BrD.PF t (lp k)) (fun k => brAt BrD.QF t (lp k)) (fun k => brAt BrD.PT t (lp k)) (fun k => brAt BrD.QT t (lp k)) := by
  have hV : ∀ k b, t.bus[bp k]? = some b → polarV (fun k => vaAt t (bp k)) (fun k => vmAt t (bp k)) k = rowPhasor b := by
    intro k b hb
    simp [polarV, rowPhasor, vaAt, vmAt, hb]
  refine ⟨fun k => ?_, fun k => ?_, fun k => ?_, fun p => ?_, fun k hk => ?_, fun k h1 h2 => ?_⟩
  · obtain ⟨l0, l, h5, h6, ef, et, est, er, ex, eb, etap, eshift, -, -, hon0, hon, eat⟩ := F.brT B k
    obtain ⟨l1, h7, -, -, ⟨b1, hb1, hn1⟩, ⟨b2, hb2, hn2⟩, dr, dx, db, dtap, dshift, dst, -⟩ := B.branch k
    rw [h5] at h7; cases h7
    obtain ⟨b1', bf, hb1', hbf, nf, -⟩ := F.busT B (d.branch k).f
    rw [hb1] at hb1'; cases hb1'
    obtain ⟨b2', bt, hb2', hbt, nt, -⟩ := F.busT B (d.branch k).t
    rw [hb2] at hb2'; cases hb2'
    obtain ⟨If, It, hp, q1, q2⟩ := F.flows l (List.mem_of_getElem? h6) hon bf (List.mem_of_getElem? hbf) bt (List.mem_of_getElem? hbt) (by rw [nf, hn1, ef]) (by rw [nt, hn2, et])
    obtain ⟨hst, hz⟩ := hm.branch l0 (List.mem_of_getElem? h5) hon0
    have hz' : ((d.branch k).r : ℂ) + Complex.I * (d.branch k).x ≠ 0 := by rw [dr, dx]; exact hz
    have hins : InService (d.branch k) := by
      unfold InService
      rw [dst, hst]; norm_num
    have key := (C22_kirchhoff d.base d.bus d.branch (polarV (fun k => vaAt t (bp k)) (fun k => vmAt t (bp k)))).1 k hins hz'
    rw [hV _ _ hbf, hV _ _ hbt] at key
    have hp' : PiModel (d.branch k) (rowPhasor bf) (rowPhasor bt) If It := by
      unfold PiModel at hp ⊢
      have eturn : turns (asBranch l) = turns (d.branch k) := by
        simp only [turns, asBranch, dtap, dshift, etap, eshift]
      rw [eturn] at hp
      simp only [asBranch, er, ex, eb] at hp
      rw [dr, dx, db]
      exact hp
    obtain ⟨k1, k2⟩ := key.unique hz' hp'
    simp only [eat]
    rw [k1, k2, hV _ _ hbf, hV _ _ hbt]
    exact ⟨q1, q2⟩
  · obtain ⟨b0, b, h0, hb, e1, e2, h4, ePD, eQD, eGS, eBS, -, -, -, eVM⟩ := F.busT B k
    obtain ⟨b1, h1, -, -, hbus, -⟩ := B.bus k
    rw [h0] at h1; cases h1
    obtain ⟨balP, balQ⟩ := F.balance b (List.mem_of_getElem? hb) (by rw [e2]; exact h4)
    unfold acBalanceP at balP
    unfold acBalanceQ at balQ
    unfold acMismatchP acMismatchQ
    rw [e1, F.genSum B h GenD.PG (fun g hg hh => (F.genOff g hg hh).1) (fun p => pgAt t (gp p)) (fun p g hg => by simp [pgAt, hg]) k b0 h0,
      F.fromSum B h BrD.PF (fun l hl hh => (F.brOff l hl hh).1) k b0 h0, F.toSum B h BrD.PT (fun l hl hh => (F.brOff l hl hh).2.2.1) k b0 h0, ePD, eGS, ← eVM] at balP
    rw [e1, F.genSum B h GenD.QG (fun g hg hh => (F.genOff g hg hh).2) (fun p => qgAt t (gp p)) (fun p g hg => by simp [qgAt, hg]) k b0 h0,
      F.fromSum B h BrD.QF (fun l hl hh => (F.brOff l hl hh).2.1) k b0 h0, F.toSum B h BrD.QT (fun l hl hh => (F.brOff l hl hh).2.2.2) k b0 h0, eQD, eBS, ← eVM] at balQ
    rw [hbus]
    exact ⟨balP, balQ⟩
  · obtain ⟨b0, b, h0, hb, e1, e2, h4, -, -, -, -, e5, e6, -, eVM⟩ := F.busT B k
    obtain ⟨b1, h1, -, -, -, -, -, h7, h8⟩ := B.bus k
    rw [h0] at h1; cases h1
    simp only [eVM]
    rw [h7, h8, ← e5, ← e6]
    exact F.volt b (List.mem_of_getElem? hb) (by rw [e2]; exact h4)
  · obtain ⟨g0, g, h5, h6, -, e3, e4, e5, e6, -, -, hon, e7, e8⟩ := F.genT B p
    obtain ⟨g1, h7, -, -, -, -, h8, h9, h10, h11⟩ := B.gen p
    rw [h5] at h7; cases h7
    simp only [e7, e8]
    rw [h8, h9, h10, h11, ← e3, ← e4, ← e5, ← e6]
    exact F.limits g (List.mem_of_getElem? h6) hon
  · obtain ⟨b0, b, h0, hb, e1, e2, -⟩ := F.busT B k
    obtain ⟨b1, h1, -, -, -, hr, hva, -⟩ := B.bus k
    rw [h0] at h1; cases h1
    have h3 : b.typ = 3 := by rw [e2]; simpa [hr] using hk
    unfold Case.vaRad
    rw [hva, ← F.ref _ b b0 hb h0 h3]
    simp [vaAt, hb]
  · obtain ⟨l0, l, h5, h6, ef, et, -, -, -, -, -, -, e3, -, -, hon, eat⟩ := F.brT B k
    obtain ⟨l1, h7, -, -, ⟨b1, hb1, hn1⟩, ⟨b2, hb2, hn2⟩, -, -, -, -, -, -, hr⟩ := B.branch k
    rw [h5] at h7; cases h7
    obtain ⟨b1', bf, hb1', hbf, nf, -, -, -, -, -, -, -, -, -, vf⟩ := F.busT B (d.branch k).f
    rw [hb1] at hb1'; cases hb1'
    obtain ⟨b2', bt, hb2', hbt, nt, -, -, -, -, -, -, -, -, -, vt⟩ := F.busT B (d.branch k).t
    rw [hb2] at hb2'; cases hb2'
    rw [hr, ← e3] at h1 h2
    obtain ⟨r0, r1, r2⟩ := F.rating l (List.mem_of_getElem? h6) hon h1 h2
    simp only [eat, vf, vt]
    rw [hr, ← e3]
    exact ⟨r0, r1, fun h2 => r2 h2 bf (List.mem_of_getElem? hbf) bt (List.mem_of_getElem? hbt) (by rw [nf, hn1, ef]) (by rw [nt, hn2, et])⟩

end feasible

end

end Verif.Opf
