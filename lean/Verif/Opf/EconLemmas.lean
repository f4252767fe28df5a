import Verif.Opf.EconSpec
import Verif.Opf.RunProps

/-!
# Lemmas about the DC optimal power flow with the costs and angle limits of the case
-/

namespace Verif.Opf

open Verif.Index (BusRow GenRow BranchRow IsArgsort WF GenInService BranchInService Connected)
open Verif.OpfModel Verif.Pips Verif.Network Verif.Cost Verif.OpfCost

/-! ### The block of angle limits -/

theorem cooMat_row (rows nb : ℕ) (A : Constr.Coo) (i : ℕ) (y : List ℝ) (h : ∀ e ∈ A, e.2.1 < nb) :
    rowDot (cooMat rows nb A) i y = A.row (fun k => y.getD k 0) i := by
  unfold rowDot cooMat Constr.Coo.row
  simp only
  induction A with
  | nil => simp
  | cons e A ih =>
    have ih' := ih fun e he => h e (List.mem_cons_of_mem _ he)
    have he := h e List.mem_cons_self
    by_cases h1 : e.1 = i
    · have : ∀ k, ((List.filter (fun e => decide (e.1 = i ∧ e.2.1 = k)) (e :: A)).map fun e => e.2.2).sum * y.getD k 0 =
          (if k = e.2.1 then e.2.2 * y.getD k 0 else 0) + ((List.filter (fun e => decide (e.1 = i ∧ e.2.1 = k)) A).map fun e => e.2.2).sum * y.getD k 0 := by
        intro k
        by_cases h2 : e.2.1 = k
        · simp [h1, h2, add_mul]
        · simp [h1, h2, Ne.symm h2]
      simp only [this, Finset.sum_add_distrib, ih', Finset.sum_ite_eq', Finset.mem_range, he, if_true]
      simp [h1]
    · simp only [h1, false_and, decide_false, List.filter_cons, Bool.false_eq_true, if_false]
      exact ih'

/-- Row `i` of a block limits the angle difference of branch `b`. -/
structure AngRow (B : LinBlk) (i : ℕ) (b : Constr.Branch) : Prop where
  row : ∀ y : List ℝ, rowDot B.A i y = y.getD b.f 0 - y.getD b.t 0
  lo : LinBlk.lo B i = if @decide (b.angmin ≠ 0) (Classical.dec _) then ((b.angmin * Real.pi / 180 : ℝ) : EReal) else ⊥
  hi : LinBlk.hi B i = if @decide (b.angmax ≠ 0) (Classical.dec _) then ((b.angmax * Real.pi / 180 : ℝ) : EReal) else ⊤

/-- The block added for the angle limits: one row for each branch with a limit. -/
theorem ang_block (E : Econ) (nb : ℕ) (c : Index.Case Tables) (hv : ∀ b ∈ angRows E c, b.f < nb ∧ b.t < nb) :
    ∃ B : LinBlk, angOps E nb c = [.addLin "ang" B.A B.l B.u B.vs] ∧ B.vs = ["Va"] ∧ B.A.cols = nb ∧ B.l.length = B.A.rows ∧ B.u.length = B.A.rows ∧
      (∀ i < B.A.rows, ∃ b ∈ angRows E c, E.ignoreAng = false ∧ Constr.Limited b ∧ AngRow B i b) ∧
      (E.ignoreAng = false → ∀ b ∈ angRows E c, Constr.Limited b → ∃ i < B.A.rows, AngRow B i b) ∧
      (∃ L, Constr.makeAang E.ignoreAng nb (angRows E c) = some L ∧ L.index.length = B.A.rows ∧ L.index.Nodup ∧
        ∀ (i k : ℕ), L.index[i]? = some k → ∃ b, (angRows E c)[k]? = some b ∧ AngRow B i b) ∧
      (∀ L, Constr.makeAang E.ignoreAng nb (angRows E c) = some L → ∀ (k : ℕ) b, (angRows E c)[k]? = some b →
        (k ∈ L.index ↔ E.ignoreAng = false ∧ Constr.Limited b)) := by
  by_cases hig : E.ignoreAng = true
  · refine ⟨⟨cooMat 0 nb [], [], [], ["Va"]⟩, by simp [angOps, Constr.makeAang, hig], rfl, rfl, rfl, rfl, fun i hi => absurd hi (by simp [cooMat]), by simp [hig],
      ⟨⟨0, [], [], [], []⟩, by simp [Constr.makeAang, hig], rfl, List.nodup_nil, by simp⟩, by simp [Constr.makeAang, hig]⟩
  · have hig' : E.ignoreAng = false := by simpa using hig
    obtain ⟨L, hL, hn, hix, hrest⟩ := Constr.makeAang_eq nb (angRows E c) hv
    have last : ∀ L', Constr.makeAang E.ignoreAng nb (angRows E c) = some L' → ∀ (k : ℕ) b, (angRows E c)[k]? = some b →
        (k ∈ L'.index ↔ E.ignoreAng = false ∧ Constr.Limited b) := by
      intro L' hL' k b hk
      rw [hig', hL] at hL'
      cases hL'
      rw [hix, NumPy.mem_find, List.getElem?_map, hk, ← Constr.hasAngleLimit_iff]
      simp [hig']
    have hlen : L.n = ((angRows E c).filter Constr.hasAngleLimit).length := hn.trans (NumPy.find_map_length _ _)
    by_cases h0 : L.n = 0
    · have hL' : L.lower = [] ∧ L.upper = [] := by
        have hz : (NumPy.find ((angRows E c).map Constr.hasAngleLimit)).length = 0 := by rw [← hn]; exact h0
        unfold Constr.makeAang at hL
        simp only [Bool.false_eq_true, if_false, NumPy.gather_find, Option.bind_eq_bind, Option.bind_some, if_pos hz, Option.some.injEq] at hL
        rw [← hL]
        exact ⟨rfl, rfl⟩
      have hnil : (angRows E c).filter Constr.hasAngleLimit = [] := List.length_eq_zero_iff.1 (by omega)
      refine ⟨⟨cooMat L.n nb L.A, L.lower, L.upper, ["Va"]⟩, by simp [angOps, hig', hL], rfl, rfl, by simp [cooMat, h0, hL'], by simp [cooMat, h0, hL'],
        fun i hi => absurd hi (by simp [cooMat, h0]), fun _ b hb hlim => ?_,
        ⟨L, by rw [hig']; exact hL, by rw [hix, ← hn]; rfl, by rw [hix]; exact NumPy.find_nodup _, fun i k hi => ?_⟩, last⟩
      swap
      · have := (List.getElem?_eq_some_iff.1 hi).1
        rw [hix, ← hn] at this
        omega
      have : b ∈ (angRows E c).filter Constr.hasAngleLimit := List.mem_filter.2 ⟨hb, (Constr.hasAngleLimit_iff b).2 hlim⟩
      rw [hnil] at this
      simp at this
    · obtain ⟨hA, hl, hu⟩ := hrest (Nat.pos_of_ne_zero h0)
      have hcol : ∀ e ∈ L.A, e.2.1 < nb := by
        intro e he
        rw [hA] at he
        have h2 := (List.of_mem_zip (List.of_mem_zip (show (e.1, e.2) ∈ _ from he)).2 : e.2.1 ∈ _ ∧ _).1
        rcases List.mem_append.1 h2 with h3 | h3 <;>
        · obtain ⟨b, hb, e'⟩ := List.mem_map.1 h3
          have := hv b (List.mem_of_mem_filter hb)
          omega
      have rows : ∀ (i : ℕ) b, ((angRows E c).filter Constr.hasAngleLimit)[i]? = some b → AngRow ⟨cooMat L.n nb L.A, L.lower, L.upper, ["Va"]⟩ i b := by
        intro i b hi
        have hi' : i < L.n := by rw [hlen]; exact (List.getElem?_eq_some_iff.1 hi).1
        have hbi : ((angRows E c).filter Constr.hasAngleLimit)[i]'(by omega) = b := (List.getElem?_eq_some_iff.1 hi).2
        refine ⟨fun y => ?_, ?_, ?_⟩
        · show rowDot (cooMat L.n nb L.A) i y = _
          rw [cooMat_row _ _ _ _ _ hcol, hA, Constr.row_twoBlocks _ _ _ _ _ (by simp [hlen]) (by simp [hlen]) (by simp) (by simp) _ _ hi']
          simp only [List.getElem_map, List.getElem_replicate, hbi, one_mul, neg_one_mul, ← sub_eq_add_neg]
        · have hne : L.lower ≠ [] := fun h => by
            have := congrArg List.length hl
            rw [h, List.length_map, ← hlen] at this
            exact h0 this.symm
          unfold LinBlk.lo
          simp only [if_neg hne]
          rw [List.getD_eq_getElem?_getD, hl, List.getElem?_map, hi]
          rfl
        · have hne : L.upper ≠ [] := fun h => by
            have := congrArg List.length hu
            rw [h, List.length_map, ← hlen] at this
            exact h0 this.symm
          unfold LinBlk.hi
          simp only [if_neg hne]
          rw [List.getD_eq_getElem?_getD, hu, List.getElem?_map, hi]
          rfl
      refine ⟨⟨cooMat L.n nb L.A, L.lower, L.upper, ["Va"]⟩, by simp [angOps, hig', hL], rfl, rfl, by simp [cooMat, hl, hlen], by simp [cooMat, hu, hlen], ?_, ?_,
        ⟨L, by rw [hig']; exact hL, by rw [hix, ← hn]; rfl, by rw [hix]; exact NumPy.find_nodup _, ?_⟩, last⟩
      · intro i (hi : i < L.n)
        have hs : ((angRows E c).filter Constr.hasAngleLimit)[i]? = some (((angRows E c).filter Constr.hasAngleLimit)[i]'(by omega)) :=
          List.getElem?_eq_getElem (by omega)
        have hm := List.mem_filter.1 (List.mem_of_getElem? hs)
        exact ⟨_, hm.1, hig', (Constr.hasAngleLimit_iff _).1 hm.2, rows i _ hs⟩
      · intro _ b hb hlim
        obtain ⟨i, hi⟩ := List.mem_iff_getElem?.1 (List.mem_filter.2 ⟨hb, (Constr.hasAngleLimit_iff b).2 hlim⟩)
        exact ⟨i, by show i < L.n; rw [hlen]; exact (List.getElem?_eq_some_iff.1 hi).1, rows i b hi⟩
      · intro i k hi
        have hg := NumPy.gather_get (NumPy.gather_find (angRows E c) Constr.hasAngleLimit) i
        rw [hix] at hi
        rw [hi] at hg
        have hlt : i < ((angRows E c).filter Constr.hasAngleLimit).length := by
          have := (List.getElem?_eq_some_iff.1 hi).1
          omega
        rw [List.getElem?_eq_getElem hlt] at hg
        exact ⟨_, hg.symm, rows i _ (List.getElem?_eq_getElem hlt)⟩

theorem readCase_valid {base : ℝ} {c' : Index.Case Tables} {d : Case c'.bus.length c'.gen.length c'.branch.length} (h : readCase base c' = some d) (E : Econ) :
    ∀ b ∈ angRows E c', b.f < c'.bus.length ∧ b.t < c'.bus.length := by
  unfold readCase at h
  split at h
  swap
  · simp at h
  rename_i hval
  intro b hb
  obtain ⟨l, hl, rfl⟩ := List.mem_map.1 hb
  obtain ⟨k, hk, rfl⟩ := List.mem_iff_getElem.1 hl
  exact hval.2 ⟨k, hk⟩

section ang
variable {nb ng nl : ℕ} (d : Case nb ng nl) (E : Econ) (c' : Index.Case Tables) (hv : ∀ b ∈ angRows E c', b.f < nb ∧ b.t < nb)

include hv in
/-- Angle differences within their limits satisfy the block. -/
theorem ang_holds (extra : List Op) (x : ℕ → ℝ) (hx : E.ignoreAng = false → ∀ b ∈ angRows E c', Constr.Limited b → Constr.AngleOk b x) :
    Holds (varBlocks (dcOps d ++ extra)) (angOps E nb c' ++ []) x := by
  obtain ⟨B, hB, hvs, -, -, -, hrow, -⟩ := ang_block E nb c' hv
  rw [hB]
  refine ⟨fun b hb => by simp [varVals] at hb, fun b hb i hi => ?_⟩
  have : b = ("ang", B) := by simpa [linBlks] using hb
  subst this
  obtain ⟨b, hb, h1, h2, h3⟩ := hrow i hi
  obtain ⟨h4, h5⟩ := hx h1 b hb h2
  obtain ⟨v1, v2⟩ := hv b hb
  have ef := subvec_Va d extra x ⟨b.f, v1⟩
  have et := subvec_Va d extra x ⟨b.t, v2⟩
  simp only at ef et
  simp only
  rw [h3.lo, h3.hi, h3.row, hvs, ef, et]
  constructor
  · split_ifs with h0
    · exact EReal.coe_le_coe_iff.2 (h4 (by simpa using h0))
    · exact bot_le
  · split_ifs with h0
    · exact EReal.coe_le_coe_iff.2 (h5 (by simpa using h0))
    · exact le_top

theorem angOps_varBlocks : varBlocks (angOps E nb c') = [] := by
  unfold angOps
  split <;> rfl

end ang

/-! ### Another dispatch, in internal numbering -/

section feasible
variable {c R t : Index.Case Tables} {z : Off} {nb ng nl : ℕ} {d : Case nb ng nl} {u : Upd nb ng nl} {bp : Fin nb → ℕ} {gp : Fin ng → ℕ} {lp : Fin nl → ℕ}
  (B : Bridge c R z d u bp gp lp) (h : WF c) {E : Econ} {θ : ℕ → ℝ}

theorem map_at {α β : Type} {f : α → β} {a b : List α} (h : a.map f = b.map f) (i : ℕ) (x : α) (hx : b[i]? = some x) : ∃ y, a[i]? = some y ∧ f y = f x := by
  have := congrArg (·[i]?) h
  simp only [List.getElem?_map, hx, Option.map_some] at this
  exact Option.map_eq_some_iff.1 this

theorem same_connected {base : ℝ} (F : DcFeasible base E c t θ) (n : ℕ) : Connected t n ↔ Connected c n := by
  have one : ∀ {a b : Index.Case Tables}, a.bus.map busInput = b.bus.map busInput → Connected b n → Connected a n := by
    rintro a b hab ⟨x, hx, rfl, ht⟩
    obtain ⟨i, hi⟩ := List.getElem?_of_mem hx
    obtain ⟨y, hy, e⟩ := map_at hab i x hi
    have e1 : y.num = x.num := by simpa [busInput] using congrArg BusRow.num e
    have e2 : y.typ = x.typ := by simpa [busInput] using congrArg BusRow.typ e
    exact ⟨y, List.mem_of_getElem? hy, e1, by rw [e2]; exact ht⟩
  exact ⟨one F.bus.symm, one F.bus⟩

include B h in
/-- A feasible dispatch in the tables of the caller is one of the case in internal numbering. -/
theorem feasible_alt (F : DcFeasible d.base E c t θ) : Alternative d (fun k => vaAt t (bp k)) (fun k => pgAt t (gp k)) := by
  have hcon := same_connected F
  -- rows of `t`
  have busT : ∀ k, ∃ b0 b, c.bus[bp k]? = some b0 ∧ t.bus[bp k]? = some b ∧ b.num = b0.num ∧ b.typ = b0.typ ∧ b0.typ ≠ 4 ∧
      b.data.PD = b0.data.PD ∧ b.data.GS = b0.data.GS ∧ vaAt t (bp k) = θ b0.num := by
    intro k
    obtain ⟨b0, h0, h1, -⟩ := B.bus k
    obtain ⟨b, hb, e⟩ := map_at F.bus _ _ h0
    have e1 : b.num = b0.num := by simpa [busInput] using congrArg BusRow.num e
    refine ⟨b0, b, h0, hb, e1, by simpa [busInput] using congrArg BusRow.typ e, h1, by simpa [busInput] using congrArg (fun b => b.data.PD) e,
      by simpa [busInput] using congrArg (fun b => b.data.GS) e, ?_⟩
    rw [← e1, F.angles b (List.mem_of_getElem? hb)]
    simp [vaAt, hb]
  have genT : ∀ k, ∃ g0 g, c.gen[gp k]? = some g0 ∧ t.gen[gp k]? = some g ∧ g.bus = g0.bus ∧ g.data.PMIN = g0.data.PMIN ∧ g.data.PMAX = g0.data.PMAX ∧
      GenInService t g ∧ pgAt t (gp k) = g.data.PG := by
    intro k
    obtain ⟨g0, h0, h1, -⟩ := B.gen k
    obtain ⟨g, hg, e⟩ := map_at F.gen _ _ h0
    have e1 : g.bus = g0.bus := by simpa [genInput] using congrArg GenRow.bus e
    have e2 : g.status = g0.status := by simpa [genInput] using congrArg GenRow.status e
    refine ⟨g0, g, h0, hg, e1, by simpa [genInput] using congrArg (fun g => g.data.PMIN) e, by simpa [genInput] using congrArg (fun g => g.data.PMAX) e, ?_,
      by simp [pgAt, hg]⟩
    unfold GenInService at h1 ⊢
    rw [e1, e2, hcon]
    exact h1
  have brT : ∀ k, ∃ l0 l, c.branch[lp k]? = some l0 ∧ t.branch[lp k]? = some l ∧ l.f = l0.f ∧ l.t = l0.t ∧ l.data.rateA = l0.data.rateA ∧ BranchInService t l ∧
      l.data.PF = d.base * dcFlow (d.branch k) (fun k => vaAt t (bp k)) ∧ l.data.PT = -l.data.PF := by
    intro k
    obtain ⟨l0, h0, h1, -, ⟨bf, hbf, hnf⟩, ⟨bt, hbt, hnt⟩, hr, hx, hb', htap, hshift, hstat, -⟩ := B.branch k
    obtain ⟨l, hl, e⟩ := map_at F.branch _ _ h0
    have e1 : l.f = l0.f := by simpa [branchInput] using congrArg BranchRow.f e
    have e2 : l.t = l0.t := by simpa [branchInput] using congrArg BranchRow.t e
    have e3 : l.status = l0.status := by simpa [branchInput] using congrArg BranchRow.status e
    have e4 : l.data.x = l0.data.x := by simpa [branchInput] using congrArg (fun l => l.data.x) e
    have e5 : l.data.tap = l0.data.tap := by simpa [branchInput] using congrArg (fun l => l.data.tap) e
    have e6 : l.data.shift = l0.data.shift := by simpa [branchInput] using congrArg (fun l => l.data.shift) e
    have hon : BranchInService t l := by
      unfold BranchInService at h1 ⊢
      rw [e1, e2, e3, hcon, hcon]
      exact h1
    refine ⟨l0, l, h0, hl, e1, e2, by simpa [branchInput] using congrArg (fun l => l.data.rateA) e, hon, ?_, (F.flows l (List.mem_of_getElem? hl) hon).2⟩
    rw [(F.flows l (List.mem_of_getElem? hl) hon).1]
    congr 1
    obtain ⟨b1, _, h3, -, -, -, -, -, -, h4⟩ := busT (d.branch k).f
    obtain ⟨b2, _, h5, -, -, -, -, -, -, h6⟩ := busT (d.branch k).t
    rw [hbf] at h3; cases h3
    rw [hbt] at h5; cases h5
    simp only [dcFlow, asBranch, hstat, hx, htap, hshift, e1, e2, e3, e4, e5, e6, h4, h6, hnf, hnt]
  refine ⟨fun k => ?_, fun k h1 h2 => ?_, fun k => ?_, fun k hk => ?_⟩
  · obtain ⟨b0, b, h0, hb, e1, e2, h4, ePD, eGS, -⟩ := busT k
    obtain ⟨b1, h1, -, -, hbus, -⟩ := B.bus k
    rw [h0] at h1; cases h1
    have bal := F.balance b (List.mem_of_getElem? hb) (by rw [e2]; exact h4)
    unfold dcBalance at bal
    have hG : genAt t b.num GenD.PG = ∑ p with (d.gen p).bus = k, pgAt t (gp p) := by
      unfold genAt
      rw [filter_sum, Finset.sum_filter]
      refine sum_rows t.gen gp B.gInj _ _ (fun p => ?_) ?_
      · obtain ⟨g0, g, h5, h6, e3, -, -, -, e4⟩ := genT p
        obtain ⟨g1, h7, -, -, ⟨b', hb', hn⟩, -⟩ := B.gen p
        rw [h5] at h7; cases h7
        refine ⟨g, h6, ?_⟩
        have : (g.bus == b.num) = decide ((d.gen p).bus = k) := by
          rw [e3, e1, ← hn]
          have := B.sameBus h hb' h0
          by_cases e : (d.gen p).bus = k <;> simp [e, this]
        simp only [this, e4, decide_eq_true_eq]
      · intro i g hi hk
        obtain ⟨g0, hg0, e⟩ := map_at F.gen.symm _ _ hi
        have e3 : g0.bus = g.bus := by simpa [genInput] using congrArg GenRow.bus e
        have e4 : g0.status = g.status := by simpa [genInput] using congrArg GenRow.status e
        have : ¬ GenInService t g := fun hh => by
          obtain ⟨p, hp⟩ := B.genOn i g0 hg0 (by
            unfold GenInService at hh ⊢
            rw [e3, e4, ← hcon]; exact hh)
          exact hk p hp
        rw [F.genOff g (List.mem_of_getElem? hi) this]
        simp
    have off : ∀ (i : ℕ) l, t.branch[i]? = some l → (∀ k, lp k ≠ i) → l.data.PF = 0 ∧ l.data.PT = 0 := by
      intro i l hi hk
      obtain ⟨l0, hl0, e⟩ := map_at F.branch.symm _ _ hi
      have e3 : l0.f = l.f := by simpa [branchInput] using congrArg BranchRow.f e
      have e4 : l0.t = l.t := by simpa [branchInput] using congrArg BranchRow.t e
      have e5 : l0.status = l.status := by simpa [branchInput] using congrArg BranchRow.status e
      refine F.brOff l (List.mem_of_getElem? hi) fun hh => ?_
      obtain ⟨p, hp⟩ := B.brOn i l0 hl0 (by
        unfold BranchInService at hh ⊢
        rw [e3, e4, e5, ← hcon, ← hcon]; exact hh)
      exact hk p hp
    have hF : fromAt t b.num BrD.PF = ∑ l with (d.branch l).f = k, d.base * dcFlow (d.branch l) (fun k => vaAt t (bp k)) := by
      unfold fromAt
      rw [filter_sum, Finset.sum_filter]
      refine sum_rows t.branch lp B.lInj _ _ (fun p => ?_) ?_
      · obtain ⟨l0, l, h5, h6, e3, -, -, -, e4, -⟩ := brT p
        obtain ⟨l1, h7, -, -, ⟨b', hb', hn⟩, -⟩ := B.branch p
        rw [h5] at h7; cases h7
        refine ⟨l, h6, ?_⟩
        have : (l.f == b.num) = decide ((d.branch p).f = k) := by
          rw [e3, e1, ← hn]
          have := B.sameBus h hb' h0
          by_cases e : (d.branch p).f = k <;> simp [e, this]
        simp only [this, e4, decide_eq_true_eq]
      · intro i l hi hk
        simp [(off i l hi hk).1]
    have hT : toAt t b.num BrD.PT = ∑ l with (d.branch l).t = k, -(d.base * dcFlow (d.branch l) (fun k => vaAt t (bp k))) := by
      unfold toAt
      rw [filter_sum, Finset.sum_filter]
      refine sum_rows t.branch lp B.lInj _ _ (fun p => ?_) ?_
      · obtain ⟨l0, l, h5, h6, -, e3, -, -, e4, e5⟩ := brT p
        obtain ⟨l1, h7, -, -, -, ⟨b', hb', hn⟩, -⟩ := B.branch p
        rw [h5] at h7; cases h7
        refine ⟨l, h6, ?_⟩
        have : (l.t == b.num) = decide ((d.branch p).t = k) := by
          rw [e3, e1, ← hn]
          have := B.sameBus h hb' h0
          by_cases e : (d.branch p).t = k <;> simp [e, this]
        simp only [this, e5, e4, decide_eq_true_eq]
      · intro i l hi hk
        simp [(off i l hi hk).2]
    rw [hG, hF, hT, ePD, eGS] at bal
    unfold mismatchP
    rw [hbus]
    exact bal
  · obtain ⟨l0, l, h5, h6, -, -, e3, hon, e4, -⟩ := brT k
    obtain ⟨l1, h7, -, -, -, -, -, -, -, -, -, -, hr⟩ := B.branch k
    rw [h5] at h7; cases h7
    rw [hr, ← e3] at h1 h2
    rw [← e4, hr, ← e3]
    exact F.rating l (List.mem_of_getElem? h6) hon h1 h2
  · obtain ⟨g0, g, h5, h6, -, e3, e4, hon, e5⟩ := genT k
    obtain ⟨g1, h7, -, -, -, -, h8, h9, -⟩ := B.gen k
    rw [h5] at h7; cases h7
    rw [h8, h9, e5, ← e3, ← e4]
    exact F.limits g (List.mem_of_getElem? h6) hon
  · obtain ⟨b0, b, h0, hb, e1, e2, -⟩ := busT k
    obtain ⟨b1, h1, -, -, -, hr, hva, -⟩ := B.bus k
    rw [h0] at h1; cases h1
    have h3 : b.typ = 3 := by rw [e2]; simpa [hr] using hk
    unfold Case.vaRad
    rw [hva, ← F.ref _ b b0 hb h0 h3]
    simp [vaAt, hb]

end feasible

/-! ### The rows for piecewise linear costs -/

theorem segRows_mem (col ycol : ℕ) : ∀ (pts : List (ℝ × ℝ)) (r : AyRow ℝ), r ∈ segRows col ycol pts → ∃ (k : ℕ) (a b : ℝ × ℝ), pts[k]? = some a ∧ pts[k + 1]? = some b ∧
    r.slope = (b.2 - a.2) / (b.1 - a.1) ∧ r.rhs = (b.2 - a.2) / (b.1 - a.1) * a.1 - a.2 := by
  intro pts
  induction pts with
  | nil => intro r h; simp [segRows] at h
  | cons a pts ih =>
    intro r h
    cases pts with
    | nil => simp [segRows] at h
    | cons b pts =>
      rw [segRows, List.mem_cons] at h
      rcases h with h | h
      · subst h
        exact ⟨0, a, b, rfl, rfl, rfl, rfl⟩
      · obtain ⟨k, a', b', h1, h2, h3⟩ := ih r h
        exact ⟨k + 1, a', b', h1, h2, h3⟩

theorem ayLoop_mem (base : ℝ) (hb : 0 < base) (ng q y : ℕ) : ∀ (rows : List (CostRow ℝ)) (i j : ℕ), (∀ row ∈ rows, row.model = 1 → PwlRow row) →
    ∀ r ∈ ayLoop base ng 1 q y i j rows, ∃ row ∈ rows, row.model = 1 ∧ ∃ k, k + 1 < row.ncost ∧ r.slope = base * slope row k ∧
      r.rhs = slope row k * (Cost.bp row k).1 - (Cost.bp row k).2 := by
  intro rows
  induction rows with
  | nil => intro i j _ r h; simp [ayLoop] at h
  | cons a rows ih =>
    intro i j hrow r h
    have hrow' : ∀ row ∈ rows, row.model = 1 → PwlRow row := fun row hr => hrow row (List.mem_cons_of_mem _ hr)
    rw [ayLoop] at h
    split_ifs at h with hm
    · rcases List.mem_append.1 h with h | h
      · obtain ⟨k, x, z, h1, h2, h3, h4⟩ := segRows_mem _ _ _ r h
        have hp := hrow a List.mem_cons_self hm
        have hlen : (pairs a.data).length ≥ a.ncost := by rw [pairs_length]; have := hp.data; omega
        have hk : k + 1 < a.ncost := by
          have := (List.getElem?_eq_some_iff.1 h2).1
          simp only [List.length_map, List.length_take] at this
          omega
        have get : ∀ n, n < a.ncost → ((((pairs a.data).take a.ncost).map fun pc => (pc.1 / base, pc.2))[n]?) = some ((Cost.bp a n).1 / base, (Cost.bp a n).2) := by
          intro n hn
          rw [List.getElem?_map, List.getElem?_take, if_pos hn, pairs_get _ _ (by have := hp.data; omega)]
          rfl
        rw [get _ (by omega)] at h1
        rw [get _ hk] at h2
        injection h1 with h1
        injection h2 with h2
        subst h1 h2
        have hne : (Cost.bp a (k + 1)).1 - (Cost.bp a k).1 ≠ 0 := by have := hp.incr k hk; linarith
        have hbn := hb.ne'
        have e : ((Cost.bp a (k + 1)).2 - (Cost.bp a k).2) / ((Cost.bp a (k + 1)).1 / base - (Cost.bp a k).1 / base) = base * slope a k := by
          unfold Cost.slope
          rw [← sub_div]
          field_simp
        refine ⟨a, List.mem_cons_self, hm, k, hk, h3.trans e, ?_⟩
        rw [h4, e]
        field_simp
      · obtain ⟨row, h1, h2⟩ := ih _ _ hrow' r h
        exact ⟨row, List.mem_cons_of_mem _ h1, h2⟩
    · obtain ⟨row, h1, h2⟩ := ih _ _ hrow' r h
      exact ⟨row, List.mem_cons_of_mem _ h1, h2⟩

/-! ### Rows in service -/

section onrows
variable {c R : Index.Case Tables} {z : Off} {nb ng nl : ℕ} {d : Case nb ng nl} {u : Upd nb ng nl} {bp : Fin nb → ℕ} {gp : Fin ng → ℕ} {lp : Fin nl → ℕ}
  (B : Bridge c R z d u bp gp lp)

include B

theorem Bridge.onBuses_sum (F : ℕ → ℝ) : ∑ i ∈ onBuses c, F i = ∑ k, F (bp k) := by
  have : onBuses c = Finset.univ.image bp := by
    ext i
    simp only [onBuses, Finset.mem_filter, Finset.mem_range, Finset.mem_image, Finset.mem_univ, true_and]
    constructor
    · rintro ⟨-, b, h1, h2⟩
      exact B.busOn i b h1 h2
    · rintro ⟨k, rfl⟩
      obtain ⟨b, h1, h2, -⟩ := B.bus k
      exact ⟨(List.getElem?_eq_some_iff.1 h1).1, b, h1, h2⟩
  rw [this, Finset.sum_image fun a _ b _ e => B.bInj e]

theorem Bridge.onGens_eq : onGens c = Finset.univ.image gp := by
  ext i
  simp only [onGens, Finset.mem_filter, Finset.mem_range, Finset.mem_image, Finset.mem_univ, true_and]
  constructor
  · rintro ⟨-, g, h1, h2⟩
    exact B.genOn i g h1 h2
  · rintro ⟨k, rfl⟩
    obtain ⟨g, h1, h2, -⟩ := B.gen k
    exact ⟨(List.getElem?_eq_some_iff.1 h1).1, g, h1, h2⟩

theorem Bridge.onGens_sum (F : ℕ → ℝ) : ∑ i ∈ onGens c, F i = ∑ k, F (gp k) := by
  rw [B.onGens_eq, Finset.sum_image fun a _ b _ e => B.gInj e]

theorem Bridge.pwlGens_eq : pwlGens c = (Finset.univ.filter fun k => (costAt c (gp k)).model = 1 ∧ (costAt c (gp k)).ncost ≠ 2).image gp := by
  unfold pwlGens
  rw [B.onGens_eq, Finset.filter_image]

theorem Bridge.pwlGens_sum (F : ℕ → ℝ) : ∑ i ∈ pwlGens c, F i = ∑ k with (costAt c (gp k)).model = 1 ∧ (costAt c (gp k)).ncost ≠ 2, F (gp k) := by
  rw [B.pwlGens_eq, Finset.sum_image fun a _ b _ e => B.gInj e]

end onrows

theorem pwl1_model {r : CostRow ℝ} (h : CostOK r) : (pwl1Row r).model = 1 ↔ r.model = 1 ∧ r.ncost ≠ 2 := by
  unfold pwl1Row
  split_ifs with hc
  · obtain ⟨m, n, dat⟩ := r
    obtain ⟨rfl, rfl⟩ := hc
    rcases h with h | h
    · have hd : 4 ≤ dat.length := by simpa using h.1.data
      match dat, hd with
      | x0 :: y0 :: x1 :: y1 :: rest, _ => simp
    · have := h.1.model
      simp at this
  · tauto

/-! ### A run, in internal numbering -/

/-- How the returned tables go with the internal ones. -/
structure DcRun (base : ℝ) (E : Econ) (c : Index.Case Tables) (r : Ret) (c' : Index.Case Tables)
    (d : Case c'.bus.length c'.gen.length c'.branch.length) (s : DcRes c'.bus.length c'.gen.length c'.branch.length)
    (p : PostMu c'.gen.length c'.branch.length) (bp : Fin c'.bus.length → ℕ) (gp : Fin c'.gen.length → ℕ) (lp : Fin c'.branch.length → ℕ) : Prop where
  bridge : Bridge c r.tables opfOff d (dcUpd s p) bp gp lp
  base : d.base = base
  valid : ∀ b ∈ angRows E c', b.f < c'.bus.length ∧ b.t < c'.bus.length
  success : r.success = s.success
  f : r.f = s.f
  tol : r.tol = s.tol
  dual : r.dual = s.dual
  cost : ∀ k : Fin c'.gen.length, costAt c' k = costAt c (gp k)
  ends : ∀ k : Fin c'.branch.length, ∃ l, c.branch[lp k]? = some l ∧ c'.branch[k].data = l.data ∧ c'.branch[k].f = (d.branch k).f.val ∧ c'.branch[k].t = (d.branch k).t.val

/-- What a run amounts to in internal numbering. -/
structure EconRun (srt : List ℕ → List ℕ) (bs : ℝ) (E : Econ) (o : Opt) (solve : AnySolver) (c : Index.Case Tables) (r : Ret) (c' : Index.Case Tables)
    (d : Case c'.bus.length c'.gen.length c'.branch.length) (m : Model) (s : DcRes c'.bus.length c'.gen.length c'.branch.length)
    (p : PostMu c'.gen.length c'.branch.length) (bp : Fin c'.bus.length → ℕ) (gp : Fin c'.gen.length → ℕ) (lp : Fin c'.branch.length → ℕ) : Prop
    extends DcRun bs E c r c' d s p bp gp lp where
  run : OpfModel.run (dcOps d ++ (angOps E c'.bus.length c' ++ (pwlOps d.base (fun k : Fin c'.gen.length => pwl1Row (costAt c' k)) ++ []))) = some m
  good : Good (dcOps d ++ (angOps E c'.bus.length c' ++ (pwlOps d.base (fun k : Fin c'.gen.length => pwl1Row (costAt c' k)) ++ [])))
  sol : dcopfSolver d m (HH (dcData d.base (fun k : Fin c'.gen.length => pwl1Row (costAt c' k)) (noUser m.var.total) c'.bus.length (c'.bus.length + c'.gen.length) (dc_width run good)))
    (CC (dcData d.base (fun k : Fin c'.gen.length => pwl1Row (costAt c' k)) (noUser m.var.total) c'.bus.length (c'.bus.length + c'.gen.length) (dc_width run good)))
    (C0 (dcData d.base (fun k : Fin c'.gen.length => pwl1Row (costAt c' k)) (noUser m.var.total) c'.bus.length (c'.bus.length + c'.gen.length) (dc_width run good)))
    o solve (E.x0 c' m) = some s
  size : r.size = m.var.total + m.lin.total
  post : p = angPost E c' m s
  ext : Index.ext2int srt c = some c'
  read : readCase bs c' = some d
  bpos : ∀ k : Fin c'.bus.length, (Index.posOf srt c .bus)[(k : ℕ)]? = some (bp k)
  gpos : ∀ k : Fin c'.gen.length, (Index.posOf srt c .gen)[(k : ℕ)]? = some (gp k)

theorem econ_run {srt : List ℕ → List ℕ} (hs : IsArgsort srt) {base : ℝ} {E : Econ} {o : Opt} {solve : AnySolver} {c : Index.Case Tables} (h : WF c)
    (hgc : c.gencost.isSome)
    (hgood : ∀ c' d, Index.ext2int srt c = some c' → readCase base c' = some d → Good (dcOps d ++ (econSetup base E).extra d c'))
    {r : Ret} (hrun : opfDcEcon srt base E o solve c = some r) :
    ∃ c' d m s p bp gp lp, EconRun srt base E o solve c r c' d m s p bp gp lp := by
  unfold opfDcEcon opfDc at hrun
  simp only [Option.bind_eq_bind, Option.bind_eq_some_iff] at hrun
  obtain ⟨c', hc', d, hd, m, hm, s, hs', r1, hr, e⟩ := hrun
  injection e with e
  subst e
  obtain ⟨bp, gp, lp, B, -, -, -, hbr, hco, hbp, hgp, -⟩ := bridge_at hs h hc' hd _ hr opfOff
  have hbase := readCase_base hd
  have hval := readCase_valid hd E
  have g := hgood c' d hc' hd
  subst hbase
  have hw := dc_width hm g
  refine ⟨c', d, m, s, _, bp, gp, lp, ⟨B, rfl, hval, rfl, rfl, rfl, rfl, ?_, hbr⟩, hm, g, ?_, rfl, rfl, hc', hd, hbp, hgp⟩
  rotate_left
  · simp only [econSetup, dif_pos hw] at hs'
    exact hs'
  · obtain ⟨gc, hgc⟩ := Option.isSome_iff_exists.1 hgc
    obtain ⟨gc', h1, h2⟩ := hco gc hgc
    intro k
    simp only [costAt, hgc, h1, Option.getD_some, List.getD_eq_getElem?_getD, h2]

end Verif.Opf
