import Verif.Opf.SensLemmas
import Verif.Opf.SensSpec
import Verif.Opf.EconProps

/-!
# C128: prices and shadow prices of a DC optimal power flow say what changes of demand and limits cost
-/

namespace Verif.Opf

open Verif.Index (BusRow GenRow BranchRow IsArgsort WF HasBus GenInService BranchInService Connected)
open Verif.OpfModel Verif.Pips Verif.Network Verif.Cost Verif.OpfCost

section
variable {nb ng nl : ℕ}
variable (d : Case nb ng nl) (gc0 : Fin ng → CostRow ℝ) (hgc : ∀ p, CostOK (gc0 p)) (hb : 0 < d.base) (lin post : List Op) (hlin : varBlocks lin = [])
  (m : Model) (hm : OpfModel.run (dcOps d ++ (lin ++ (pwlOps d.base (fun p => pwl1Row (gc0 p)) ++ post))) = some m)
  (g : Good (dcOps d ++ (lin ++ (pwlOps d.base (fun p => pwl1Row (gc0 p)) ++ post))))
  {W : Type} [Fintype W] [DecidableEq W] (u : UserCost m.var.total W) (hu : u.Convex)
  (o : Opt) (solve : AnySolver) (x0 : Fin m.var.total → ℝ) (hc : 0 < o.costMult) (hft : 0 ≤ o.feastol)
  (D : DcData (Fin m.var.total) {p : Fin ng // (pwl1Row (gc0 p)).model = 2} W)
  (hD : D = dcData d.base (fun p => pwl1Row (gc0 p)) u nb (nb + ng) (dc_width hm g))
  (s : DcRes nb ng nl) (hs : dcopfSolver d m (HH D) (CC D) (C0 D) o solve x0 = some s) (hok : s.success = true)

include hgc hb hlin hm g hu hc hD hs hok hft in
/-- C83 for a dispatch of the system with other demand and limits. -/
theorem C128_dc (hstat : ∀ l, (d.branch l).stat = 0 ∨ (d.branch l).stat = 1) (pd : Fin nb → ℝ) (pmin pmax : Fin ng → ℝ) (rate : Fin nl → ℝ)
    (hlim : ∀ l ∈ d.il, rate l ≠ 0 ∧ rate l < 10 ^ 10) (va : Fin nb → ℝ) (pg : Fin ng → ℝ) (z : ℕ → ℝ)
    (ha : Alternative (d.withLimits pd pmin pmax rate) va pg)
    (ho : Holds (varBlocks (dcOps d ++ (lin ++ (pwlOps d.base (fun p => pwl1Row (gc0 p)) ++ post)))) (lin ++ post)
      (stack d (fun p => pwl1Row (gc0 p)) va pg z)) :
    s.f + ∑ b, s.LAM_P b * (pd b - (d.bus b).PD) + ∑ p, (s.MU_PMIN p * (pmin p - d.pmin p) - s.MU_PMAX p * (pmax p - d.pmax p)) -
        ∑ l, (s.MU_SF l + s.MU_ST l) * (rate l - d.rateA l) - u.offset ≤
      ∑ p, rowVal (pwl1Row (gc0 p)) (pg p) + u.value (fun i => stack d (fun p => pwl1Row (gc0 p)) va pg z i) +
      gap o (m.var.total + m.lin.total) ‖fun i : Fin m.var.total => s.x i‖ s.dual s.tol
        (∑ i : Fin m.var.total, |stack d (fun p => pwl1Row (gc0 p)) va pg z i - s.x i|) +
      1 / 10 ^ 5 / (o.costMult * d.base) * (∑ p, (|pmin p - d.pmin p| + |pmax p - d.pmax p|) + 2 * ∑ l, |rate l - d.rateA l|) := by
  have hgc' : ∀ p, CostOK ((fun p => pwl1Row (gc0 p)) p) := fun p => costOK_pwl1 (hgc p)
  set gc : Fin ng → CostRow ℝ := fun p => pwl1Row (gc0 p) with hgcdef
  set y := stack d gc va pg z with hydef
  have y1 : ∀ b : Fin nb, y b = va b := by
    intro b
    simp [hydef, stack]
  have y2 : ∀ p : Fin ng, y (nb + p) = pg p / d.base := by
    intro p
    simp [hydef, stack]
  have y3 : ∀ p : Fin ng, (gc p).model = 1 → y (nb + ng + pwlPos gc p) = pwlCost (gc p) (pg p) := by
    intro p hp
    have hlt := pwlPos_lt gc p hp
    have hget : (ipwl gc).get ⟨pwlPos gc p, hlt⟩ = p := by
      have := (List.getElem?_eq_some_iff.1 (ipwl_at gc p hp)).2
      simpa using this
    have n1 : ¬ (nb + ng + pwlPos gc p < nb) := by omega
    have n2 : ¬ (nb + ng + pwlPos gc p - nb < ng) := by omega
    have e : nb + ng + pwlPos gc p - nb - ng = pwlPos gc p := by omega
    simp only [hydef, stack, dif_neg n1, dif_neg n2, e, dif_pos hlt, hget]
    simp [rowVal, hp]
  have hbne : d.base ≠ 0 := hb.ne'
  have y2' : ∀ p : Fin ng, d.base * y (nb + p) = pg p := fun p => by rw [y2]; field_simp
  have hsplitH : Holds (varBlocks (dcOps d ++ (lin ++ (pwlOps d.base gc ++ post)))) (lin ++ (pwlOps d.base gc ++ post)) y := by
    have ho1 : Holds (varBlocks (dcOps d ++ (lin ++ (pwlOps d.base gc ++ post)))) lin y :=
      ⟨fun b hb' => ho.vars b (by simp only [varVals, List.filterMap_append, List.mem_append]; exact Or.inl hb'),
        fun b hb' => ho.rows b (by simp only [linBlks, List.filterMap_append, List.mem_append]; exact Or.inl hb')⟩
    have ho2 : Holds (varBlocks (dcOps d ++ (lin ++ (pwlOps d.base gc ++ post)))) post y :=
      ⟨fun b hb' => ho.vars b (by simp only [varVals, List.filterMap_append, List.mem_append]; exact Or.inr hb'),
        fun b hb' => ho.rows b (by simp only [linBlks, List.filterMap_append, List.mem_append]; exact Or.inr hb')⟩
    exact ho1.append ((pwl_holds d gc hgc' hb lin post hlin y fun p hp => by rw [y2', y3 p hp]).append ho2)
  have hsym := HH_symm D (by rw [hD]; exact hu.symm)
  have hpsd := HH_psd D (by subst hD; exact polycf_nonneg gc hgc' d.base u nb (nb + ng) (dc_width hm g)) (by rw [hD]; exact hu.psd)
  have main := dc_sens hm g hs hc hft hsym hpsd hok hb hstat pd pmin pmax rate hlim va pg ha y y1 y2 hsplitH
  have hobj := objective_eq gc hgc' d.base u nb (nb + ng) (dc_width hm g) (y_width d gc0 lin post hlin m hm g) hu.symm y
  unfold dcObjective at hobj
  rw [← hD] at hobj
  rw [hobj] at main
  have hsplit := cost_split gc hgc' pg
  have e1 : ∑ p with (gc p).model = 1, y (nb + ng + pwlPos gc p) = ∑ p with (gc p).model = 1, pwlCost (gc p) (pg p) :=
    Finset.sum_congr rfl fun p hp => y3 p (Finset.mem_filter.1 hp).2
  simp only [y2', e1] at main
  rw [hsplit]
  linarith

end

/-! ### In the tables of the caller -/

section other
variable {c c2 : Index.Case Tables} (O : OtherLimits c c2)

include O

theorem OtherLimits.busAt (i : ℕ) : (∀ b, c.bus[i]? = some b → ∃ b2, c2.bus[i]? = some b2 ∧ b2 = { b with data := { b.data with PD := b2.data.PD } }) ∧
    ∀ b2, c2.bus[i]? = some b2 → ∃ b, c.bus[i]? = some b ∧ b2 = { b with data := { b.data with PD := b2.data.PD } } := by
  have key : ∀ b b2 : BusRow BusD, ({ b2 with data := { b2.data with PD := 0 } } : BusRow BusD) = { b with data := { b.data with PD := 0 } } →
      b2 = { b with data := { b.data with PD := b2.data.PD } } := by
    rintro ⟨_, _, _, ⟨⟩⟩ ⟨_, _, _, ⟨⟩⟩ e
    simp only [BusRow.mk.injEq, BusD.mk.injEq] at e ⊢
    tauto
  constructor
  · intro b hb
    obtain ⟨b2, h, e⟩ := map_at O.bus i b hb
    exact ⟨b2, h, key _ _ e⟩
  · intro b2 hb
    obtain ⟨b, h, e⟩ := map_at O.bus.symm i b2 hb
    exact ⟨b, h, key _ _ e.symm⟩

theorem OtherLimits.genAt' (i : ℕ) : (∀ g, c.gen[i]? = some g → ∃ g2, c2.gen[i]? = some g2 ∧ g2 = { g with data := { g.data with PMIN := g2.data.PMIN, PMAX := g2.data.PMAX } }) ∧
    ∀ g2, c2.gen[i]? = some g2 → ∃ g, c.gen[i]? = some g ∧ g2 = { g with data := { g.data with PMIN := g2.data.PMIN, PMAX := g2.data.PMAX } } := by
  have key : ∀ g g2 : GenRow GenD, ({ g2 with data := { g2.data with PMIN := 0, PMAX := 0 } } : GenRow GenD) = { g with data := { g.data with PMIN := 0, PMAX := 0 } } →
      g2 = { g with data := { g.data with PMIN := g2.data.PMIN, PMAX := g2.data.PMAX } } := by
    rintro ⟨_, _, ⟨⟩⟩ ⟨_, _, ⟨⟩⟩ e
    simp only [GenRow.mk.injEq, GenD.mk.injEq] at e ⊢
    tauto
  constructor
  · intro b hb
    obtain ⟨b2, h, e⟩ := map_at O.gen i b hb
    exact ⟨b2, h, key _ _ e⟩
  · intro b2 hb
    obtain ⟨b, h, e⟩ := map_at O.gen.symm i b2 hb
    exact ⟨b, h, key _ _ e.symm⟩

theorem OtherLimits.brAt (i : ℕ) : (∀ l, c.branch[i]? = some l → ∃ l2, c2.branch[i]? = some l2 ∧ l2 = { l with data := { l.data with rateA := l2.data.rateA } }) ∧
    ∀ l2, c2.branch[i]? = some l2 → ∃ l, c.branch[i]? = some l ∧ l2 = { l with data := { l.data with rateA := l2.data.rateA } } := by
  have key : ∀ l l2 : BranchRow BrD, ({ l2 with data := { l2.data with rateA := 0 } } : BranchRow BrD) = { l with data := { l.data with rateA := 0 } } →
      l2 = { l with data := { l.data with rateA := l2.data.rateA } } := by
    rintro ⟨_, _, _, ⟨⟩⟩ ⟨_, _, _, ⟨⟩⟩ e
    simp only [BranchRow.mk.injEq, BrD.mk.injEq] at e ⊢
    tauto
  constructor
  · intro b hb
    obtain ⟨b2, h, e⟩ := map_at O.branch i b hb
    exact ⟨b2, h, key _ _ e⟩
  · intro b2 hb
    obtain ⟨b, h, e⟩ := map_at O.branch.symm i b2 hb
    exact ⟨b, h, key _ _ e.symm⟩

theorem OtherLimits.connected (n : ℕ) : Connected c2 n ↔ Connected c n := by
  constructor
  · rintro ⟨b2, hb, rfl, ht⟩
    obtain ⟨i, hi⟩ := List.getElem?_of_mem hb
    obtain ⟨b, h, e⟩ := (O.busAt i).2 b2 hi
    rw [e] at ht ⊢
    exact ⟨b, List.mem_of_getElem? h, rfl, ht⟩
  · rintro ⟨b, hb, rfl, ht⟩
    obtain ⟨i, hi⟩ := List.getElem?_of_mem hb
    obtain ⟨b2, h, e⟩ := (O.busAt i).1 b hi
    exact ⟨b2, List.mem_of_getElem? h, by rw [e], by rw [e]; exact ht⟩

theorem OtherLimits.nums : c2.bus.map (·.num) = c.bus.map (·.num) := by
  have := congrArg (List.map BusRow.num) O.bus
  simpa [List.map_map, Function.comp_def] using this

/-- The case with other limits, for the parts that matter, is well-formed. -/
theorem OtherLimits.wf (h : WF c) : WF { c with bus := c2.bus, gen := c2.gen, branch := c2.branch } := by
  have hlen := congrArg List.length O.bus
  have hglen := congrArg List.length O.gen
  rw [List.length_map, List.length_map] at hlen hglen
  have has : ∀ n, HasBus c n → HasBus { c with bus := c2.bus, gen := c2.gen, branch := c2.branch } n := by
    rintro n ⟨b, hb, e⟩
    obtain ⟨i, hi⟩ := List.getElem?_of_mem hb
    obtain ⟨b2, h2, e2⟩ := (O.busAt i).1 b hi
    exact ⟨b2, List.mem_of_getElem? h2, by rw [e2]; exact e⟩
  refine ⟨?_, ?_, ?_, ?_, ?_, ?_, ?_, ?_, ?_, ?_, h.notInternal⟩
  · show (c2.bus.map (·.num)).Nodup
    rw [O.nums]
    exact h.busNodup
  · intro b2 hb
    obtain ⟨i, hi⟩ := List.getElem?_of_mem (show b2 ∈ c2.bus from hb)
    obtain ⟨b, h2, e2⟩ := (O.busAt i).2 b2 hi
    rw [e2]
    exact h.typValid b (List.mem_of_getElem? h2)
  · obtain ⟨b, hb, ht⟩ := h.someOn
    obtain ⟨i, hi⟩ := List.getElem?_of_mem hb
    obtain ⟨b2, h2, e2⟩ := (O.busAt i).1 b hi
    exact ⟨b2, List.mem_of_getElem? h2, by rw [e2]; exact ht⟩
  · intro g2 hg
    obtain ⟨i, hi⟩ := List.getElem?_of_mem (show g2 ∈ c2.gen from hg)
    obtain ⟨g, h2, e2⟩ := (O.genAt' i).2 g2 hi
    rw [e2]
    exact has _ (h.genRef g (List.mem_of_getElem? h2))
  · intro l2 hl
    obtain ⟨i, hi⟩ := List.getElem?_of_mem (show l2 ∈ c2.branch from hl)
    obtain ⟨l, h2, e2⟩ := (O.brAt i).2 l2 hi
    rw [e2]
    exact has _ (h.fRef l (List.mem_of_getElem? h2))
  · intro l2 hl
    obtain ⟨i, hi⟩ := List.getElem?_of_mem (show l2 ∈ c2.branch from hl)
    obtain ⟨l, h2, e2⟩ := (O.brAt i).2 l2 hi
    rw [e2]
    exact has _ (h.tRef l (List.mem_of_getElem? h2))
  · intro as ha a hm
    exact has _ (h.areaRef as ha a hm)
  · intro gc hgc
    show c2.gen.length ≤ _
    rw [hglen]
    exact h.costRows gc hgc
  · intro M hM
    have := h.aCols M hM
    unfold Index.minCols Index.isDC at this ⊢
    simpa [hlen, hglen] using this
  · intro M hM
    have := h.nCols M hM
    unfold Index.minCols Index.isDC at this ⊢
    simpa [hlen, hglen] using this

end other

section onbr
variable {c R : Index.Case Tables} {z : Off} {nb ng nl : ℕ} {d : Case nb ng nl} {u : Upd nb ng nl} {bp : Fin nb → ℕ} {gp : Fin ng → ℕ} {lp : Fin nl → ℕ}
  (B : Bridge c R z d u bp gp lp)

include B

theorem Bridge.onBranches_sum (F : ℕ → ℝ) : ∑ i ∈ onBranches c, F i = ∑ k, F (lp k) := by
  have : onBranches c = Finset.univ.image lp := by
    ext i
    simp only [onBranches, Finset.mem_filter, Finset.mem_range, Finset.mem_image, Finset.mem_univ, true_and]
    constructor
    · rintro ⟨-, b, h1, h2⟩
      exact B.brOn i b h1 h2
    · rintro ⟨k, rfl⟩
      obtain ⟨b, h1, h2, -⟩ := B.branch k
      exact ⟨(List.getElem?_eq_some_iff.1 h1).1, b, h1, h2⟩
  rw [this, Finset.sum_image fun a _ b _ e => B.lInj e]

/-- The bridge for the case with other limits. -/
theorem Bridge.other {c2 : Index.Case Tables} (O : OtherLimits c c2) :
    Bridge { c with bus := c2.bus, gen := c2.gen, branch := c2.branch } { c with bus := c2.bus, gen := c2.gen, branch := c2.branch } ⟨id, id⟩
      (d.withLimits (fun k => cell c2.bus (fun b => b.data.PD) (bp k)) (fun k => cell c2.gen (fun g => g.data.PMIN) (gp k))
        (fun k => cell c2.gen (fun g => g.data.PMAX) (gp k)) (fun k => cell c2.branch (fun l => l.data.rateA) (lp k)))
      ⟨fun _ => id, fun _ => id, fun _ => id⟩ bp gp lp := by
  have num : ∀ {n : ℕ} {i : ℕ}, (∃ b, c.bus[i]? = some b ∧ b.num = n) → ∃ b, c2.bus[i]? = some b ∧ b.num = n := by
    rintro n i ⟨b, hb, e⟩
    obtain ⟨b2, h2, e2⟩ := (O.busAt i).1 b hb
    exact ⟨b2, h2, by rw [e2]; exact e⟩
  have gs : ∀ g g2 : GenRow GenD, g2 = { g with data := { g.data with PMIN := g2.data.PMIN, PMAX := g2.data.PMAX } } →
      (GenInService { c with bus := c2.bus, gen := c2.gen, branch := c2.branch } g2 ↔ GenInService c g) := by
    intro g g2 e
    unfold GenInService
    rw [e]
    exact and_congr_right fun _ => O.connected _
  have ls : ∀ l l2 : BranchRow BrD, l2 = { l with data := { l.data with rateA := l2.data.rateA } } →
      (BranchInService { c with bus := c2.bus, gen := c2.gen, branch := c2.branch } l2 ↔ BranchInService c l) := by
    intro l l2 e
    unfold BranchInService
    rw [e]
    exact and_congr_right fun _ => and_congr (O.connected _) (O.connected _)
  refine ⟨B.bInj, B.gInj, B.lInj, fun k => ?_, fun i b2 hb ht => ?_, fun i b2 hb ht => hb, rfl, fun k => ?_, fun i g2 hg hon => ?_, fun i g2 hg hon => hg, rfl,
    fun k => ?_, fun i l2 hl hon => ?_, fun i l2 hl hon => hl, rfl⟩
  · obtain ⟨b, h1, h2, -, h3, h4, h5, h6, h7⟩ := B.bus k
    obtain ⟨b2, h8, e⟩ := (O.busAt _).1 b h1
    refine ⟨b2, h8, by rw [e]; exact h2, h8, ?_, by rw [e]; exact h4, by rw [e]; exact h5, by rw [e]; exact h6, by rw [e]; exact h7⟩
    show ({ d.bus k with PD := cell c2.bus (fun b => b.data.PD) (bp k) } : Bus) = _
    have : cell c2.bus (fun b => b.data.PD) (bp k) = b2.data.PD := by simp [cell, h8]
    rw [this, h3, e]
  · obtain ⟨b, h, e⟩ := (O.busAt i).2 b2 hb
    exact B.busOn i b h (by rw [e] at ht; exact ht)
  · obtain ⟨g, h1, h2, -, h3, h4, h5, h6, h7⟩ := B.gen k
    obtain ⟨g2, h8, e⟩ := (O.genAt' _).1 g h1
    refine ⟨g2, h8, (gs g g2 e).2 h2, h8, by rw [e]; exact num h3, by rw [e]; exact h4, by show cell c2.gen _ _ = _; simp [cell, h8], by show cell c2.gen _ _ = _; simp [cell, h8],
      by rw [e]; exact h7⟩
  · obtain ⟨g, h, e⟩ := (O.genAt' i).2 g2 hg
    exact B.genOn i g h ((gs g g2 e).1 hon)
  · obtain ⟨l, h1, h2, -, h3, h4, h5, h6, h7, h8, h9, h10, h11⟩ := B.branch k
    obtain ⟨l2, h12, e⟩ := (O.brAt _).1 l h1
    refine ⟨l2, h12, (ls l l2 e).2 h2, h12, by rw [e]; exact num h3, by rw [e]; exact num h4, by rw [e]; exact h5, by rw [e]; exact h6, by rw [e]; exact h7,
      by rw [e]; exact h8, by rw [e]; exact h9, by rw [e]; exact h10, by show cell c2.branch _ _ = _; simp [cell, h12]⟩
  · obtain ⟨l, h, e⟩ := (O.brAt i).2 l2 hl
    exact B.brOn i l h ((ls l l2 e).1 hon)

end onbr


section
variable {srt : List ℕ → List ℕ} (hs : IsArgsort srt) {base : ℝ} (hb : 0 < base) {E : Econ} {o : Opt} {solve : AnySolver} {c : Index.Case Tables} (h : WF c)
  (hcost : EconCosts c) (hst : ∀ l ∈ c.branch, l.status = 0 ∨ l.status = 1) (hc : 0 < o.costMult) (hft : 0 ≤ o.feastol) (hct : 0 ≤ o.comptol)
  (hgood : ∀ c' d, Index.ext2int srt c = some c' → readCase base c' = some d → Good (dcOps d ++ (econSetup base E).extra d c'))
  {r : Ret} (hrun : opfDcEcon srt base E o solve c = some r) (hok : r.success = true)

include hs hb h hcost hst hc hft hct hgood hrun hok

/-- **C128.**  After a successful DC optimal power flow of a case without user variables, constraints and costs the prices in the returned tables say what changes of
demand and limits cost: no dispatch `t` of the system `c2` with other demand, output limits and ratings is cheaper than the reported objective plus each MW of additional demand at the price
`LAM_P` of its bus, each MW by which a lower output limit is raised or an upper one lowered at its `MU_PMIN`, `MU_PMAX`, each MW by which a rating is lowered at its `MU_SF + MU_ST`.
This holds up to `gap`, which vanishes with the tolerances of the solver (`y`, `M` as in C96), and up to `1e-5` for each scaled p.u. of changed limits: shadow prices below that are reported as zero. -/
theorem C128_prices : ∃ y : ℕ → ℝ,
    r.f = ∑ i ∈ onGens c \ pwlGens c, genCost c i (pgAt r.tables i) + ∑ i ∈ pwlGens c, y i ∧
    ∀ c2, OtherLimits c c2 → ∀ t θ, DcFeasible base E c2 t θ → ∀ M : ℝ, 0 ≤ M → (∀ i ∈ onBuses c, |vaAt r.tables i| ≤ M) →
      (∀ i ∈ onGens c, |pgAt r.tables i / base| ≤ M) → (∀ i ∈ pwlGens c, |y i| ≤ M) →
      r.f + priced c c2 r.tables ≤ dispatchCost c t + gap o r.size M r.dual r.tol (dist base c r.tables t y) + 1 / 10 ^ 5 / (o.costMult * base) * changed c c2 := by
  obtain ⟨c', d, m, s, p, bp, gp, lp, R⟩ := econ_run hs h hcost.table hgood hrun
  have hbd : 0 < d.base := by rw [R.base]; exact hb
  have hgc : ∀ k : Fin c'.gen.length, CostOK (costAt c' k) := R.costOK hcost
  have hok' : s.success = true := by rw [← R.success]; exact hok
  have hlin := angOps_varBlocks (nb := c'.bus.length) E c'
  obtain ⟨-, h2⟩ := R.helpers hb hcost hc hok'
  have hval := R.val hcost
  have psum := R.pwlGens_sum hcost
  refine ⟨helper s gp, h2, ?_⟩
  intro c2 O t θ F M hM hva hpg hy
  rw [← R.base] at F
  have F3 : DcFeasible d.base E { c with bus := c2.bus, gen := c2.gen, branch := c2.branch } t θ := ⟨F.bus, F.gen, F.branch, F.angles, F.flows, F.balance, F.limits, F.rating, F.ref,
    fun hig l hl hon => F.angle hig l hl hon, F.genOff, F.brOff⟩
  have ha := feasible_alt (R.bridge.other O) (O.wf h) F3
  have hstat : ∀ k, (d.branch k).stat = 0 ∨ (d.branch k).stat = 1 := by
    intro k
    obtain ⟨l0, h1, -, -, -, -, -, -, -, -, -, h2, -⟩ := R.bridge.branch k
    rw [h2]
    rcases hst l0 (List.mem_of_getElem? h1) with h3 | h3 <;> simp [h3]
  set x := stack d (fun k : Fin c'.gen.length => pwl1Row (costAt c' k)) (fun k => vaAt t (bp k)) (fun k => pgAt t (gp k)) (fun _ => 0) with hx
  have x1 : ∀ k : Fin c'.bus.length, x k = vaAt t (bp k) := by intro k; simp [hx, stack]
  have x2 : ∀ k : Fin c'.gen.length, x (c'.bus.length + k) = pgAt t (gp k) / d.base := by intro k; simp [hx, stack]
  have x3 : ∀ j : Fin (nyOf (fun k : Fin c'.gen.length => pwl1Row (costAt c' k))), x (c'.bus.length + c'.gen.length + j) =
      rowVal (pwl1Row (costAt c' ((ipwl (fun k : Fin c'.gen.length => pwl1Row (costAt c' k))).get j)))
        (pgAt t (gp ((ipwl (fun k : Fin c'.gen.length => pwl1Row (costAt c' k))).get j))) := by
    intro j
    have n1 : ¬ (c'.bus.length + c'.gen.length + j < c'.bus.length) := by omega
    have n2 : ¬ (c'.bus.length + c'.gen.length + j - c'.bus.length < c'.gen.length) := by omega
    have e : c'.bus.length + c'.gen.length + j - c'.bus.length - c'.gen.length = j := by omega
    simp only [hx, stack, dif_neg n1, dif_neg n2, e, dif_pos j.isLt]
    rfl
  have hang : Holds (varBlocks (dcOps d ++ (angOps E c'.bus.length c' ++ (pwlOps d.base (fun k : Fin c'.gen.length => pwl1Row (costAt c' k)) ++ []))))
      (angOps E c'.bus.length c' ++ []) x := by
    refine ang_holds d E c' R.valid _ x fun hig b hbm hlim => ?_
    obtain ⟨l', hl', rfl⟩ := List.mem_map.1 hbm
    obtain ⟨k, hk, rfl⟩ := List.mem_iff_getElem.1 hl'
    obtain ⟨l, e0, e1, e2, e3⟩ := R.ends ⟨k, hk⟩
    obtain ⟨l0, h0, hon, -, ⟨bf, hbf, hnf⟩, ⟨bt, hbt, hnt⟩, -⟩ := R.bridge.branch ⟨k, hk⟩
    rw [e0] at h0; cases h0
    obtain ⟨l2, hl2, el⟩ := (O.brAt _).1 l e0
    have hθ : ∀ (j : Fin c'.bus.length) b0 n, c.bus[bp j]? = some b0 → b0.num = n → x j = θ n := by
      rintro j b0 n hj rfl
      obtain ⟨b2, hj2, eb⟩ := (O.busAt _).1 b0 hj
      obtain ⟨b, hb1, e⟩ := map_at F.bus _ _ hj2
      have e1 : b.num = b2.num := by simpa [busInput] using congrArg BusRow.num e
      have e2 : b2.num = b0.num := by rw [eb]
      rw [x1, ← e2, ← e1, F.angles b (List.mem_of_getElem? hb1)]
      simp [vaAt, hb1]
    simp only [Fin.getElem_fin] at e1 e2 e3
    have hon2 : BranchInService c2 l2 := by
      unfold BranchInService at hon ⊢
      rw [el]
      exact ⟨hon.1, (O.connected _).2 hon.2.1, (O.connected _).2 hon.2.2⟩
    have key := F.angle hig l2 (List.mem_of_getElem? hl2) hon2 (by
      rw [el]
      unfold Constr.Limited at hlim ⊢
      simp only [e1] at hlim
      exact hlim)
    rw [el] at key
    unfold Constr.AngleOk at key ⊢
    simp only [e1, e2, e3, hθ _ _ _ hbf hnf, hθ _ _ _ hbt hnt] at key ⊢
    exact key
  have hlim : ∀ k ∈ d.il, cell c2.branch (fun l => l.data.rateA) (lp k) ≠ 0 ∧ cell c2.branch (fun l => l.data.rateA) (lp k) < 10 ^ 10 := by
    intro k hk
    obtain ⟨q1, q2⟩ := (mem_il d k).1 hk
    obtain ⟨l0, h0, hon, -, -, -, -, -, -, -, -, -, hr⟩ := R.bridge.branch k
    obtain ⟨l2, hl2, -⟩ := (O.brAt _).1 l0 h0
    rw [hr] at q1 q2
    have := O.rated _ l0 l2 h0 hl2 hon q1 q2
    simpa [cell, hl2] using this
  have hle := C128_dc d (fun k : Fin c'.gen.length => costAt c' k) hgc hbd _ [] hlin m R.run R.good (noUser _) (noUser_convex _) o solve _ hc hft
    _ rfl s R.sol hok' hstat _ _ _ _ hlim (fun k => vaAt t (bp k)) (fun k => pgAt t (gp k)) (fun _ => 0) ha hang
  rw [noUser_value, noUser_offset, sub_zero, add_zero] at hle
  have eC : dispatchCost c t = ∑ k : Fin c'.gen.length, rowVal (pwl1Row (costAt c' k)) (pgAt t (gp k)) := by
    unfold dispatchCost
    rw [R.bridge.onGens_sum]
    exact Finset.sum_congr rfl fun k _ => hval k _
  rw [← eC] at hle
  -- the prices
  have eW : priced c c2 r.tables = ∑ b, s.LAM_P b * (cell c2.bus (fun b => b.data.PD) (bp b) - (d.bus b).PD) +
      ∑ p, (s.MU_PMIN p * (cell c2.gen (fun g => g.data.PMIN) (gp p) - d.pmin p) - s.MU_PMAX p * (cell c2.gen (fun g => g.data.PMAX) (gp p) - d.pmax p)) -
        ∑ l, (s.MU_SF l + s.MU_ST l) * (cell c2.branch (fun l => l.data.rateA) (lp l) - d.rateA l) := by
    unfold priced
    rw [R.bridge.onBuses_sum, R.bridge.onGens_sum, R.bridge.onBranches_sum]
    refine congrArg₂ _ (congrArg₂ _ ?_ ?_) ?_
    · refine Finset.sum_congr rfl fun k _ => ?_
      obtain ⟨b, h1, -, h3, h4, -⟩ := R.bridge.bus k
      simp only [cell, h1, h3, h4, Option.map_some, Option.getD_some]
      rfl
    · refine Finset.sum_congr rfl fun k _ => ?_
      obtain ⟨b, h1, -, h3, -, -, h4, h5, -⟩ := R.bridge.gen k
      simp only [cell, h1, h3, h4, h5, Option.map_some, Option.getD_some]
      rfl
    · refine Finset.sum_congr rfl fun k _ => ?_
      obtain ⟨b, h1, -, h3, -, -, -, -, -, -, -, -, h4⟩ := R.bridge.branch k
      simp only [cell, h1, h3, h4, Option.map_some, Option.getD_some]
      rfl
  have eD : changed c c2 = ∑ p, (|cell c2.gen (fun g => g.data.PMIN) (gp p) - d.pmin p| + |cell c2.gen (fun g => g.data.PMAX) (gp p) - d.pmax p|) +
      2 * ∑ l, |cell c2.branch (fun l => l.data.rateA) (lp l) - d.rateA l| := by
    unfold changed
    rw [R.bridge.onGens_sum, R.bridge.onBranches_sum]
    refine congrArg₂ _ ?_ (congrArg _ ?_)
    · refine Finset.sum_congr rfl fun k _ => ?_
      obtain ⟨b, h1, -, h3, -, -, h4, h5, -⟩ := R.bridge.gen k
      simp only [cell, h1, h4, h5, Option.map_some, Option.getD_some]
    · refine Finset.sum_congr rfl fun k _ => ?_
      obtain ⟨b, h1, -, h3, -, -, -, -, -, -, -, -, h4⟩ := R.bridge.branch k
      simp only [cell, h1, h4, Option.map_some, Option.getD_some]
  rw [← eD] at hle
  -- the reported point
  obtain ⟨v1, v2⟩ := R.point hb hok'
  have hdist : ∑ i : Fin m.var.total, |x i - s.x i| = dist base c r.tables t (helper s gp) := by
    rw [Finset.sum_fin_eq_sum_range]
    have e0 : ∀ i ∈ Finset.range m.var.total, (if h : i < m.var.total then |x ((⟨i, h⟩ : Fin m.var.total) : ℕ) - s.x ((⟨i, h⟩ : Fin m.var.total) : ℕ)| else 0) =
        |x i - s.x i| := fun i hi => by rw [dif_pos (Finset.mem_range.1 hi)]
    rw [Finset.sum_congr rfl e0, R.total, Finset.sum_range_add, Finset.sum_range_add, Finset.sum_range, Finset.sum_range, Finset.sum_range]
    unfold dist
    rw [R.bridge.onBuses_sum, R.bridge.onGens_sum, psum]
    congr 1
    · congr 1
      · exact Finset.sum_congr rfl fun k _ => by rw [x1, v1]
      · refine Finset.sum_congr rfl fun k _ => ?_
        rw [x2, v2, R.base, ← sub_div, abs_div, abs_of_pos hb]
    · simp only [x3]
      rw [sum_pwl (fun k : Fin c'.gen.length => pwl1Row (costAt c' k)) (fun k j => |rowVal (pwl1Row (costAt c' k)) (pgAt t (gp k)) - s.x (c'.bus.length + c'.gen.length + j)|)]
      exact Finset.sum_congr rfl fun k _ => by rw [R.helper_at, hval]
  have hnorm := R.norm_le hb hcost hok' hM hva hpg hy
  have hgap : gap o (m.var.total + m.lin.total) ‖fun i : Fin m.var.total => s.x i‖ s.dual s.tol (∑ i : Fin m.var.total, |x i - s.x i|) ≤
      gap o r.size M r.dual r.tol (dist base c r.tables t (helper s gp)) := by
    rw [hdist, R.size, R.dual, R.tol]
    unfold gap
    have := mul_le_mul_of_nonneg_left hnorm hct
    refine div_le_div_of_nonneg_right ?_ hc.le
    linarith
  rw [R.f, eW]
  rw [R.base] at hle
  linarith

end

end Verif.Opf
