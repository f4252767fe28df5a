import Verif.Dcline.Model
import Verif.Constr.Lemmas
import Mathlib.Tactic.FinCases

/-!
# C56: DC lines
-/

open Verif.NumPy

namespace Verif.Dcline

noncomputable section

/-! ## Specification -/

/-- Loss of a line carrying `pf` MW at the from end. -/
def loss (d : DcLine) (pf : ℝ) : ℝ := d.loss0 + d.loss1 * pf

/-- The flow limits in the direction of the flow: a non-negative limit is a limit of the flow at the from end, a negative one of the
flow at the to end. -/
def LimitsOk (d : DcLine) (pf pt : ℝ) : Prop :=
  (0 ≤ d.pmin → d.pmin ≤ pf) ∧ (d.pmin < 0 → d.pmin ≤ pt) ∧ (0 ≤ d.pmax → pf ≤ d.pmax) ∧ (d.pmax < 0 → pt ≤ d.pmax)

/-- The generator output is within its limits. -/
def InBox (g : Gen) (p : ℝ) : Prop := g.pmin ≤ (p : EReal) ∧ (p : EReal) ≤ g.pmax

/-- Lines in service, in the order of the table. -/
def inService (dcline : List DcLine) : List DcLine := dcline.filter fun d => @decide (0 < d.status) (Classical.dec _)

/-! ## ext2int -/

theorem ext2int_eq (havecost : Bool) (e2i : Nat → Nat) (dcline : List DcLine) (bus : List BusType) (gen : List Gen)
    (gencost : Option (List (List ℝ))) :
    ext2int true havecost e2i dcline bus gen gencost =
      (newCost havecost (inService dcline).length gencost).map fun gc =>
        { ext := dcline
          dcline := (inService dcline).map (convert e2i)
          bus := bus.zipIdx.map fun p => newType ((inService dcline).map (convert e2i)) p.2 p.1
          gen := gen ++ ((inService dcline).map (convert e2i)).map fromGen ++ ((inService dcline).map (convert e2i)).map toGen
          gencost := gc } := by
  unfold ext2int
  simp only [if_true, gather_find, Option.bind_eq_bind, Option.bind_some, List.length_map]
  have : dcline.filter isOn = inService dcline := rfl
  rw [this]
  cases newCost havecost (inService dcline).length gencost <;> rfl

/-- No float indices: with numpy 1.12 or later the callback raises for every table. -/
theorem C56_float_negation (havecost : Bool) (e2i : Nat → Nat) (dcline : List DcLine) (bus : List BusType) (gen : List Gen)
    (gencost : Option (List (List ℝ))) : ext2int false havecost e2i dcline bus gen gencost = none := by
  simp [ext2int]

/-- Costs of DC lines: the callback raises whenever the case has generator costs. -/
theorem C56_cost_negation (fi : Bool) (e2i : Nat → Nat) (dcline : List DcLine) (bus : List BusType) (gen : List Gen)
    (gencost : List (List ℝ)) (h : gencost ≠ []) : ext2int fi true e2i dcline bus gen (some gencost) = none := by
  cases fi with
  | false => simp [ext2int]
  | true =>
    rw [ext2int_eq]
    cases gencost with
    | nil => exact absurd rfl h
    | cons r gc => simp [newCost]

/-- **C56, injections.** The dummy generators follow the given generators: first one per in-service line at its from bus injecting
`-Pf`, then one per in-service line at its to bus injecting `Pf - loss0 - loss1*Pf`; the cost rows added are zero costs. -/
theorem C56_injections (e2i : Nat → Nat) (dcline : List DcLine) (bus : List BusType) (gen : List Gen) (r : List ℝ)
    (gc : List (List ℝ)) (h4 : 4 ≤ r.length) :
    ∃ s, ext2int true false e2i dcline bus gen (some (r :: gc)) = some s
      ∧ s.ext = dcline
      ∧ s.gen.length = gen.length + 2 * (inService dcline).length
      ∧ (∀ i < gen.length, s.gen[i]? = gen[i]?)
      ∧ (∀ (j : Nat) (d : DcLine), (inService dcline)[j]? = some d →
          ∃ fg tg, s.gen[gen.length + j]? = some fg ∧ s.gen[gen.length + (inService dcline).length + j]? = some tg
            ∧ fg.bus = e2i d.fbus ∧ tg.bus = e2i d.tbus ∧ fg.pg = -d.pf ∧ tg.pg = d.pf - loss d d.pf
            ∧ fg.qg = d.qf ∧ tg.qg = d.qt ∧ fg.vg = d.vf ∧ tg.vg = d.vt
            ∧ fg.qmin = d.qminf ∧ fg.qmax = d.qmaxf ∧ tg.qmin = d.qmint ∧ tg.qmax = d.qmaxt
            ∧ fg.status = d.status ∧ tg.status = d.status)
      ∧ s.gencost = some (r :: gc ++ List.replicate (2 * (inService dcline).length) (zeroCost r.length)) := by
  rw [ext2int_eq]
  have hlt : ¬ r.length < 4 := by omega
  have hnc : newCost false (inService dcline).length (some (r :: gc))
      = some (some (r :: gc ++ List.replicate (2 * (inService dcline).length) (zeroCost r.length))) := by
    simp [newCost, hlt]
  rw [hnc]
  refine ⟨_, rfl, rfl, ?_, ?_, ?_, ?_⟩
  · simp; omega
  · intro i hi
    simp only [List.append_assoc]
    rw [List.getElem?_append_left hi]
  · intro j d hj
    have hjl : j < (inService dcline).length := (List.getElem?_eq_some_iff.1 hj).1
    refine ⟨fromGen (convert e2i d), toGen (convert e2i d), ?_, ?_, ?_⟩
    · simp only [List.append_assoc]
      rw [List.getElem?_append_right (by omega), Nat.add_sub_cancel_left, List.getElem?_append_left (by simpa using hjl)]
      simp [hj]
    · rw [List.getElem?_append_right (by simp)]
      simp [hj]
    · have hfb : ∀ g : Gen, (fudge g).bus = g.bus ∧ (fudge g).pg = g.pg ∧ (fudge g).qg = g.qg ∧ (fudge g).vg = g.vg
          ∧ (fudge g).qmin = g.qmin ∧ (fudge g).qmax = g.qmax ∧ (fudge g).status = g.status := by
        intro g; unfold fudge; split <;> simp
      unfold fromGen toGen
      simp only [hfb, convert, blank, loss, and_self]
  · rfl

/-- **C56, bus types.** The reference bus stays the reference; every other terminal of an in-service line becomes PV; all other buses
keep their type. -/
theorem C56_bus_types (e2i : Nat → Nat) (dcline : List DcLine) (bus : List BusType) (gen : List Gen) (s : Internal)
    (gencost : Option (List (List ℝ))) (h : ext2int true false e2i dcline bus gen gencost = some s) (i : Nat) (t : BusType)
    (hi : bus[i]? = some t) :
    (t = .ref → s.bus[i]? = some .ref)
      ∧ (t ≠ .ref → (∃ d ∈ dcline, 0 < d.status ∧ (e2i d.fbus = i ∨ e2i d.tbus = i)) → s.bus[i]? = some .pv)
      ∧ ((∀ d ∈ dcline, 0 < d.status → e2i d.fbus ≠ i ∧ e2i d.tbus ≠ i) → s.bus[i]? = some t) := by
  rw [ext2int_eq] at h
  cases hgc : newCost false (inService dcline).length gencost with
  | none => simp [hgc] at h
  | some gc =>
    rw [hgc] at h
    have hs := Option.some.inj h
    have hb : s.bus[i]? = some (newType ((inService dcline).map (convert e2i)) i t) := by
      rw [← hs]
      simp only [List.getElem?_map, List.getElem?_zipIdx, hi]
      simp
    rw [hb]
    unfold newType
    refine ⟨fun ht => by simp [ht], fun ht hex => ?_, fun hall => ?_⟩
    · rw [if_neg ht, if_pos]
      obtain ⟨d, hd, hst, hdi⟩ := hex
      rw [List.any_eq_true]
      refine ⟨convert e2i d, List.mem_map.2 ⟨d, List.mem_filter.2 ⟨hd, by simpa using hst⟩, rfl⟩, ?_⟩
      rw [Bool.or_eq_true, decide_eq_true_eq, decide_eq_true_eq]; exact hdi
    · by_cases ht : t = .ref
      · simp [ht]
      · rw [if_neg ht, if_neg]
        rw [List.any_eq_true]
        rintro ⟨d', hd', hh⟩
        obtain ⟨d, hd, rfl⟩ := List.mem_map.1 hd'
        have hdm := List.mem_filter.1 hd
        have := hall d hdm.1 (by simpa using hdm.2)
        simp [convert, this.1, this.2] at hh

/-! ## formulation -/

theorem toGen_box (d : DcLine) (pt : ℝ) : InBox (toGen d) pt ↔ (d.pmin < 0 → d.pmin ≤ pt) ∧ (d.pmax < 0 → pt ≤ d.pmax) := by
  have hnl : ∀ g : Gen, g.pmax ≠ 0 → fudge g = g := by
    intro g h; unfold fudge isload; simp [h]
  unfold toGen
  rw [hnl _ (by
    simp only
    by_cases h : d.pmax < 0
    · simp [h, h.ne]
    · simp [h])]
  unfold InBox
  by_cases h1 : d.pmin < 0 <;> by_cases h2 : d.pmax < 0 <;> simp [h1, h2]

theorem fromGen_box (d : DcLine) (pf : ℝ) :
    InBox (fromGen d) (-pf) ↔ (0 ≤ d.pmin → d.pmin ≤ pf) ∧ (0 ≤ d.pmax → pf ≤ d.pmax)
      ∧ (d.pmin = 0 → d.pmax ≠ 0 → 1 / 1000000 ≤ pf) := by
  unfold fromGen fudge isload InBox
  by_cases h1 : 0 ≤ d.pmin
  · by_cases h2 : 0 ≤ d.pmax
    · by_cases h3 : d.pmin = 0
      · by_cases h4 : d.pmax = 0
        · simp [h3, h4]
          constructor <;> rintro ⟨a, b⟩ <;> exact ⟨b, a⟩
        · have h5 : 0 < d.pmax := lt_of_le_of_ne h2 (Ne.symm h4)
          have e1 : ((-d.pmax : ℝ) : EReal) < 0 := by rw [← EReal.coe_zero, EReal.coe_lt_coe_iff]; linarith
          have e2 : ((-(0 : ℝ) : ℝ) : EReal) = 0 := by simp
          simp only [h3, le_refl, h2, decide_true, if_true, e1, e2, and_self, EReal.coe_le_coe_iff, h4, ne_eq,
            not_false_eq_true, true_implies]
          constructor
          · rintro ⟨a, b⟩; exact ⟨by linarith, by linarith, by linarith⟩
          · rintro ⟨a, b, c⟩; exact ⟨by linarith, by linarith⟩
      · have e2 : ¬ ((-d.pmin : ℝ) : EReal) = 0 := by simpa using h3
        simp only [h1, h2, h3, decide_true, if_true, e2, and_false, decide_false, Bool.false_eq_true, if_false,
          EReal.coe_le_coe_iff, true_implies, false_implies, and_true]
        constructor
        · rintro ⟨a, b⟩; exact ⟨by linarith, by linarith⟩
        · rintro ⟨a, b⟩; exact ⟨by linarith, by linarith⟩
    · have h5 : d.pmax ≠ 0 := fun h => h2 (by rw [h])
      by_cases h3 : d.pmin = 0
      · have e2 : ((-(0 : ℝ) : ℝ) : EReal) = 0 := by simp
        have e1 : (⊥ : EReal) < 0 := by simp
        simp only [h3, le_refl, h2, decide_true, if_true, decide_false, Bool.false_eq_true, if_false, e1, e2, and_self,
          EReal.coe_le_coe_iff, bot_le, true_and, h5, ne_eq, not_false_eq_true, true_implies, false_implies]
        constructor
        · intro a; exact ⟨by linarith, by linarith⟩
        · rintro ⟨a, b⟩; linarith
      · have e2 : ¬ ((-d.pmin : ℝ) : EReal) = 0 := by simpa using h3
        simp only [h1, h2, h3, decide_true, if_true, e2, and_false, decide_false, Bool.false_eq_true, if_false,
          EReal.coe_le_coe_iff, true_implies, false_implies, and_true, bot_le, true_and]
        constructor <;> intro a <;> linarith
  · have h3 : ¬ d.pmin = 0 := fun h => h1 (by rw [h])
    by_cases h2 : 0 ≤ d.pmax
    · simp only [h1, h2, h3, decide_true, if_true, and_false, decide_false, Bool.false_eq_true, if_false,
          EReal.coe_le_coe_iff, true_implies, false_implies, and_true, le_top, true_and, EReal.top_ne_zero]
      constructor <;> intro a <;> linarith
    · simp only [h1, h2, h3, and_false, decide_false, Bool.false_eq_true, if_false,
          false_implies, and_true, le_top, bot_le, EReal.top_ne_zero]

/-- The coupling constraint: for every line the injections at the two ends differ by the loss. -/
theorem C56_coupling (baseMVA : ℝ) (hb : 0 < baseMVA) (dc : List DcLine) (ng : Nat) (x : Nat → ℝ) :
    (formulation baseMVA dc (ng + 2 * dc.length)).Holds x ↔
      ∀ (j : Nat) (d : DcLine), dc[j]? = some d →
        baseMVA * x (ng + dc.length + j) = -(baseMVA * x (ng + j)) - loss d (-(baseMVA * x (ng + j))) := by
  unfold formulation Constr.Lin.Holds
  simp only [Nat.add_sub_cancel]
  have key : ∀ (j : Nat) (hj : j < dc.length),
      (Constr.twoBlocks dc.length ((List.range dc.length).map (ng + ·)) ((List.range dc.length).map (ng + dc.length + ·))
        (dc.map fun d => 1 - d.loss1) (List.replicate dc.length 1)).row x j
      = (1 - dc[j].loss1) * x (ng + j) + x (ng + dc.length + j) := by
    intro j hj
    rw [Constr.row_twoBlocks _ _ _ _ _ (by simp) (by simp) (by simp) (by simp) _ _ hj]
    simp
  have hiff : ∀ d : DcLine, ∀ pf pt : ℝ, (-d.loss0 / baseMVA = (1 - d.loss1) * pf + pt)
      ↔ baseMVA * pt = -(baseMVA * pf) - loss d (-(baseMVA * pf)) := by
    intro d pf pt
    unfold loss
    rw [div_eq_iff hb.ne']
    constructor <;> intro h <;> linarith
  constructor
  · intro h j d hd
    obtain ⟨hj, hjd⟩ := List.getElem?_eq_some_iff.1 hd
    obtain ⟨⟨l, hl1, hl2⟩, ⟨u, hu1, hu2⟩⟩ := h j hj
    rw [key j hj, hjd] at hl2 hu2
    rw [List.getElem?_map, List.getElem?_map, hd, Option.map_some, Option.map_some, Option.some.injEq] at hl1 hu1
    rw [← hl1, EReal.coe_le_coe_iff] at hl2
    rw [← hu1, EReal.coe_le_coe_iff] at hu2
    exact (hiff d _ _).1 (le_antisymm hl2 hu2)
  · intro h j hj
    have hd := List.getElem?_eq_getElem hj
    have := (hiff _ _ _).2 (h j _ hd)
    rw [key j hj, ← this]
    refine ⟨⟨((-dc[j].loss0 / baseMVA : ℝ) : EReal), by simp [hd], le_refl _⟩,
      ((-dc[j].loss0 / baseMVA : ℝ) : EReal), by simp [hd], le_refl _⟩

/-- **C56, limits (partial).** Let the dummy generators of the in-service lines `dc` follow `ng` generators. If no line has PMIN = 0
with PMAX ≠ 0, the coupling constraint together with the limits of the dummy generators hold iff for every line the flow out at the to end
is the flow in at the from end minus the loss, and the flow limits are met in the direction of the flow. Missing: PMIN = 0 (see
`C56_zero_negation`). -/
theorem C56_partial (baseMVA : ℝ) (hb : 0 < baseMVA) (dc : List DcLine) (ng : Nat) (hz : ∀ d ∈ dc, d.pmin = 0 → d.pmax = 0)
    (x : Nat → ℝ) :
    ((formulation baseMVA dc (ng + 2 * dc.length)).Holds x
        ∧ ∀ (j : Nat) (d : DcLine), dc[j]? = some d →
          InBox (fromGen d) (baseMVA * x (ng + j)) ∧ InBox (toGen d) (baseMVA * x (ng + dc.length + j)))
      ↔ ∀ (j : Nat) (d : DcLine), dc[j]? = some d → ∃ pf pt : ℝ, baseMVA * x (ng + j) = -pf
          ∧ baseMVA * x (ng + dc.length + j) = pt ∧ pt = pf - loss d pf ∧ LimitsOk d pf pt := by
  rw [C56_coupling baseMVA hb]
  constructor
  · rintro ⟨h1, h2⟩ j d hd
    have h3 := h1 j d hd
    obtain ⟨h4, h5⟩ := h2 j d hd
    refine ⟨-(baseMVA * x (ng + j)), baseMVA * x (ng + dc.length + j), by ring, rfl, h3, ?_⟩
    rw [← neg_neg (baseMVA * x (ng + j))] at h4
    rw [fromGen_box] at h4
    rw [toGen_box] at h5
    exact ⟨h4.1, h5.1, h4.2.1, h5.2⟩
  · intro h
    constructor
    · intro j d hd
      obtain ⟨pf, pt, h1, h2, h3, -⟩ := h j d hd
      rw [h1, h2, neg_neg]; exact h3
    · intro j d hd
      obtain ⟨pf, pt, h1, h2, h3, h4, h5, h6, h7⟩ := h j d hd
      rw [h1, h2, fromGen_box, toGen_box]
      exact ⟨⟨h4, h6, fun h0 hne => absurd (hz d (List.mem_of_getElem? hd) h0) hne⟩, h5, h7⟩

/-- **C56, negation.** A line with PMIN = 0 and PMAX > 0 must carry at least one watt: an idle line, allowed by its limits, violates
the limits of the dummy generator. -/
theorem C56_zero_negation (d : DcLine) (h0 : d.pmin = 0) (hm : 0 < d.pmax) :
    LimitsOk d 0 0 ∧ (∀ pf : ℝ, InBox (fromGen d) (-pf) → 1 / 1000000 ≤ pf) ∧ ¬ InBox (fromGen d) (-0) := by
  refine ⟨⟨fun _ => h0.le, fun h => by linarith, fun h => h, fun h => by linarith⟩, fun pf h => ?_, fun h => ?_⟩
  · exact ((fromGen_box d pf).1 h).2.2 h0 hm.ne'
  · have := ((fromGen_box d 0).1 h).2.2 h0 hm.ne'
    norm_num at this

/-! ## int2ext -/

/-- The statuses are not negative. -/
def NonNeg (dcline : List DcLine) : Prop := ∀ d ∈ dcline, 0 ≤ d.status

theorem on_mask (dcline : List DcLine) (h : NonNeg dcline) :
    (dcline.map fun d => @decide (d.status ≠ 0) (Classical.dec _)) = dcline.map isOn := by
  apply List.map_congr_left
  intro d hd
  have := h d hd
  unfold isOn
  rw [Bool.eq_iff_iff]
  simp only [decide_eq_true_eq]
  exact ⟨fun h => lt_of_le_of_ne this (Ne.symm h), fun h => h.ne'⟩

/-- **C56, results (partial).** After the solve: the dummy generators and their cost rows are removed, every in-service line gets the
flows, reactive injections and voltages of its two generators, and everything else in the `dcline` table is as it was. Proved for
power flow results (at most 23 generator columns) and for OPF results if all lines are in service; otherwise see
`C56_outage_negation`. -/
theorem C56_results_partial (ngc : Nat) (e2i : Nat → Nat) (dcline : List DcLine) (hn : NonNeg dcline)
    (hc : ngc < 24 ∨ (24 < ngc ∧ ∀ d ∈ dcline, 0 < d.status)) (gen : List Gen) (ng : Nat)
    (hg : gen.length = ng + 2 * (inService dcline).length) (gencost : List (List ℝ)) :
    ∃ r, int2ext ngc dcline ((inService dcline).map (convert e2i)) gen (some gencost) = some r
      ∧ r.gen = gen.take ng ∧ r.gencost = gencost.take ng ∧ r.dcline.length = dcline.length
      ∧ (∀ (i : Nat) (d : DcLine), dcline[i]? = some d → d.status = 0 → r.dcline[i]? = some d)
      ∧ ∀ (j i : Nat) (d : DcLine), (find (dcline.map isOn))[j]? = some i → dcline[i]? = some d →
          ∃ fg tg, gen[ng + j]? = some fg ∧ gen[ng + (inService dcline).length + j]? = some tg
            ∧ r.dcline[i]? = some { d with pf := -fg.pg, pt := tg.pg, qf := fg.qg, qt := tg.qg, vf := fg.vg, vt := tg.vg }
            ∧ (24 < ngc → ∃ mu, r.mu = some mu ∧ mu[i]? = 
                some ({ pmin := fg.muPmax + tg.muPmin, pmax := fg.muPmin + tg.muPmax, qminf := fg.muQmin, qmaxf := fg.muQmax, qmint := tg.muQmin, qmaxt := tg.muQmax } : Mu)) := by
  have hk : (find (dcline.map isOn)).length = (inService dcline).length := find_map_length isOn dcline
  have hrows : gather dcline (find (dcline.map isOn)) = some (inService dcline) := gather_find dcline isOn
  set n := (inService dcline).length with hnn
  set fg := (gen.drop ng).take n with hfg
  set tg := (gen.drop (ng + n)).take n with htg
  have hfl : fg.length = n := by rw [hfg, List.length_take, List.length_drop]; omega
  have htl : tg.length = n := by rw [htg, List.length_take, List.length_drop]; omega
  have hgenlen : gen.length - 2 * n = ng := by omega
  set flows := List.zipWith (fun d p => solved d p.1 p.2) ((inService dcline).map (convert e2i)) (fg.zip tg) with hflows
  have hflowl : flows.length = n := by rw [hflows]; simp [hfl, htl, hnn]
  obtain ⟨ext', hs1, hs2, hs3, hs4⟩ := scatter_mask dcline (dcline.map isOn) (by simp)
    (List.zipWith copyFlows (inService dcline) flows) (by rw [List.length_zipWith, hflowl, hk]; omega)
  have hguard : ¬ (gen.length < 2 * n ∨ ((inService dcline).map (convert e2i)).length ≠ n ∨ ngc = 24) := by
    rintro (h | h | h)
    · omega
    · exact h (by simp [hnn])
    · rcases hc with h' | h' <;> omega
  -- multipliers
  have hmu : ∃ mu, extMu (if 24 ≤ ngc then 23 else 17) dcline.length (find (dcline.map isOn)) (List.zipWith mults fg tg) = some mu
      ∧ (24 < ngc → ∃ m, mu = some m ∧ ∀ (j i : Nat), (find (dcline.map isOn))[j]? = some i →
          m[i]? = (List.zipWith mults fg tg)[j]?) := by
    rcases hc with h | ⟨h, hall⟩
    · refine ⟨none, ?_, fun h' => by omega⟩
      rw [if_neg (by omega)]; simp [extMu]
    · have hfil : inService dcline = dcline := by
        unfold inService
        rw [List.filter_eq_self]
        intro d hd; simpa using hall d hd
      have hlen : dcline.length = (find (dcline.map isOn)).length := by rw [hk, hnn, hfil]
      obtain ⟨m, hm1, -, hm3, -⟩ := scatter_mask (List.replicate dcline.length (⟨0, 0, 0, 0, 0, 0⟩ : Mu)) (dcline.map isOn)
        (by simp) (List.zipWith mults fg tg) (by rw [List.length_zipWith, hfl, htl, hk]; simp)
      refine ⟨some m, ?_, fun _ => ⟨m, rfl, hm3⟩⟩
      rw [if_pos (by omega)]
      unfold extMu
      rw [if_pos rfl, if_pos hlen, hm1]; rfl
  obtain ⟨mu, hmu1, hmu2⟩ := hmu
  refine ⟨⟨gen.take ng, gencost.take ng, ext', mu⟩, ?_, rfl, rfl, hs2, ?_, ?_⟩
  · unfold int2ext
    rw [on_mask dcline hn]
    simp only [Option.bind_eq_bind, Option.bind_some, hk]
    rw [if_neg hguard, hrows]
    simp only [Option.bind_some, hgenlen]
    rw [← hfg, ← htg, ← hflows, hs1]
    simp only [Option.bind_some, hmu1]
    rfl
  · intro i d hi h0
    rw [hs4 i, hi]
    rw [mem_find, List.getElem?_map, hi]
    simp [isOn, h0]
  · intro j i d hj hi
    have hjl : j < n := by rw [← hk]; exact (List.getElem?_eq_some_iff.1 hj).1
    have hfj : fg[j]? = gen[ng + j]? := by
      rw [hfg, List.getElem?_take, if_pos hjl, List.getElem?_drop]
    have htj : tg[j]? = gen[ng + n + j]? := by
      rw [htg, List.getElem?_take, if_pos hjl, List.getElem?_drop]
    have hf := List.getElem?_eq_getElem (l := fg) (i := j) (by omega)
    have ht := List.getElem?_eq_getElem (l := tg) (i := j) (by omega)
    obtain ⟨d', hd1, -, hd2⟩ := Constr.find_row dcline isOn j i hj
    have : d = d' := Option.some.inj (hi.symm.trans hd1)
    subst this
    have hd2' : (inService dcline)[j]? = some d := hd2
    refine ⟨fg[j]'(by omega), tg[j]'(by omega), by rw [← hfj, hf], by rw [← htj, ht], ?_, ?_⟩
    · rw [hs3 j i hj]
      have hz : (fg.zip tg)[j]? = some (fg[j]'(by omega), tg[j]'(by omega)) := by
        rw [List.getElem?_zip_eq_some]; exact ⟨hf, ht⟩
      rw [List.getElem?_zipWith, hd2', hflows, List.getElem?_zipWith, List.getElem?_map, hd2', hz]
      simp [copyFlows, solved, convert]
    · intro h24
      obtain ⟨m, hm1, hm2⟩ := hmu2 h24
      refine ⟨m, hm1, ?_⟩
      rw [hm2 j i hj, List.getElem?_zipWith, hf, ht]
      rfl

/-- **C56, negation.** With OPF results (25 generator columns) and at least one line out of service the callback raises, whatever the
solution. -/
theorem C56_outage_negation (ngc : Nat) (hc : 24 < ngc) (dcline dc : List DcLine) (gen : List Gen)
    (gencost : Option (List (List ℝ))) (h : ∃ d ∈ dcline, d.status = 0) : int2ext ngc dcline dc gen gencost = none := by
  unfold int2ext
  cases gencost with
  | none => rfl
  | some gc =>
    simp only [Option.bind_eq_bind, Option.bind_some]
    split
    · rfl
    · have hlen : dcline.length ≠ (find (dcline.map fun d => @decide (d.status ≠ 0) (Classical.dec _))).length := by
        rw [find_map_length]
        intro he
        obtain ⟨d, hd, h0⟩ := h
        have := (List.length_filter_eq_length_iff.1 he.symm) d hd
        simp [h0] at this
      have hmu : ∀ l, extMu (if 24 ≤ ngc then 23 else 17) dcline.length
          (find (dcline.map fun d => @decide (d.status ≠ 0) (Classical.dec _))) l = none := by
        intro l
        rw [if_pos (by omega)]
        unfold extMu
        rw [if_pos rfl, if_neg hlen]
      simp only [hmu]
      cases gather dcline (find (dcline.map fun d => @decide (d.status ≠ 0) (Classical.dec _))) with
      | none => rfl
      | some rows => simp

/-! ## Non-vacuity -/

/-- A line from bus 0 to bus 1 carrying 10 MW with 1 MW + 5% loss, between 2 and 20 MW; and one out of service. -/
def exLine : DcLine := ⟨0, 1, 1, 10, 0, 0, 0, 1, 1, 2, 20, -5, 5, -5, 5, 1, 1 / 20⟩
def exOff : DcLine := { exLine with status := 0 }

theorem exIn : inService [exLine, exOff] = [exLine] := by
  simp [inService, exLine, exOff]

example : (formulation 100 [exLine] (0 + 2 * 1)).Holds (fun i => if i = 0 then -0.1 else 0.085) := by
  refine (C56_coupling 100 (by norm_num) [exLine] 0 _).2 ?_
  intro j d hd
  match j with
  | 0 =>
    have : d = exLine := by simpa using hd.symm
    subst this
    norm_num [loss, exLine]
  | j + 1 => simp at hd

example : ∃ r, int2ext 21 [exLine, exOff] ((inService [exLine, exOff]).map (convert id))
    [{ blank exLine with pg := -12 }, { blank exLine with pg := 10.4 }] (some [[], []]) = some r ∧ r.gen = [] ∧ r.dcline[1]? = some exOff := by
  obtain ⟨r, h1, h2, -, -, h5, -⟩ := C56_results_partial 21 id [exLine, exOff]
    (by intro d hd; fin_cases hd <;> simp [exLine, exOff]) (Or.inl (by norm_num))
    [{ blank exLine with pg := -12 }, { blank exLine with pg := 10.4 }] 0 (by simp [exIn]) [[], []]
  exact ⟨r, h1, by simpa using h2, h5 1 exOff rfl rfl⟩

end

end Verif.Dcline
