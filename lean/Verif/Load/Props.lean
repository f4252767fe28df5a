import Mathlib.Tactic.FieldSimp
import Mathlib.Tactic.FinCases
import Mathlib.Tactic.Linarith
import Mathlib.Tactic.NormNum
import Verif.Load.Model

/-!
# Properties C20 and C21 of `properties.jsonl`: total load per zone, load scaling
-/

namespace Verif.Load

open Finset

variable {nb ng : Nat}

/-! ## Specification -/

/-- Bus numbers are distinct and every generator is at an existing bus. -/
structure WF (bus : Fin nb → LBus) (gen : Fin ng → LGen) : Prop where
  inj : ∀ i j, (bus i).num = (bus j).num → i = j
  bus : ∀ g, ∃ i, (bus i).num = (gen g).bus

/-- A dispatchable load in service: a generator with negative minimum and zero maximum output that is switched on. -/
def IsLoad (g : LGen) : Prop := g.pmin < 0 ∧ g.pmax = 0 ∧ g.on = true

noncomputable instance (g : LGen) : Decidable (IsLoad g) := Classical.dec _

/-- Total of quantity `F` over the dispatchable loads at bus `i`. -/
noncomputable def dispAt (bus : Fin nb → LBus) (gen : Fin ng → LGen) (F : LGen → ℝ) (i : Fin nb) : ℝ :=
  ∑ g with IsLoad (gen g) ∧ (gen g).bus = (bus i).num, F (gen g)

/-- Active and reactive demand of a dispatchable load: its minimum output with the opposite sign; the reactive limit that is not zero. -/
def demP (g : LGen) : ℝ := -g.pmin
noncomputable def demQ (g : LGen) : ℝ := if g.qmin = 0 then -g.qmax else if g.qmax = 0 then -g.qmin else 0

/-- Are fixed / dispatchable loads selected (`which_type`; without generators only fixed loads count)? -/
def WantF (ng : Nat) (w : Option Which) : Prop := ng = 0 ∨ w = none ∨ w = some .both ∨ w = some .fixed
def WantD (ng : Nat) (w : Option Which) : Prop := ng ≠ 0 ∧ (w = none ∨ w = some .both ∨ w = some .disp)

noncomputable instance (ng : Nat) (w : Option Which) : Decidable (WantF ng w) := Classical.dec _
noncomputable instance (ng : Nat) (w : Option Which) : Decidable (WantD ng w) := Classical.dec _

/-! ## Lemmas -/

theorem isLd_iff (g : LGen) : isLd g = true ↔ IsLoad g := by
  simp [isLd, isload, IsLoad, and_assoc]

theorem e2i_eq {bus : Fin nb → LBus} {gen : Fin ng → LGen} (h : WF bus gen) (i : Fin nb) : e2i bus (bus i).num = some i := by
  unfold e2i
  cases hf : (List.finRange nb).reverse.find? (fun j => decide ((bus j).num = (bus i).num)) with
  | none =>
    rw [List.find?_eq_none] at hf
    have := hf i (by simp)
    simp at this
  | some j =>
    have := List.find?_some hf
    simp only [decide_eq_true_eq] at this
    rw [h.inj _ _ this]

/-- A bus number that does not occur, but is not larger than the largest one, is taken for the first bus. -/
theorem e2i_dangling (bus : Fin (nb + 1) → LBus) (n : Nat) (hn : ∀ i, (bus i).num ≠ n) (hm : ∃ i, n ≤ (bus i).num) : e2i bus n = some 0 := by
  unfold e2i
  have : (List.finRange (nb + 1)).reverse.find? (fun j => decide ((bus j).num = n)) = none := by
    rw [List.find?_eq_none]
    intro i _
    simpa using hn i
  rw [this]
  simp only [hm, if_true]
  rw [List.finRange_succ]; rfl

theorem genPos_spec {bus : Fin nb → LBus} {gen : Fin ng → LGen} (h : WF bus gen) :
    ∃ pos, genPos bus gen = some pos ∧ ∀ g i, pos g = i ↔ (gen g).bus = (bus i).num := by
  have hs : ∀ g, (e2i bus (gen g).bus).isSome := fun g => by
    obtain ⟨i, hi⟩ := h.bus g
    rw [← hi, e2i_eq h]; rfl
  refine ⟨_, by unfold genPos; rw [dif_pos hs], fun g i => ?_⟩
  obtain ⟨j, hj⟩ := h.bus g
  have : (e2i bus (gen g).bus).get (hs g) = j := by
    apply Option.get_of_eq_some
    rw [← hj, e2i_eq h]
  rw [this]
  constructor
  · rintro rfl; exact hj.symm
  · intro hb; exact h.inj _ _ (hj.trans hb)

theorem minusCld_eq {bus : Fin nb → LBus} {gen : Fin ng → LGen} {pos : Fin ng → Fin nb}
    (hp : ∀ g i, pos g = i ↔ (gen g).bus = (bus i).num) (F D : LGen → ℝ) (hF : ∀ g, IsLoad g → D g = - F g) (i : Fin nb) :
    minusCld gen pos F i = dispAt bus gen D i := by
  unfold minusCld dispAt
  rw [Finset.sum_filter]
  refine Finset.sum_congr rfl fun g _ => ?_
  by_cases h1 : pos g = i
  · by_cases h2 : isLd (gen g) = true
    · rw [if_pos h1, if_pos h2, if_pos ⟨(isLd_iff _).1 h2, (hp g i).1 h1⟩, hF _ ((isLd_iff _).1 h2)]; ring
    · rw [if_pos h1, if_neg h2, if_neg]
      · ring
      · rintro ⟨hc, -⟩; exact h2 ((isLd_iff _).2 hc)
  · rw [if_neg h1, if_neg]
    · ring
    · rintro ⟨-, hc⟩; exact h1 ((hp g i).2 hc)

theorem demQ_eq (g : LGen) (h : IsLoad g) : demQ g = - loadQ g := by
  unfold demQ loadQ
  rw [if_pos ((isLd_iff g).2 h)]
  split_ifs <;> simp_all

theorem whichOf_F (ng : Nat) (w : Option Which) : (whichOf ng w = .both ∨ whichOf ng w = .fixed) ↔ WantF ng w := by
  unfold whichOf WantF
  split_ifs with h
  · simp [h]
  · rcases w with _ | _ | _ | _ | _ <;> simp [h]

theorem whichOf_D (ng : Nat) (w : Option Which) : (whichOf ng w = .both ∨ whichOf ng w = .disp) ↔ WantD ng w := by
  unfold whichOf WantD
  split_ifs with h
  · simp [h]
  · rcases w with _ | _ | _ | _ | _ <;> simp [h]

/-! ## C20 -/

/-- What bus `i` contributes: its fixed demand if selected, and its dispatchable loads if selected. -/
noncomputable def busP (bus : Fin nb → LBus) (gen : Fin ng → LGen) (w : Option Which) (i : Fin nb) : ℝ :=
  (if WantF ng w then (bus i).pd else 0) + (if WantD ng w then dispAt bus gen demP i else 0)
noncomputable def busQ (bus : Fin nb → LBus) (gen : Fin ng → LGen) (w : Option Which) (i : Fin nb) : ℝ :=
  (if WantF ng w then (bus i).qd else 0) + (if WantD ng w then dispAt bus gen demQ i else 0)

/-- **C20.** For every zone `k ≥ 1` up to the largest zone number, `total_load` returns the sum over the buses of that zone of what each bus
contributes.  If dispatchable loads are wanted this needs a scipy that negates boolean matrices (`negOk`), see `C20_negation`. -/
theorem C20_partial (negOk : Bool) (bus : Fin (nb + 1) → LBus) (gen : Fin ng → LGen) (h : WF bus gen) (z : ZoneArg (nb + 1)) (w : Option Which)
    (hn : WantD ng w → negOk = true) :
    ∃ P Q, totalLoad negOk bus gen z w = some (P, Q) ∧ P.length = univ.sup (zoneOf bus z) ∧ Q.length = univ.sup (zoneOf bus z) ∧
      (∀ k : Nat, k < univ.sup (zoneOf bus z) → P[k]? = some (∑ i with zoneOf bus z i = k + 1, busP bus gen w i)) ∧
      (∀ k : Nat, k < univ.sup (zoneOf bus z) → Q[k]? = some (∑ i with zoneOf bus z i = k + 1, busQ bus gen w i)) := by
  unfold totalLoad
  simp only [Nat.add_eq_zero_iff, one_ne_zero, and_false, if_false, whichOf_F, whichOf_D]
  by_cases hD : WantD ng w
  · obtain ⟨pos, hpos, hp⟩ := genPos_spec h
    rw [if_pos hD, hpos]
    simp only [hn hD, if_true]
    refine ⟨_, _, rfl, by simp, by simp, fun k hk => ?_, fun k hk => ?_⟩
    · rw [List.getElem?_map, List.getElem?_range hk, Option.map_some, Option.some_inj, ← Finset.sum_add_distrib]
      refine Finset.sum_congr rfl fun i _ => ?_
      unfold busP
      rw [if_pos hD, minusCld_eq hp _ demP (fun g _ => rfl)]
    · rw [List.getElem?_map, List.getElem?_range hk, Option.map_some, Option.some_inj, ← Finset.sum_add_distrib]
      refine Finset.sum_congr rfl fun i _ => ?_
      unfold busQ
      rw [if_pos hD, minusCld_eq hp _ demQ demQ_eq]
  · rw [if_neg hD]
    refine ⟨_, _, rfl, by simp, by simp, fun k hk => ?_, fun k hk => ?_⟩
    · rw [List.getElem?_map, List.getElem?_range hk, Option.map_some, Option.some_inj, ← Finset.sum_add_distrib]
      refine Finset.sum_congr rfl fun i _ => ?_
      unfold busP
      rw [if_neg hD]
    · rw [List.getElem?_map, List.getElem?_range hk, Option.map_some, Option.some_inj, ← Finset.sum_add_distrib]
      refine Finset.sum_congr rfl fun i _ => ?_
      unfold busQ
      rw [if_neg hD]

/-- **C20** (grand total): if every bus is in a zone, the zone values add up to the total over all buses. -/
theorem C20_grand_partial (negOk : Bool) (bus : Fin (nb + 1) → LBus) (gen : Fin ng → LGen) (h : WF bus gen) (z : ZoneArg (nb + 1))
    (w : Option Which) (hn : WantD ng w → negOk = true) (hz : ∀ i, 1 ≤ zoneOf bus z i) :
    ∃ P Q, totalLoad negOk bus gen z w = some (P, Q) ∧ P.sum = ∑ i, busP bus gen w i ∧ Q.sum = ∑ i, busQ bus gen w i := by
  obtain ⟨P, Q, ht, hPl, hQl, hP, hQ⟩ := C20_partial negOk bus gen h z w hn
  have key : ∀ (L : List ℝ) (F : Fin (nb + 1) → ℝ), L.length = univ.sup (zoneOf bus z) →
      (∀ k : Nat, k < univ.sup (zoneOf bus z) → L[k]? = some (∑ i with zoneOf bus z i = k + 1, F i)) → L.sum = ∑ i, F i := by
    intro L F hl hk
    have hL : L = (List.range (univ.sup (zoneOf bus z))).map (fun k => ∑ i with zoneOf bus z i = k + 1, F i) := by
      apply List.ext_getElem?
      intro k
      by_cases hlt : k < univ.sup (zoneOf bus z)
      · rw [hk k hlt, List.getElem?_map, List.getElem?_range hlt]; rfl
      · rw [List.getElem?_eq_none (by omega), List.getElem?_eq_none (by rw [List.length_map, List.length_range]; omega)]
    rw [hL]
    have : ((List.range (univ.sup (zoneOf bus z))).map (fun k => ∑ i with zoneOf bus z i = k + 1, F i)).sum =
        ∑ k ∈ Finset.range (univ.sup (zoneOf bus z)), ∑ i with zoneOf bus z i = k + 1, F i := rfl
    rw [this]
    have hmaps : ∀ i ∈ (univ : Finset (Fin (nb + 1))), zoneOf bus z i - 1 ∈ Finset.range (univ.sup (zoneOf bus z)) := by
      intro i _
      have h1 := Finset.le_sup (f := zoneOf bus z) (Finset.mem_univ i)
      have h2 := hz i
      rw [Finset.mem_range]; omega
    rw [← Finset.sum_fiberwise_of_maps_to hmaps]
    refine Finset.sum_congr rfl fun k _ => Finset.sum_congr ?_ fun _ _ => rfl
    ext i
    have := hz i
    simp only [Finset.mem_filter, Finset.mem_univ, true_and]
    omega
  exact ⟨P, Q, ht, key P _ hPl hP, key Q _ hQl hQ⟩

/-- **C20** (negation on current scipy): where negating a boolean matrix is refused, asking for dispatchable loads always raises. -/
theorem C20_negation (bus : Fin nb → LBus) (gen : Fin ng → LGen) (z : ZoneArg nb) (w : Option Which) (hD : WantD ng w) :
    totalLoad false bus gen z w = none := by
  unfold totalLoad
  simp only [whichOf_D, hD, if_true, Bool.false_eq_true, if_false]
  by_cases h0 : nb = 0
  · rw [if_pos h0]
  · rw [if_neg h0]
    cases genPos bus gen <;> rfl

/-! ## C21 -/

/-- A fixed load multiplied by `s`. -/
def mulBus (pq : Bool) (s : ℝ) (x : LBus) : LBus := ⟨x.num, x.area, x.pd * s, if pq then x.qd * s else x.qd⟩

theorem busStep_eq (pq : Bool) (s : List ℝ) (zone : Fin nb → Nat) (bus : Fin nb → LBus) (k : Nat) (i : Fin nb) :
    busStep pq s zone bus k i = if zone i = k + 1 then mulBus pq (s.getD k 0) (bus i) else bus i := rfl

theorem foldl_busStep (pq : Bool) (s : List ℝ) (zone : Fin nb → Nat) (bus : Fin nb → LBus) (n : Nat) (i : Fin nb) :
    (List.range n).foldl (busStep pq s zone) bus i =
      if 1 ≤ zone i ∧ zone i ≤ n then mulBus pq (s.getD (zone i - 1) 0) (bus i) else bus i := by
  induction n with
  | zero => rw [if_neg (by omega)]; rfl
  | succ n ih =>
    rw [List.range_succ, List.foldl_append, List.foldl_cons, List.foldl_nil, busStep_eq, ih]
    by_cases h : zone i = n + 1
    · rw [if_pos h, if_neg (by omega), if_pos (by omega), h]
      rfl
    · rw [if_neg h]
      by_cases h2 : 1 ≤ zone i ∧ zone i ≤ n
      · rw [if_pos h2, if_pos (by omega)]
      · rw [if_neg h2, if_neg (by omega)]

/-- A dispatchable load multiplied by `s`. -/
def mulGen (pq : Bool) (s : ℝ) (x : LGen) : LGen :=
  if pq then ⟨x.bus, x.pg * s, x.qg * s, x.qmax * s, x.qmin * s, x.on, x.pmax, x.pmin * s⟩
  else ⟨x.bus, x.pg * s, x.qg, x.qmax, x.qmin, x.on, x.pmax, x.pmin * s⟩

theorem genStep_eq (pq : Bool) (s : List ℝ) (zone : Fin nb → Nat) (ld : Fin ng → Bool) (pos : Fin ng → Fin nb) (gen : Fin ng → LGen)
    (k : Nat) (g : Fin ng) : genStep pq s zone ld pos gen k g =
      if ld g = true ∧ zone (pos g) = k + 1 then mulGen pq (s.getD k 0) (gen g) else gen g := rfl

theorem foldl_genStep (pq : Bool) (s : List ℝ) (zone : Fin nb → Nat) (ld : Fin ng → Bool) (pos : Fin ng → Fin nb) (gen : Fin ng → LGen)
    (n : Nat) (g : Fin ng) :
    (List.range n).foldl (genStep pq s zone ld pos) gen g =
      if ld g = true ∧ 1 ≤ zone (pos g) ∧ zone (pos g) ≤ n then mulGen pq (s.getD (zone (pos g) - 1) 0) (gen g) else gen g := by
  induction n with
  | zero => rw [if_neg (by omega)]; rfl
  | succ n ih =>
    rw [List.range_succ, List.foldl_append, List.foldl_cons, List.foldl_nil, genStep_eq, ih]
    by_cases h : ld g = true ∧ zone (pos g) = n + 1
    · rw [if_pos h, if_neg (by omega), if_pos (And.intro h.1 (by omega)), h.2]
      rfl
    · rw [if_neg h]
      by_cases h2 : ld g = true ∧ 1 ≤ zone (pos g) ∧ zone (pos g) ≤ n
      · rw [if_pos h2, if_pos (And.intro h2.1 (by omega))]
      · rw [if_neg h2, if_neg]
        rintro ⟨a, b⟩
        rcases Nat.lt_or_ge n (zone (pos g)) with c | c
        · exact h ⟨a, by omega⟩
        · exact h2 ⟨a, by omega⟩

/-- Specification of one scaling: `bus'`, `gen'` are `bus`, `gen` with the selected loads of zone `k+1` multiplied by `s k` (`k < n`), active
and, with `pq`, reactive values; everything else is unchanged. -/
structure Scaled (o : ScaleOpt) (n : Nat) (s : Nat → ℝ) (zone : Fin nb → Nat) (bus bus' : Fin nb → LBus) (gen gen' : Fin ng → LGen) : Prop where
  same : ∀ i, (bus' i).num = (bus i).num ∧ (bus' i).area = (bus i).area
  fixed : ∀ i k, o.which ≠ .disp → zone i = k + 1 → k < n →
    (bus' i).pd = (bus i).pd * s k ∧ (bus' i).qd = if o.pq then (bus i).qd * s k else (bus i).qd
  fixedOut : ∀ i, o.which = .disp ∨ zone i = 0 ∨ n < zone i → bus' i = bus i
  disp : ∀ g i k, o.which ≠ .fixed → IsLoad (gen g) → (gen g).bus = (bus i).num → zone i = k + 1 → k < n → gen' g = mulGen o.pq (s k) (gen g)
  dispOut : ∀ g i, (gen g).bus = (bus i).num → (o.which = .fixed ∨ ¬ IsLoad (gen g) ∨ zone i = 0 ∨ n < zone i) → gen' g = gen g

theorem applyScale_spec (o : ScaleOpt) (s : List ℝ) (zone : Fin nb → Nat) (pos : Fin ng → Fin nb) (bus : Fin nb → LBus) (gen : Fin ng → LGen)
    (hp : ∀ g i, pos g = i ↔ (gen g).bus = (bus i).num) :
    Scaled o s.length (fun k => s.getD k 0) zone bus (applyScale o s zone pos bus gen).1 gen (applyScale o s zone pos bus gen).2 := by
  unfold applyScale
  dsimp only
  constructor
  · intro i
    by_cases ho : o.which = .disp
    · rw [if_pos ho]; exact ⟨rfl, rfl⟩
    · rw [if_neg ho, foldl_busStep]; split <;> exact ⟨rfl, rfl⟩
  · intro i k ho hz hk
    rw [if_neg ho, foldl_busStep, if_pos (And.intro (by omega) (by omega)), hz]
    exact ⟨rfl, rfl⟩
  · intro i h
    by_cases ho : o.which = .disp
    · rw [if_pos ho]
    · rw [if_neg ho, foldl_busStep, if_neg]
      rcases h with h | h | h
      · exact absurd h ho
      · omega
      · omega
  · intro g i k ho hl hb hz hk
    rw [if_neg ho, foldl_genStep, (hp g i).2 hb, if_pos (And.intro ((isLd_iff _).2 hl) (by omega)), hz]
    rfl
  · intro g i hb h
    by_cases ho : o.which = .fixed
    · rw [if_pos ho]
    · rw [if_neg ho, foldl_genStep, (hp g i).2 hb, if_neg]
      rintro ⟨a, b⟩
      rcases h with h | h | h | h
      · exact ho h
      · exact h ((isLd_iff _).1 a)
      · omega
      · omega

/-- The selection used by `scale_load`: without generators only fixed loads are scaled. -/
def effOpt (ng : Nat) (o : ScaleOpt) : ScaleOpt := ⟨if ng = 0 then .fixed else o.which, o.pq, o.quantity⟩

/-- Zones used: the given ones, or by default (with other than one load value) the areas. -/
def zoneUsed (bus : Fin nb → LBus) (z : Option (Fin nb → Nat)) : Fin nb → Nat := z.getD fun i => (bus i).area

theorem scaleLoad_unfold (negOk : Bool) (kind : LoadKind) (load : List ℝ) (bus : Fin (nb + 1) → LBus) (gen : Fin ng → LGen) (h : WF bus gen)
    (z : Option (Fin (nb + 1) → Nat)) (o : ScaleOpt) (hz : z = none → load.length ≠ 1) (hq : o.quantity = true → ng = 0 ∨ negOk = true) :
    ∃ pos : Fin ng → Fin (nb + 1), (∀ g i, pos g = i ↔ (gen g).bus = (bus i).num) ∧
      scaleLoad negOk kind load bus gen z o =
        (factors kind (effOpt ng o) load bus (zoneUsed bus z) (minusCld gen pos (·.pmin))).map
          fun s => applyScale (effOpt ng o) s (zoneUsed bus z) pos bus gen := by
  obtain ⟨pos, hpos, hp⟩ := genPos_spec h
  refine ⟨pos, hp, ?_⟩
  unfold scaleLoad
  simp only [hpos]
  have hzone : zonesFor z load.length bus gen pos = .ok (zoneUsed bus z) := by
    cases z with
    | some z => rfl
    | none => unfold zonesFor defaultZone; dsimp only; rw [if_neg (hz rfl)]; rfl
  rw [hzone]
  have hq' : ¬((effOpt ng o).quantity = true ∧ ng ≠ 0 ∧ negOk = false) := by
    rintro ⟨a, b, c⟩
    rcases hq a with h | h
    · exact b h
    · rw [h] at c; exact absurd c (by decide)
  unfold effOpt at hq' ⊢
  simp only [Nat.add_eq_zero_iff, one_ne_zero, and_false, if_false, hq', bind, Except.bind]
  cases factors kind ⟨if ng = 0 then Which.fixed else o.which, o.pq, o.quantity⟩ load bus (zoneUsed bus z) (minusCld gen pos (·.pmin)) <;> rfl

/-- **C21** (factors): with scale factors every selected load of zone `k+1` is multiplied by factor `k`, all other values are unchanged.
Condition `hz`: zones are given, or there is not exactly one factor, see `C21_negation_default`. -/
theorem C21_factor_partial (negOk : Bool) (kind : LoadKind) (load : List ℝ) (bus : Fin (nb + 1) → LBus) (gen : Fin ng → LGen) (h : WF bus gen)
    (z : Option (Fin (nb + 1) → Nat)) (o : ScaleOpt) (hz : z = none → load.length ≠ 1) (hq : o.quantity = false) :
    ∃ bus' gen', scaleLoad negOk kind load bus gen z o = .ok (bus', gen') ∧
      Scaled (effOpt ng o) load.length (fun k => load.getD k 0) (zoneUsed bus z) bus bus' gen gen' := by
  obtain ⟨pos, hp, he⟩ := scaleLoad_unfold negOk kind load bus gen h z o hz (by rw [hq]; intro h; cases h)
  refine ⟨_, _, ?_, applyScale_spec (effOpt ng o) load (zoneUsed bus z) pos bus gen hp⟩
  rw [he]
  unfold factors
  rw [if_neg (by simp [effOpt, hq])]
  rfl

/-- Active load of zone `k+1` in `(bus', gen')`, counting as dispatchable loads the ones of `gen`. -/
noncomputable def zoneP (zone : Fin nb → Nat) (k : Nat) (bus' : Fin nb → LBus) (gen gen' : Fin ng → LGen) : ℝ :=
  ∑ i with zone i = k + 1, ((bus' i).pd + ∑ g with IsLoad (gen g) ∧ (gen' g).bus = (bus' i).num, demP (gen' g))

theorem zoneP_self (zone : Fin nb → Nat) (k : Nat) (bus : Fin nb → LBus) (gen : Fin ng → LGen) :
    zoneP zone k bus gen gen = ∑ i with zone i = k + 1, (bus i).pd + ∑ i with zone i = k + 1, dispAt bus gen demP i := by
  unfold zoneP dispAt
  rw [Finset.sum_add_distrib]

theorem mulGen_bus (pq : Bool) (s : ℝ) (x : LGen) : (mulGen pq s x).bus = x.bus := by unfold mulGen; split <;> rfl

theorem mulGen_pmin (pq : Bool) (s : ℝ) (x : LGen) : (mulGen pq s x).pmin = x.pmin * s := by unfold mulGen; split <;> rfl

/-- Zone load after a scaling. -/
theorem Scaled.zoneP_eq {o : ScaleOpt} {n : Nat} {s : Nat → ℝ} {zone : Fin nb → Nat} {bus bus' : Fin nb → LBus} {gen gen' : Fin ng → LGen}
    (hwf : WF bus gen) (h : Scaled o n s zone bus bus' gen gen') (k : Nat) (hk : k < n) :
    zoneP zone k bus' gen gen' =
      (if o.which = .disp then 1 else s k) * ∑ i with zone i = k + 1, (bus i).pd +
      (if o.which = .fixed then 1 else s k) * ∑ i with zone i = k + 1, dispAt bus gen demP i := by
  unfold zoneP
  rw [Finset.mul_sum, Finset.mul_sum, ← Finset.sum_add_distrib]
  refine Finset.sum_congr rfl fun i hi => ?_
  have hz : zone i = k + 1 := by simpa using hi
  congr 1
  · by_cases ho : o.which = .disp
    · rw [if_pos ho, h.fixedOut i (Or.inl ho), one_mul]
    · rw [if_neg ho, (h.fixed i k ho hz hk).1, mul_comm]
  · unfold dispAt
    rw [Finset.mul_sum]
    have hbus : ∀ g, (gen' g).bus = (gen g).bus := by
      intro g
      obtain ⟨j, hj⟩ := hwf.bus g
      by_cases hout : o.which = .fixed ∨ ¬ IsLoad (gen g) ∨ zone j = 0 ∨ n < zone j
      · rw [h.dispOut g j hj.symm hout]
      · simp only [not_or, not_not] at hout
        obtain ⟨h1, h2, h3, h4⟩ := hout
        rw [h.disp g j (zone j - 1) h1 h2 hj.symm (by omega) (by omega), mulGen_bus]
    refine Finset.sum_congr ?_ fun g hg => ?_
    · ext g
      rw [Finset.mem_filter, Finset.mem_filter, hbus g, (h.same i).1]
    · simp only [Finset.mem_filter, Finset.mem_univ, true_and] at hg
      by_cases ho : o.which = .fixed
      · rw [if_pos ho, h.dispOut g i hg.2 (Or.inl ho), one_mul]
      · rw [if_neg ho, h.disp g i k ho hg.1 hg.2 hz hk]
        unfold demP
        rw [mulGen_pmin]; ring

theorem mapM_ok {f : Nat → Except Err ℝ} (l : List Nat) (v : Nat → ℝ) (h : ∀ k ∈ l, f k = .ok (v k)) : l.mapM f = .ok (l.map v) := by
  induction l with
  | nil => rfl
  | cons a l ih =>
    rw [List.mapM_cons, h a (by simp), ih fun k hk => h k (by simp [hk])]
    rfl

theorem mapM_err {f : Nat → Except Err ℝ} (l : List Nat) (hall : ∀ k ∈ l, f k = .error .scaling ∨ ∃ v, f k = .ok v)
    (h : ∃ k ∈ l, f k = .error .scaling) : l.mapM f = .error .scaling := by
  induction l with
  | nil => obtain ⟨k, hk, -⟩ := h; simp at hk
  | cons a l ih =>
    rw [List.mapM_cons]
    rcases hall a (by simp) with he | ⟨v, hv⟩
    · rw [he]; rfl
    · rw [hv]
      have : ∃ k ∈ l, f k = .error .scaling := by
        obtain ⟨k, hk, hf⟩ := h
        rcases List.mem_cons.1 hk with rfl | hk
        · rw [hv] at hf; cases hf
        · exact ⟨k, hk, hf⟩
      have := ih (fun k hk => hall k (by simp [hk])) this
      change (l.mapM f >>= _) = _
      rw [this]
      rfl

/-- The part of the load of zone `k+1` that the options allow to scale, and the part that stays. -/
noncomputable def scalable (o : ScaleOpt) (zone : Fin nb → Nat) (bus : Fin nb → LBus) (gen : Fin ng → LGen) (k : Nat) : ℝ :=
  (if o.which = .disp then 0 else ∑ i with zone i = k + 1, (bus i).pd) +
  (if o.which = .fixed then 0 else ∑ i with zone i = k + 1, dispAt bus gen demP i)

noncomputable def unscaled (o : ScaleOpt) (zone : Fin nb → Nat) (bus : Fin nb → LBus) (gen : Fin ng → LGen) (k : Nat) : ℝ :=
  (if o.which = .disp then ∑ i with zone i = k + 1, (bus i).pd else 0) +
  (if o.which = .fixed then ∑ i with zone i = k + 1, dispAt bus gen demP i else 0)

theorem quantityFactor_eq (kind : LoadKind) (o : ScaleOpt) (ho : o.which ≠ .other) (zone : Fin nb → Nat) (bus : Fin nb → LBus)
    (gen : Fin ng → LGen) (k : Nat) (t old : ℝ) :
    quantityFactor kind o.which (∑ i with zone i = k + 1, (bus i).pd) (∑ i with zone i = k + 1, dispAt bus gen demP i) t old =
      if scalable o zone bus gen k ≠ 0 then .ok (store kind ((t - unscaled o zone bus gen k) / scalable o zone bus gen k))
      else if t = unscaled o zone bus gen k then .ok 1 else .error .scaling := by
  unfold quantityFactor scalable unscaled
  cases hw : o.which with
  | both =>
    simp only [reduceCtorEq, if_false, add_zero, sub_zero]
    by_cases h : ∑ i with zone i = k + 1, (bus i).pd + ∑ i with zone i = k + 1, dispAt bus gen demP i = 0
    · simp [h]
    · simp [h]
  | fixed => simp
  | disp => simp
  | other => exact absurd hw ho

theorem factors_quantity (kind : LoadKind) (o : ScaleOpt) (ho : o.which ≠ .other) (hq : o.quantity = true) (load : List ℝ)
    (zone : Fin nb → Nat) (bus : Fin nb → LBus) (gen : Fin ng → LGen) (pos : Fin ng → Fin nb)
    (hp : ∀ g i, pos g = i ↔ (gen g).bus = (bus i).num) :
    factors kind o load bus zone (minusCld gen pos (·.pmin)) = (List.range load.length).mapM fun k =>
      if scalable o zone bus gen k ≠ 0 then
        .ok (store kind ((load.getD k 0 - unscaled o zone bus gen k) / scalable o zone bus gen k))
      else if load.getD k 0 = unscaled o zone bus gen k then .ok 1 else .error .scaling := by
  unfold factors
  rw [if_pos hq]
  congr 1
  funext k
  have : ∀ i, minusCld gen pos (fun x => x.pmin) i = dispAt bus gen demP i := minusCld_eq hp _ _ fun _ _ => rfl
  simp only [this]
  exact quantityFactor_eq kind o ho zone bus gen k _ _

/-- **C21** (impossible target): if some zone has nothing that may be scaled and its load is not already the requested one, a `ScalingError` is
raised. -/
theorem C21_impossible (negOk : Bool) (kind : LoadKind) (load : List ℝ) (bus : Fin (nb + 1) → LBus) (gen : Fin ng → LGen) (h : WF bus gen)
    (z : Option (Fin (nb + 1) → Nat)) (o : ScaleOpt) (hz : z = none → load.length ≠ 1) (hq : o.quantity = true) (hneg : ng = 0 ∨ negOk = true)
    (ho : o.which ≠ .other) (k : Nat) (hk : k < load.length) (h0 : scalable (effOpt ng o) (zoneUsed bus z) bus gen k = 0)
    (hne : load.getD k 0 ≠ unscaled (effOpt ng o) (zoneUsed bus z) bus gen k) :
    scaleLoad negOk kind load bus gen z o = .error .scaling := by
  obtain ⟨pos, hp, he⟩ := scaleLoad_unfold negOk kind load bus gen h z o hz fun _ => hneg
  have ho' : (effOpt ng o).which ≠ .other := by
    unfold effOpt; dsimp only; split_ifs
    · decide
    · exact ho
  rw [he, factors_quantity kind _ ho' hq load _ bus gen pos hp, mapM_err]
  · rfl
  · intro j _
    split_ifs
    · exact Or.inr ⟨_, rfl⟩
    · exact Or.inr ⟨_, rfl⟩
    · exact Or.inl rfl
  · refine ⟨k, List.mem_range.2 hk, ?_⟩
    rw [if_neg (by simpa using h0), if_neg hne]

/-- **C21** (targets): if every zone has something to scale or already has its target, then after scaling every zone's load is the requested one
(all loads counted, dispatchable ones being those of the original table), and nothing but the selected loads is changed, all by one factor per zone.
Float targets only, see `C21_negation_int`. -/
theorem C21_quantity_partial (negOk : Bool) (load : List ℝ) (bus : Fin (nb + 1) → LBus) (gen : Fin ng → LGen) (h : WF bus gen)
    (z : Option (Fin (nb + 1) → Nat)) (o : ScaleOpt) (hz : z = none → load.length ≠ 1) (hq : o.quantity = true) (hneg : ng = 0 ∨ negOk = true)
    (ho : o.which ≠ .other) (hpos : ∀ k, k < load.length → scalable (effOpt ng o) (zoneUsed bus z) bus gen k ≠ 0 ∨
      load.getD k 0 = unscaled (effOpt ng o) (zoneUsed bus z) bus gen k) :
    ∃ bus' gen' s, scaleLoad negOk .float load bus gen z o = .ok (bus', gen') ∧
      Scaled (effOpt ng o) load.length s (zoneUsed bus z) bus bus' gen gen' ∧
      (∀ k, k < load.length → zoneP (zoneUsed bus z) k bus' gen gen' = load.getD k 0) ∧
      ∀ k, k < load.length → s k = 1 ∨
        s k = (load.getD k 0 - unscaled (effOpt ng o) (zoneUsed bus z) bus gen k) / scalable (effOpt ng o) (zoneUsed bus z) bus gen k := by
  classical
  obtain ⟨pos, hp, he⟩ := scaleLoad_unfold negOk .float load bus gen h z o hz fun _ => hneg
  have ho' : (effOpt ng o).which ≠ .other := by
    unfold effOpt; dsimp only; split_ifs
    · decide
    · exact ho
  set e := effOpt ng o
  set zone := zoneUsed bus z
  let v : Nat → ℝ := fun k => if scalable e zone bus gen k ≠ 0 then (load.getD k 0 - unscaled e zone bus gen k) / scalable e zone bus gen k else 1
  have hv : factors .float e load bus zone (minusCld gen pos (·.pmin)) = .ok ((List.range load.length).map v) := by
    rw [factors_quantity .float _ ho' hq load _ bus gen pos hp, mapM_ok _ v]
    intro k hk
    by_cases h0 : scalable e zone bus gen k = 0
    · have := (hpos k (List.mem_range.1 hk)).resolve_left (by simpa using h0)
      simp only [h0, ne_eq, not_true_eq_false, if_false, this, if_true, v]
    · simp only [ne_eq, h0, not_false_eq_true, if_true, store, v]
  have hS := applyScale_spec e ((List.range load.length).map v) zone pos bus gen hp
  have hget : ∀ k, k < load.length → ((List.range load.length).map v).getD k 0 = v k := by
    intro k hk
    rw [List.getD_eq_getElem?_getD, List.getElem?_map, List.getElem?_range hk]; rfl
  rw [List.length_map, List.length_range] at hS
  refine ⟨_, _, _, by rw [he, hv]; rfl, hS, fun k hk => ?_, fun k hk => ?_⟩
  · rw [hS.zoneP_eq h k hk]
    simp only [hget k hk]
    have hvk : v k * scalable e zone bus gen k = load.getD k 0 - unscaled e zone bus gen k := by
      by_cases h0 : scalable e zone bus gen k = 0
      · have := (hpos k hk).resolve_left (by simpa using h0)
        rw [h0, this]; ring
      · simp only [v, ne_eq, h0, not_false_eq_true, if_true]
        field_simp
    have : load.getD k 0 = v k * scalable e zone bus gen k + unscaled e zone bus gen k := by rw [hvk]; ring
    rw [this]
    unfold scalable unscaled
    split_ifs <;> ring
  · rw [hget k hk]
    by_cases h0 : scalable e zone bus gen k = 0
    · left; simp only [v, h0, ne_eq, not_true_eq_false, if_false]
    · right; simp only [v, ne_eq, h0, not_false_eq_true, if_true]

/-- Scaling by nonnegative factors: the loads counted in the new tables are the ones counted in `zoneP`. -/
theorem Scaled.dispAt_eq {o : ScaleOpt} {n : Nat} {s : Nat → ℝ} {zone : Fin nb → Nat} {bus bus' : Fin nb → LBus} {gen gen' : Fin ng → LGen}
    (hwf : WF bus gen) (h : Scaled o n s zone bus bus' gen gen') (hs : ∀ k, k < n → 0 ≤ s k) (i : Fin nb) :
    dispAt bus' gen' demP i = ∑ g with IsLoad (gen g) ∧ (gen' g).bus = (bus' i).num, demP (gen' g) := by
  unfold dispAt
  rw [Finset.sum_filter, Finset.sum_filter]
  refine Finset.sum_congr rfl fun g _ => ?_
  obtain ⟨j, hj⟩ := hwf.bus g
  by_cases hout : o.which = .fixed ∨ ¬ IsLoad (gen g) ∨ zone j = 0 ∨ n < zone j
  · rw [h.dispOut g j hj.symm hout]
  · simp only [not_or, not_not] at hout
    obtain ⟨h1, h2, h3, h4⟩ := hout
    have hg := h.disp g j (zone j - 1) h1 h2 hj.symm (by omega) (by omega)
    have hs' := hs (zone j - 1) (by omega)
    have hon : (gen' g).on = true ∧ (gen' g).pmax = 0 := by
      rw [hg]; unfold mulGen; split
      · exact ⟨h2.2.2, h2.2.1⟩
      · exact ⟨h2.2.2, h2.2.1⟩
    have hpm : (gen' g).pmin = (gen g).pmin * s (zone j - 1) := by rw [hg, mulGen_pmin]
    by_cases hb : (gen' g).bus = (bus' i).num
    · rcases hs'.eq_or_lt with h0 | hp
      · have h0' : (gen' g).pmin = 0 := by rw [hpm, ← h0, mul_zero]
        rw [if_neg, if_pos ⟨h2, hb⟩]
        · unfold demP; rw [h0', neg_zero]
        · rintro ⟨hc, -⟩
          have := hc.1
          rw [h0'] at this
          exact lt_irrefl _ this
      · rw [if_pos ⟨⟨by rw [hpm]; exact mul_neg_of_neg_of_pos h2.1 hp, hon.2, hon.1⟩, hb⟩, if_pos ⟨h2, hb⟩]
    · rw [if_neg (fun hc => hb hc.2), if_neg (fun hc => hb hc.2)]

/-- **C21** (targets, as `total_load` sees it): if moreover no factor is negative, `total_load` of the scaled tables returns the requested values. -/
theorem C21_quantity_total_partial (load : List ℝ) (bus : Fin (nb + 1) → LBus) (gen : Fin ng → LGen) (h : WF bus gen)
    (zone : Fin (nb + 1) → Nat) (o : ScaleOpt) (hq : o.quantity = true)
    (ho : o.which ≠ .other) (hpos : ∀ k, k < load.length → scalable (effOpt ng o) zone bus gen k ≠ 0 ∨
      load.getD k 0 = unscaled (effOpt ng o) zone bus gen k)
    (hnn : ∀ k, k < load.length → 0 ≤ (load.getD k 0 - unscaled (effOpt ng o) zone bus gen k) / scalable (effOpt ng o) zone bus gen k)
    (hmax : univ.sup zone = load.length) :
    ∃ bus' gen' Q, scaleLoad true .float load bus gen (some zone) o = .ok (bus', gen') ∧ totalLoad true bus' gen' (.given zone) none = some (load, Q) := by
  obtain ⟨bus', gen', s, hsc, hS, hz, hs⟩ := C21_quantity_partial true load bus gen h (some zone) o (by intro h; cases h) hq (Or.inr rfl) ho hpos
  have hs0 : ∀ k, k < load.length → 0 ≤ s k := fun k hk => by
    rcases hs k hk with h1 | h1
    · rw [h1]; exact zero_le_one
    · rw [h1]; exact hnn k hk
  have hbus : ∀ g, (gen' g).bus = (gen g).bus := by
    intro g
    obtain ⟨j, hj⟩ := h.bus g
    by_cases hout : (effOpt ng o).which = .fixed ∨ ¬ IsLoad (gen g) ∨ zone j = 0 ∨ load.length < zone j
    · rw [hS.dispOut g j hj.symm hout]
    · simp only [not_or, not_not] at hout
      obtain ⟨h1, h2, h3, h4⟩ := hout
      rw [hS.disp g j (zone j - 1) h1 h2 hj.symm (by change zone j = _; omega) (by omega), mulGen_bus]
  have hwf' : WF bus' gen' :=
    ⟨fun i j hij => h.inj i j (by rw [(hS.same i).1, (hS.same j).1] at hij; exact hij), fun g => by
      obtain ⟨j, hj⟩ := h.bus g
      exact ⟨j, by rw [(hS.same j).1, hbus g, hj]⟩⟩
  obtain ⟨P, Q, ht, hPl, -, hP, -⟩ := C20_partial true bus' gen' hwf' (.given zone) none fun _ => rfl
  refine ⟨bus', gen', Q, hsc, ?_⟩
  rw [ht, Option.some_inj, Prod.mk.injEq]
  refine ⟨?_, rfl⟩
  have hlen : P.length = load.length := by rw [hPl]; exact hmax
  apply List.ext_getElem?
  intro k
  by_cases hk : k < load.length
  · rw [hP k (by change k < univ.sup zone; omega)]
    have : load[k]? = some (load.getD k 0) := by rw [List.getD_eq_getElem?_getD, List.getElem?_eq_getElem hk]; rfl
    rw [this, ← hz k hk, Option.some_inj]
    unfold zoneP
    refine Finset.sum_congr rfl fun i _ => ?_
    unfold busP
    have hF : WantF ng none := Or.inr (Or.inl rfl)
    rw [if_pos hF, ← hS.dispAt_eq h hs0 i]
    by_cases hng : ng = 0
    · subst hng
      rw [if_neg (fun hc => hc.1 rfl)]
      unfold dispAt
      simp
    · rw [if_pos ⟨hng, Or.inl rfl⟩]
  · rw [List.getElem?_eq_none (by omega), List.getElem?_eq_none (by omega)]

/-- **C21** (negation, default zones): one load value and no zones given (documented: "a single zone of all load buses") always raises, as soon as
there are two buses. -/
theorem C21_negation_default (negOk : Bool) (kind : LoadKind) (t : ℝ) (bus : Fin (nb + 2) → LBus) (gen : Fin ng → LGen) (o : ScaleOpt) :
    scaleLoad negOk kind [t] bus gen none o = .error .other := by
  unfold scaleLoad
  cases genPos bus gen with
  | none => rfl
  | some pos =>
    simp only [List.length_singleton, zonesFor, defaultZone, if_true]
    rw [if_pos (by omega)]
    rfl

/-- **C21** (negation, integer targets): with an integer array of targets the factors are truncated, and the target is missed: here a load of 3
is to become 1 and becomes 0. -/
theorem C21_negation_int : ∃ bus' gen', scaleLoad true .int [1] (fun _ : Fin 1 => ⟨1, 1, 3, 0⟩) (Fin.elim0 : Fin 0 → LGen) (some fun _ => 1)
    ⟨.both, true, true⟩ = .ok (bus', gen') ∧ (bus' 0).pd = 0 := by
  have hwf : WF (fun _ : Fin 1 => (⟨1, 1, 3, 0⟩ : LBus)) (Fin.elim0 : Fin 0 → LGen) := ⟨fun i j _ => Subsingleton.elim i j, fun g => g.elim0⟩
  obtain ⟨pos, hp, he⟩ := scaleLoad_unfold true .int [1] (fun _ : Fin 1 => (⟨1, 1, 3, 0⟩ : LBus)) (Fin.elim0 : Fin 0 → LGen) hwf (some fun _ => 1)
    ⟨.both, true, true⟩ (by intro h; cases h) (fun _ => Or.inl rfl)
  have hf : factors .int (effOpt 0 ⟨.both, true, true⟩) [1] (fun _ : Fin 1 => (⟨1, 1, 3, 0⟩ : LBus)) (zoneUsed (fun _ : Fin 1 => (⟨1, 1, 3, 0⟩ : LBus)) (some fun _ => 1))
      (minusCld (Fin.elim0 : Fin 0 → LGen) pos (·.pmin)) = .ok [0] := by
    rw [factors_quantity .int _ (by simp [effOpt]) rfl [1] _ _ _ pos hp]
    rw [mapM_ok _ fun _ => 0]
    · rfl
    · intro k hk
      have hk : k = 0 := by simpa using hk
      subst hk
      have h1 : scalable (effOpt 0 ⟨.both, true, true⟩) (zoneUsed (fun _ : Fin 1 => (⟨1, 1, 3, 0⟩ : LBus)) (some fun _ => 1))
          (fun _ : Fin 1 => (⟨1, 1, 3, 0⟩ : LBus)) (Fin.elim0 : Fin 0 → LGen) 0 = 3 := by
        simp [scalable, effOpt, zoneUsed]
      have h2 : unscaled (effOpt 0 ⟨.both, true, true⟩) (zoneUsed (fun _ : Fin 1 => (⟨1, 1, 3, 0⟩ : LBus)) (some fun _ => 1))
          (fun _ : Fin 1 => (⟨1, 1, 3, 0⟩ : LBus)) (Fin.elim0 : Fin 0 → LGen) 0 = 0 := by
        simp [unscaled, effOpt, dispAt]
      rw [h1, h2, if_pos (by norm_num)]
      have : ⌊((1 : ℝ) / 3)⌋ = 0 := by rw [Int.floor_eq_zero_iff]; constructor <;> norm_num
      simp only [store, List.getD_cons_zero, sub_zero]
      rw [if_pos (by norm_num), this]; simp
  refine ⟨_, _, by rw [he, hf]; rfl, ?_⟩
  simp [effOpt, busStep, zoneUsed]

/-- **C21** (negation on current scipy): with target quantities and generators present, a scipy that refuses to negate boolean matrices raises. -/
theorem C21_negation_scipy (kind : LoadKind) (load : List ℝ) (bus : Fin nb → LBus) (gen : Fin ng → LGen) (z : Fin nb → Nat) (o : ScaleOpt)
    (hng : ng ≠ 0) (hq : o.quantity = true) : scaleLoad false kind load bus gen (some z) o = .error .other := by
  unfold scaleLoad
  cases genPos bus gen with
  | none => rfl
  | some pos =>
    simp only [hq, hng, zonesFor, if_false, ne_eq, not_false_eq_true, and_self, if_true]
    by_cases h0 : nb = 0
    · simp only [h0, if_true]; rfl
    · simp only [h0, if_false]; rfl

/-! ## Non-vacuity: two buses (numbers 4 and 9, zones 1 and 2), a dispatchable load at bus 9 and a generator at bus 4 -/

noncomputable def exBus : Fin 2 → LBus := ![⟨4, 1, 50, 10⟩, ⟨9, 2, 30, 5⟩]
noncomputable def exGen : Fin 2 → LGen := ![⟨9, -20, -4, 0, -4, true, 0, -20⟩, ⟨4, 80, 0, 50, -50, true, 100, 10⟩]

theorem ex_wf : WF exBus exGen := by
  constructor
  · intro i j
    fin_cases i <;> fin_cases j <;> simp [exBus]
  · intro g
    fin_cases g
    · exact ⟨1, by simp [exBus, exGen]⟩
    · exact ⟨0, by simp [exBus, exGen]⟩

example : IsLoad (exGen 0) ∧ ¬ IsLoad (exGen 1) := by
  constructor
  · simp [IsLoad, exGen]
  · simp [IsLoad, exGen]

-- The reading of the specification for zone 2: fixed 30 plus dispatchable 20.
example : busP exBus exGen none 1 = 50 := by
  unfold busP dispAt
  rw [if_pos (show WantF 2 none from Or.inr (Or.inl rfl)), if_pos (show WantD 2 none from ⟨by decide, Or.inl rfl⟩), Finset.sum_filter, Fin.sum_univ_two]
  simp [IsLoad, exBus, exGen, demP]
  norm_num

example : ∃ bus' gen' Q, scaleLoad true .float [100, 25] exBus exGen (some ![1, 2]) ⟨.both, true, true⟩ = .ok (bus', gen') ∧
    totalLoad true bus' gen' (.given ![1, 2]) none = some ([100, 25], Q) := by
  have hd0 : dispAt exBus exGen demP 0 = 0 := by
    unfold dispAt
    rw [Finset.sum_filter, Fin.sum_univ_two]; simp [IsLoad, exBus, exGen]
  have hd1 : dispAt exBus exGen demP 1 = 20 := by
    unfold dispAt
    rw [Finset.sum_filter, Fin.sum_univ_two]; simp [IsLoad, exBus, exGen, demP]
  have hsc : ∀ k, k < 2 → scalable (effOpt 2 ⟨.both, true, true⟩) ![1, 2] exBus exGen k = 50 := by
    intro k hk
    have : k = 0 ∨ k = 1 := by omega
    rcases this with rfl | rfl
    · simp [scalable, effOpt, Finset.sum_filter, Fin.sum_univ_two, hd0]; simp [exBus]
    · simp [scalable, effOpt, Finset.sum_filter, Fin.sum_univ_two, hd1]; simp [exBus]; norm_num
  have hun : ∀ k, k < 2 → unscaled (effOpt 2 ⟨.both, true, true⟩) ![1, 2] exBus exGen k = 0 := by
    intro k hk
    simp [unscaled, effOpt]
  refine C21_quantity_total_partial [100, 25] exBus exGen ex_wf ![1, 2] _ rfl (by decide) (fun k hk => ?_) (fun k hk => ?_) (by decide)
  · left; rw [hsc k hk]; norm_num
  · rw [hsc k hk, hun k hk]
    have : k = 0 ∨ k = 1 := by have : k < 2 := hk; omega
    rcases this with rfl | rfl <;> norm_num

end Verif.Load
