import Verif.Reserves.Model
import Verif.Constr.Lemmas
import Mathlib.Algebra.BigOperators.Group.Finset.Basic
import Mathlib.Algebra.BigOperators.Field
import Mathlib.Tactic.FinCases

/-!
# C57: reserve requirements
-/

open Verif.NumPy

namespace Verif.Reserves

noncomputable section

/-! ## Specification -/

/-- Generator `i` belongs to some zone. -/
def Provides (r : Res) (i : Nat) : Prop := ∃ row ∈ r.zones, row.getD i 0 ≠ 0

/-- The providing generators, in increasing order. -/
def providers (ng : Nat) (r : Res) : List Nat := (List.range ng).filter fun i => @decide (Provides r i) (Classical.dec _)

/-- Data given per providing generator, from a vector with one entry per generator or one entry per providing generator. -/
def perProvider (ng : Nat) (r : Res) (v : List ℝ) : List ℝ :=
  if v.length < ng then v else (providers ng r).map fun i => v.getD i 0

/-- The dimensions asked for by the documentation of `toggle_reserves`. -/
structure Valid (ng : Nat) (r : Res) : Prop where
  req : r.zones.length = r.req.length
  zones : ∀ row ∈ r.zones, row.length = ng
  cost : r.cost.length = ng ∨ r.cost.length = (providers ng r).length
  qty : ∀ q, r.qty = some q → q.length = r.cost.length

/-- Reserves of a zone in MW. -/
def zoneReserves (ng : Nat) (row : List ℝ) (R : Nat → ℝ) : ℝ := ∑ i ∈ Finset.range ng, row.getD i 0 * R i

/-! ## Proof -/

theorem find_eq_filter_range (ng : Nat) (p : Nat → Bool) : find ((List.range ng).map p) = (List.range ng).filter p := by
  have h := gather_find (List.range ng) p
  have h2 := gather_eq_filterMap h
  rw [h2]
  have : ∀ i ∈ find ((List.range ng).map p), (List.range ng)[i]? = some i := by
    intro i hi
    rw [mem_find, List.getElem?_map] at hi
    have : i < ng := by
      by_contra hn
      rw [List.getElem?_eq_none (by simpa using hn)] at hi
      simp at hi
    exact List.getElem?_range this
  rw [List.filterMap_congr (g := some) this]
  simp

theorem igr_eq (ng : Nat) (r : Res) (hv : Valid ng r) : igr ng r = providers ng r := by
  unfold igr rgens providers
  by_cases h1 : 1 < r.req.length
  · rw [if_pos h1, find_eq_filter_range]
    apply List.filter_congr
    intro i _
    rw [Bool.eq_iff_iff]
    simp [Provides, List.any_eq_true]
  · rw [if_neg h1]
    have hz := hv.req
    match hzz : r.zones with
    | [] => simp [find, findFrom, Provides, hzz]
    | [row] =>
      have hl := hv.zones row (by rw [hzz]; simp)
      have : row.map (fun v => @decide (v ≠ 0) (Classical.dec _))
          = (List.range ng).map fun i => @decide (row.getD i 0 ≠ 0) (Classical.dec _) := by
        apply List.ext_getElem
        · simp [hl]
        · intro i h1 h2
          have hi : i < row.length := by simpa using h1
          simp [hi]
      simp only [List.flatten_cons, List.flatten_nil, List.append_nil]
      rw [this, find_eq_filter_range]
      apply List.filter_congr
      intro i _
      rw [Bool.eq_iff_iff]
      simp [Provides, hzz]
    | a :: b :: l => rw [hzz] at hz; simp at hz; omega

theorem providers_lt {ng : Nat} {r : Res} {i : Nat} (h : i ∈ providers ng r) : i < ng := by
  unfold providers at h
  exact List.mem_range.1 (List.mem_filter.1 h).1

theorem providers_nodup (ng : Nat) (r : Res) : (providers ng r).Nodup := (List.nodup_range).filter _

theorem perProvider_length (ng : Nat) (r : Res) (v : List ℝ) (h : v.length = ng ∨ v.length = (providers ng r).length) :
    (perProvider ng r v).length = (providers ng r).length := by
  unfold perProvider
  split
  · rcases h with h | h <;> omega
  · simp

theorem gather_map_getD (v : List ℝ) (ig : List Nat) (h : ∀ i ∈ ig, i < v.length) :
    gather v ig = some (ig.map fun i => v.getD i 0) := by
  induction ig with
  | nil => rfl
  | cons i is ih =>
    have hi := h i List.mem_cons_self
    simp only [gather, List.getElem?_eq_getElem hi, ih (fun j hj => h j (List.mem_cons_of_mem _ hj))]
    simp [hi]

/-- Spreading and selecting gives the data per providing generator. -/
theorem expand_spec (ng : Nat) (r : Res) (v : List ℝ) (h : v.length = ng ∨ v.length = (providers ng r).length) :
    ∃ v', expand (decide (v.length < ng)) ng (providers ng r) v = some v'
      ∧ gather v' (providers ng r) = some (perProvider ng r v) := by
  unfold expand perProvider
  by_cases hs : v.length < ng
  · simp only [hs, decide_true, if_true]
    have hl : v.length = (providers ng r).length := by rcases h with h | h <;> omega
    obtain ⟨v', h1, h2, h3, -⟩ := scatter_spec (List.replicate ng 0) (providers ng r) v (providers_nodup ng r)
      (fun i hi => by simpa using providers_lt hi) hl
    refine ⟨v', h1, ?_⟩
    obtain ⟨w, hw⟩ := gather_isSome v' (providers ng r) (fun i hi => by rw [h2]; simpa using providers_lt hi)
    rw [hw]
    congr 1
    apply List.ext_getElem?
    intro k
    rw [gather_get hw k]
    cases hk : (providers ng r)[k]? with
    | none =>
      simp only [Option.bind_none]
      rw [List.getElem?_eq_none_iff] at hk
      exact (List.getElem?_eq_none (by omega)).symm
    | some i => simpa using h3 k i hk
  · simp only [hs, decide_false, if_false, Bool.false_eq_true]
    refine ⟨v, rfl, gather_map_getD v _ (fun i hi => ?_)⟩
    have := providers_lt hi
    omega

theorem rowValue_eq (row : List ℝ) (v : Nat → ℝ) : rowValue row v = ∑ k ∈ Finset.range row.length, row.getD k 0 * v k := by
  have key : ∀ (n : Nat) (row : List ℝ), ((row.zipIdx n).map fun p => p.1 * v p.2).sum
      = ∑ k ∈ Finset.range row.length, row.getD k 0 * v (n + k) := by
    intro n row
    induction row generalizing n with
    | nil => simp
    | cons a row ih =>
      rw [List.zipIdx_cons, List.map_cons, List.sum_cons, ih, List.length_cons, Finset.sum_range_succ']
      simp only [List.getD_cons_succ, List.getD_cons_zero, Nat.add_zero]
      rw [add_comm]
      congr 1
      apply Finset.sum_congr rfl
      intro k _
      congr 2; omega
  have := key 0 row
  simpa [rowValue] using this

/-- The zone sum over the providing generators is the sum over all generators. -/
theorem zone_sum (ng : Nat) (r : Res) (row : List ℝ) (hrow : row ∈ r.zones) (R : Nat → ℝ) (c : ℝ) :
    rowValue ((providers ng r).map fun i => row.getD i 0) (fun k => R ((providers ng r).getD k 0) / c)
      = zoneReserves ng row R / c := by
  have h1 : rowValue ((providers ng r).map fun i => row.getD i 0) (fun k => R ((providers ng r).getD k 0) / c)
      = ((providers ng r).map fun i => row.getD i 0 * (R i / c)).sum := by
    rw [rowValue_eq, List.length_map]
    have h2 : ∀ l : List Nat, ∑ k ∈ Finset.range l.length, (l.map fun i => row.getD i 0).getD k 0 * (R (l.getD k 0) / c)
        = (l.map fun i => row.getD i 0 * (R i / c)).sum := by
      intro l
      induction l with
      | nil => simp
      | cons a l ih =>
        rw [List.length_cons, Finset.sum_range_succ', List.map_cons, List.map_cons, List.sum_cons, ← ih]
        simp only [List.getD_cons_succ, List.getD_cons_zero]
        rw [add_comm]
    exact h2 _
  rw [h1]
  have h3 : ∀ l : List Nat, ((l.filter fun i => @decide (Provides r i) (Classical.dec _)).map fun i => row.getD i 0 * (R i / c)).sum
      = (l.map fun i => row.getD i 0 * (R i / c)).sum := by
    intro l
    induction l with
    | nil => rfl
    | cons a l ih =>
      rw [List.filter_cons]
      by_cases ha : Provides r a
      · simp only [ha, decide_true, if_true, List.map_cons, List.sum_cons, ih]
      · have h0 : row.getD a 0 = 0 := by
          by_contra hne
          exact ha ⟨row, hrow, hne⟩
        simp only [ha, decide_false, Bool.false_eq_true, if_false, ih, List.map_cons, List.sum_cons, h0, zero_mul, zero_add]
  unfold providers
  rw [h3]
  unfold zoneReserves
  rw [Finset.sum_div]
  induction ng with
  | zero => simp
  | succ n ih =>
    rw [List.range_succ, List.map_append, List.sum_append, Finset.sum_range_succ]
    have := ih
    simp only [List.map_cons, List.map_nil, List.sum_cons, List.sum_nil, add_zero]
    congr 1
    · clear ih this h1
      induction n with
      | zero => simp
      | succ n ih => rw [List.range_succ, List.map_append, List.sum_append, Finset.sum_range_succ, ih]; simp [mul_div_assoc]
    · ring

/-- Solution vector of `Pg_plus_R` in p.u.: dispatch of all generators, then reserves of the providing ones. -/
def point (baseMVA : ℝ) (ng : Nat) (r : Res) (P R : Nat → ℝ) (j : Nat) : ℝ :=
  if j < ng then P j / baseMVA else R ((providers ng r).getD (j - ng) 0) / baseMVA

/-- The variable `R` in p.u. -/
def rpoint (baseMVA : ℝ) (ng : Nat) (r : Res) (R : Nat → ℝ) (k : Nat) : ℝ := R ((providers ng r).getD k 0) / baseMVA

theorem rampLimit_le (g : Gen) (x : ℝ) : (x : EReal) ≤ rampLimit g ↔ (g.ramp10 ≠ 0 → x ≤ g.ramp10) := by
  unfold rampLimit
  by_cases h : g.ramp10 = 0 <;> simp [h]

theorem qtyLimit_le (u : EReal) (q x : ℝ) : (x : EReal) ≤ qtyLimit u q ↔ (x : EReal) ≤ u ∧ x ≤ q := by
  unfold qtyLimit
  by_cases h : (q : EReal) < u
  · simp only [h, decide_true, if_true, EReal.coe_le_coe_iff]
    exact ⟨fun hx => ⟨(EReal.coe_le_coe_iff.2 hx).trans h.le, hx⟩, fun hx => hx.2⟩
  · simp only [h, decide_false, Bool.false_eq_true, if_false]
    exact ⟨fun hx => ⟨hx, EReal.coe_le_coe_iff.1 (hx.trans (not_lt.1 h))⟩, fun hx => hx.1⟩

theorem le_div_base (baseMVA : ℝ) (hb : 0 < baseMVA) (x : ℝ) (u : EReal) :
    ((x / baseMVA : ℝ) : EReal) ≤ u / (baseMVA : EReal) ↔ (x : EReal) ≤ u := by
  induction u with
  | bot => rw [EReal.bot_div_of_pos_ne_top (EReal.coe_pos.2 hb) (EReal.coe_ne_top _)]; simp
  | top => rw [EReal.top_div_of_pos_ne_top (EReal.coe_pos.2 hb) (EReal.coe_ne_top _)]; simp
  | coe u => rw [← EReal.coe_div, EReal.coe_le_coe_iff, EReal.coe_le_coe_iff, div_le_div_iff_of_pos_right hb]

theorem prepare_eq (ng : Nat) (r : Res) (hv : Valid ng r) :
    ∃ cost' qty', prepare ng r = some { r with cost := cost', qty := qty' }
      ∧ gather cost' (providers ng r) = some (perProvider ng r r.cost)
      ∧ gatherQty (providers ng r) qty' = some (r.qty.map (perProvider ng r)) := by
  obtain ⟨c', hc1, hc2⟩ := expand_spec ng r r.cost hv.cost
  unfold prepare
  rw [igr_eq ng r hv]
  simp only [hc1, Option.bind_eq_bind, Option.bind_some]
  cases hq : r.qty with
  | none => exact ⟨c', none, by simp, hc2, rfl⟩
  | some q =>
    have hl := hv.qty q hq
    obtain ⟨q', hq1, hq2⟩ := expand_spec ng r q (by rw [hl]; exact hv.cost)
    rw [hl] at hq1
    exact ⟨c', some q', by simp [hq1], hc2, by simp [gatherQty, hq2]⟩

/-- **C57.** For every valid reserve table and every dispatch `P` and reserve vector `R` in MW: `Pg_plus_R` holds iff dispatch plus
reserve of every providing generator stays within PMAX; `Rreq` holds iff the reserves of every zone meet its requirement; the
bounds hold iff every reserve is non-negative, within RAMP_10 if that is non-zero, and within its `qty` if given; and the cost is
the sum over the providing generators of their rate times their reserve. -/
theorem C57 (baseMVA : ℝ) (hb : 0 < baseMVA) (gen : List Gen) (r : Res) (hv : Valid gen.length r) :
    ∃ r' f, prepare gen.length r = some r' ∧ formulation baseMVA gen (igr gen.length r) r' = some f
      ∧ ∀ P R : Nat → ℝ,
        (f.pgR.Holds (point baseMVA gen.length r P R) ↔
          ∀ (i : Nat) (g : Gen), gen[i]? = some g → Provides r i → P i + R i ≤ g.pmax)
        ∧ (f.ReqHolds (rpoint baseMVA gen.length r R) ↔
          ∀ (z : Nat) (row : List ℝ) (q : ℝ), r.zones[z]? = some row → r.req[z]? = some q → q ≤ zoneReserves gen.length row R)
        ∧ (f.BoundsHold (rpoint baseMVA gen.length r R) ↔
          (∀ (i : Nat) (g : Gen), gen[i]? = some g → Provides r i → 0 ≤ R i ∧ (g.ramp10 ≠ 0 → R i ≤ g.ramp10))
          ∧ ∀ (q : List ℝ) (k i : Nat) (qk : ℝ), r.qty = some q → (providers gen.length r)[k]? = some i →
              (perProvider gen.length r q)[k]? = some qk → R i ≤ qk)
        ∧ f.cost (rpoint baseMVA gen.length r R)
          = (List.zipWith (fun c i => c * R i) (perProvider gen.length r r.cost) (providers gen.length r)).sum := by
  obtain ⟨cost', qty', hp, hc, hq⟩ := prepare_eq gen.length r hv
  rw [igr_eq _ r hv]
  set pr := providers gen.length r with hpr
  have hlt : ∀ i ∈ pr, i < gen.length := fun i hi => providers_lt hi
  obtain ⟨gens, hg⟩ := gather_isSome gen pr hlt
  have hgl : gens.length = pr.length := gather_length hg
  have hgk : ∀ (k i : Nat), pr[k]? = some i → gens[k]? = gen[i]? := fun k i h => by rw [gather_get hg k, h]; rfl
  have hz : r.zones.mapM (fun row => gather row pr) = some (r.zones.map fun row => pr.map fun i => row.getD i 0) := by
    have : ∀ l : List (List ℝ), (∀ row ∈ l, row.length = gen.length) →
        l.mapM (fun row => gather row pr) = some (l.map fun row => pr.map fun i => row.getD i 0) := by
      intro l
      induction l with
      | nil => intro _; rfl
      | cons a l ih =>
        intro h
        rw [List.mapM_cons, ih (fun x hx => h x (List.mem_cons_of_mem _ hx)),
          gather_map_getD a pr (fun i hi => by rw [h a List.mem_cons_self]; exact hlt i hi)]
        rfl
    exact this _ hv.zones
  have hprov : ∀ (i : Nat) (g : Gen), gen[i]? = some g → (Provides r i ↔ i ∈ pr) := by
    intro i g hi
    have : i < gen.length := (List.getElem?_eq_some_iff.1 hi).1
    simp [hpr, providers, this]
  have hf : formulation baseMVA gen pr { r with cost := cost', qty := qty' } = some
      { rmin := List.replicate pr.length 0
        rmax := (rmax gens (r.qty.map (perProvider gen.length r))).map fun v => v / (baseMVA : EReal)
        pgR := ⟨pr.length, Constr.twoBlocks pr.length pr ((List.range pr.length).map (· + gen.length))
          (List.replicate pr.length 1) (List.replicate pr.length 1),
          List.replicate pr.length ⊥, gens.map fun g => ((g.pmax / baseMVA : ℝ) : EReal), pr⟩
        req := r.zones.map fun row => pr.map fun i => row.getD i 0
        lreq := r.req.map (· / baseMVA)
        cw := (perProvider gen.length r r.cost).map (· * baseMVA) } := by
    unfold formulation
    simp only [hg, hq, hz, hc, Option.bind_eq_bind, Option.bind_some]
    rfl
  refine ⟨_, _, hp, hf, ?_⟩
  intro P R
  refine ⟨?_, ?_, ?_, ?_⟩
  · -- Pg + R
    unfold Constr.Lin.Holds
    have hrow : ∀ (k : Nat) (hk : k < pr.length),
        (Constr.twoBlocks pr.length pr ((List.range pr.length).map (· + gen.length))
          (List.replicate pr.length 1) (List.replicate pr.length 1)).row (point baseMVA gen.length r P R) k
          = (P pr[k] + R pr[k]) / baseMVA := by
      intro k hk
      rw [Constr.row_twoBlocks _ _ _ _ _ rfl (by simp) (by simp) (by simp) _ _ hk]
      have h1 : pr[k] < gen.length := hlt _ (List.getElem_mem hk)
      simp only [List.getElem_replicate, one_mul, List.getElem_map, List.getElem_range, point, h1, if_true]
      rw [if_neg (by omega), Nat.add_sub_cancel, ← hpr]
      simp [hk, add_div]
    constructor
    · intro h i g hi hpv
      have hm := (hprov i g hi).1 hpv
      obtain ⟨k, hk⟩ := List.mem_iff_getElem?.1 hm
      obtain ⟨hkl, hki⟩ := List.getElem?_eq_some_iff.1 hk
      obtain ⟨-, u, hu1, hu2⟩ := h k hkl
      simp only at hu1 hu2
      rw [hrow k hkl, hki] at hu2
      rw [List.getElem?_map, hgk k i hk, hi, Option.map_some, Option.some.injEq] at hu1
      rw [← hu1, EReal.coe_le_coe_iff, div_le_div_iff_of_pos_right hb] at hu2
      exact hu2
    · intro h k hkl
      simp only at hkl
      have hk := List.getElem?_eq_getElem hkl
      have hil : pr[k] < gen.length := hlt _ (List.getElem_mem hkl)
      have hi := List.getElem?_eq_getElem hil
      refine ⟨⟨⊥, by simp [hkl], bot_le⟩, ((gen[pr[k]].pmax / baseMVA : ℝ) : EReal), ?_, ?_⟩
      · show (gens.map _)[k]? = _
        rw [List.getElem?_map, hgk k _ hk, hi, Option.map_some]
      · rw [hrow k hkl, EReal.coe_le_coe_iff, div_le_div_iff_of_pos_right hb]
        exact h _ _ hi ((hprov _ _ hi).2 (List.getElem_mem hkl))
  · -- requirements
    unfold Form.ReqHolds
    constructor
    · intro h z row q hzr hqr
      obtain ⟨l, hl1, hl2⟩ := h z _ (by rw [List.getElem?_map, hzr]; rfl)
      rw [List.getElem?_map, hqr, Option.map_some, Option.some.injEq] at hl1
      rw [← hl1] at hl2
      have := zone_sum gen.length r row (List.mem_of_getElem? hzr) R baseMVA
      unfold rpoint at hl2
      rw [hpr, this, div_le_div_iff_of_pos_right hb] at hl2
      exact hl2
    · intro h z row hzr
      rw [List.getElem?_map] at hzr
      cases hzz : r.zones[z]? with
      | none => simp [hzz] at hzr
      | some row' =>
        have hrr : (pr.map fun i => row'.getD i 0) = row := by simpa [hzz] using hzr
        have hzl : z < r.req.length := by rw [← hv.req]; exact (List.getElem?_eq_some_iff.1 hzz).1
        have hqr := List.getElem?_eq_getElem hzl
        refine ⟨_, by rw [List.getElem?_map, hqr, Option.map_some], ?_⟩
        have := zone_sum gen.length r row' (List.mem_of_getElem? hzz) R baseMVA
        rw [← hrr]
        unfold rpoint
        rw [hpr, this, div_le_div_iff_of_pos_right hb]
        exact h z row' _ hzz hqr
  · -- bounds
    have hrm : ∀ (k i : Nat) (g : Gen), pr[k]? = some i → gen[i]? = some g →
        ∃ u, (rmax gens (r.qty.map (perProvider gen.length r)))[k]? = some u
          ∧ ((R i : EReal) ≤ u ↔ (g.ramp10 ≠ 0 → R i ≤ g.ramp10)
            ∧ ∀ q qk, r.qty = some q → (perProvider gen.length r q)[k]? = some qk → R i ≤ qk) := by
      intro k i g hk hi
      have hgk' := hgk k i hk
      rw [hi] at hgk'
      cases hqq : r.qty with
      | none =>
        refine ⟨rampLimit g, by simp [rmax, hgk'], ?_⟩
        rw [rampLimit_le]; simp
      | some q =>
        have hql : (perProvider gen.length r q).length = pr.length :=
          perProvider_length _ _ _ (by rw [hv.qty q hqq]; exact hv.cost)
        have hkl : k < (perProvider gen.length r q).length := by rw [hql]; exact (List.getElem?_eq_some_iff.1 hk).1
        have hqk := List.getElem?_eq_getElem hkl
        refine ⟨qtyLimit (rampLimit g) (perProvider gen.length r q)[k], ?_, ?_⟩
        · simp only [rmax, Option.map_some]
          rw [List.getElem?_map]
          have : (gens.zip (perProvider gen.length r q))[k]? = some (g, (perProvider gen.length r q)[k]) := by
            rw [List.getElem?_zip_eq_some]; exact ⟨hgk', hqk⟩
          rw [this]; rfl
        · rw [qtyLimit_le, rampLimit_le]
          constructor
          · rintro ⟨h1, h2⟩
            refine ⟨h1, fun q' qk hq' hk' => ?_⟩
            obtain rfl : q = q' := Option.some.inj hq'
            rw [hqk] at hk'
            rw [← Option.some.inj hk']; exact h2
          · rintro ⟨h1, h2⟩
            exact ⟨h1, h2 q _ rfl hqk⟩
    have hrmlen : (rmax gens (r.qty.map (perProvider gen.length r))).length = pr.length := by
      cases hqq : r.qty with
      | none => simp [rmax, hgl]
      | some q =>
        have hql : (perProvider gen.length r q).length = pr.length :=
          perProvider_length _ _ _ (by rw [hv.qty q hqq]; exact hv.cost)
        simp [rmax, hgl, hql]
    have hrp : ∀ (k i : Nat), pr[k]? = some i → rpoint baseMVA gen.length r R k = R i / baseMVA := by
      intro k i hk
      unfold rpoint
      rw [← hpr, List.getD_eq_getElem?_getD, hk]; rfl
    unfold Form.BoundsHold
    constructor
    · intro h
      have hall : ∀ (k i : Nat) (g : Gen), pr[k]? = some i → gen[i]? = some g → 0 ≤ R i ∧ (g.ramp10 ≠ 0 → R i ≤ g.ramp10)
            ∧ ∀ q qk, r.qty = some q → (perProvider gen.length r q)[k]? = some qk → R i ≤ qk := by
        intro k i g hk hi
        obtain ⟨h1, h2⟩ := h k
        have hkl : k < pr.length := (List.getElem?_eq_some_iff.1 hk).1
        have h3 := h1 0 (by simp [hkl])
        rw [hrp k i hk] at h3
        obtain ⟨u, hu1, hu2⟩ := hrm k i g hk hi
        have h4 := h2 (u / (baseMVA : EReal)) (by show (List.map _ _)[k]? = _; rw [List.getElem?_map, hu1]; rfl)
        rw [hrp k i hk, le_div_base baseMVA hb, hu2] at h4
        exact ⟨by rwa [le_div_iff₀ hb, zero_mul] at h3, h4.1, h4.2⟩
      constructor
      · intro i g hi hpv
        obtain ⟨k, hk⟩ := List.mem_iff_getElem?.1 ((hprov i g hi).1 hpv)
        exact ⟨(hall k i g hk hi).1, (hall k i g hk hi).2.1⟩
      · intro q k i qk hq' hk hqk
        have hil : i < gen.length := hlt i (List.mem_of_getElem? hk)
        exact (hall k i _ hk (List.getElem?_eq_getElem hil)).2.2 q qk hq' hqk
    · rintro ⟨h1, h2⟩ k
      by_cases hkl : k < pr.length
      · have hk := List.getElem?_eq_getElem hkl
        have hil : pr[k] < gen.length := hlt _ (List.getElem_mem hkl)
        have hi := List.getElem?_eq_getElem hil
        have hpv := (hprov _ _ hi).2 (List.getElem_mem hkl)
        obtain ⟨h0, hr⟩ := h1 _ _ hi hpv
        rw [hrp k _ hk]
        constructor
        · intro l hl
          have : l = 0 := by simpa [hkl, eq_comm] using hl
          rw [this]; positivity
        · intro u hu
          obtain ⟨u', hu1, hu2⟩ := hrm k _ _ hk hi
          have : u = u' / (baseMVA : EReal) := by
            have hu' : (List.map (fun v => v / (baseMVA : EReal)) (rmax gens (r.qty.map (perProvider gen.length r))))[k]? = some u := hu
            rw [List.getElem?_map, hu1] at hu'
            simpa using hu'.symm
          rw [this, le_div_base baseMVA hb, hu2]
          exact ⟨hr, fun q qk hq' hqk => h2 q k _ qk hq' hk hqk⟩
      · constructor
        · intro l hl
          have : (List.replicate pr.length (0 : ℝ))[k]? = some l := hl
          rw [List.getElem?_eq_none (by simpa using hkl)] at this
          exact absurd this (by simp)
        · intro u hu
          have hu' : (List.map (fun v => v / (baseMVA : EReal)) (rmax gens (r.qty.map (perProvider gen.length r))))[k]? = some u := hu
          rw [List.getElem?_eq_none (by rw [List.length_map, hrmlen]; omega)] at hu'
          exact absurd hu' (by simp)
  · -- cost
    have hcl : (perProvider gen.length r r.cost).length = pr.length := perProvider_length _ _ _ hv.cost
    unfold Form.cost
    rw [rowValue_eq]
    simp only [List.length_map]
    unfold rpoint
    rw [← hpr]
    have : ∀ (l : List Nat) (c : List ℝ), c.length = l.length →
        ∑ k ∈ Finset.range c.length, (c.map (· * baseMVA)).getD k 0 * (R (l.getD k 0) / baseMVA)
          = (List.zipWith (fun c i => c * R i) c l).sum := by
      intro l
      induction l with
      | nil => intro c hc; have : c = [] := by simpa using hc
               subst this; simp
      | cons a l ih =>
        intro c hc
        match c with
        | [] => simp at hc
        | b :: c =>
          rw [List.length_cons, Finset.sum_range_succ', List.zipWith_cons_cons, List.sum_cons, ← ih c (by simpa using hc)]
          simp only [List.map_cons, List.getD_cons_succ, List.getD_cons_zero]
          rw [add_comm]
          congr 1
          field_simp
    exact this pr _ hcl

/-- **C57, results.** The reported reserves: every providing generator gets its solved reserve in MW, the others zero. -/
theorem C57_results (baseMVA : ℝ) (ng : Nat) (r : Res) (hv : Valid ng r) (v : List ℝ) (hl : v.length = (providers ng r).length) :
    ∃ R, reserves baseMVA ng (igr ng r) v = some R ∧ R.length = ng
      ∧ (∀ (k i : Nat) (x : ℝ), (providers ng r)[k]? = some i → v[k]? = some x → R[i]? = some (x * baseMVA))
      ∧ ∀ i < ng, ¬ Provides r i → R[i]? = some 0 := by
  rw [igr_eq ng r hv]
  obtain ⟨R, h1, h2, h3, h4⟩ := scatter_spec (List.replicate ng 0) (providers ng r) (v.map (· * baseMVA)) (providers_nodup ng r)
      (fun i hi => by simpa using providers_lt hi) (by simpa using hl)
  refine ⟨R, h1, by simpa using h2, ?_, ?_⟩
  · intro k i x hk hx
    rw [h3 k i hk, List.getElem?_map, hx]; rfl
  · intro i hi hn
    rw [h4 i (by simp [providers, hi, hn]), List.getElem?_replicate, if_pos hi]

/-- **C57, prices.** The reported price of a generator is the *sum* of the multipliers of its zones in $/MW. (The documentation,
toggle_reserves.py:57-59, promises their maximum.) -/
theorem C57_price (baseMVA : ℝ) (zones : List (List ℝ)) (mu : List ℝ) (hl : mu.length = zones.length) (k : Nat) :
    price baseMVA zones mu k
      = some ((∑ z ∈ Finset.range zones.length, if (zones.getD z []).getD k 0 ≠ 0 then mu.getD z 0 else 0) / baseMVA) := by
  unfold price zonesOf
  have h1 : gather mu (find (zones.map fun row => @decide (row.getD k 0 ≠ 0) (Classical.dec _)))
      = some ((find (zones.map fun row => @decide (row.getD k 0 ≠ 0) (Classical.dec _))).map fun z => mu.getD z 0) := by
    apply gather_map_getD
    intro z hz
    rw [mem_find] at hz
    have := (List.getElem?_eq_some_iff.1 hz).1
    simpa [hl] using this
  rw [h1, Option.map_some]
  congr 2
  have h2 : ∀ (n : Nat) (zs : List (List ℝ)) (f : Nat → ℝ),
      ((findFrom n (zs.map fun row => @decide (row.getD k 0 ≠ 0) (Classical.dec _))).map f).sum
        = ∑ z ∈ Finset.range zs.length, if (zs.getD z []).getD k 0 ≠ 0 then f (n + z) else 0 := by
    intro n zs f
    induction zs generalizing n with
    | nil => simp [findFrom]
    | cons a zs ih =>
      rw [List.length_cons, Finset.sum_range_succ', List.map_cons, findFrom]
      simp only [List.getD_cons_succ, List.getD_cons_zero, Nat.add_zero]
      have e : ∑ z ∈ Finset.range zs.length, (if (zs.getD z []).getD k 0 ≠ 0 then f (n + (z + 1)) else 0)
          = ∑ z ∈ Finset.range zs.length, if (zs.getD z []).getD k 0 ≠ 0 then f (n + 1 + z) else 0 :=
        Finset.sum_congr rfl fun z _ => by rw [show n + (z + 1) = n + 1 + z by omega]
      rw [e, ← ih (n + 1)]
      by_cases ha : a.getD k 0 = 0
      · rw [if_neg (by simpa using ha), if_neg (by simpa using ha), add_zero]
      · rw [if_pos (by simpa using ha), if_pos ha, List.map_cons, List.sum_cons, add_comm]
  have := h2 0 zones (fun z => mu.getD z 0)
  simpa [find] using this

/-- With two zones of positive multipliers the sum is not the maximum. -/
example : ∃ p, price 1 [[1], [1]] [2, 3] 0 = some p ∧ p ≠ max 2 3 := by
  rw [C57_price 1 [[1], [1]] [2, 3] rfl 0]
  refine ⟨_, rfl, ?_⟩
  norm_num [Finset.sum_range_succ]

/-- Two generators, the second in a zone that needs 5 MW at 3 $/MW; at most 10 MW are offered. -/
def exRes : Res := ⟨[[0, 1]], [5], [3], some [10]⟩

theorem exProv : providers 2 exRes = [1] := by
  simp [providers, Provides, exRes, List.range_succ]

theorem exValid : Valid 2 exRes := by
  refine ⟨rfl, ?_, Or.inr (by rw [exProv]; rfl), ?_⟩
  · intro row h; simp [exRes] at h; simp [h]
  · intro q h; simp [exRes] at h; simp [← h, exRes]

/-- Non-vacuity: 8 MW of reserve meet the requirement and the bounds and cost 24. -/
example : ∃ r' f, prepare 2 exRes = some r' ∧ formulation 100 [⟨0, 50⟩, ⟨20, 50⟩] (igr 2 exRes) r' = some f
    ∧ f.ReqHolds (rpoint 100 2 exRes fun _ => 8) ∧ f.BoundsHold (rpoint 100 2 exRes fun _ => 8)
    ∧ f.cost (rpoint 100 2 exRes fun _ => 8) = 24 := by
  obtain ⟨r', f, h1, h2, h3⟩ := C57 100 (by norm_num) [⟨0, 50⟩, ⟨20, 50⟩] exRes exValid
  obtain ⟨-, hr, hb, hc⟩ := h3 (fun _ => 0) (fun _ => 8)
  refine ⟨r', f, h1, h2, hr.2 ?_, hb.2 ⟨?_, ?_⟩, hc.trans ?_⟩
  · intro z row q hz hq
    match z with
    | 0 =>
      have e1 : [0, 1] = row := by simpa [exRes] using hz
      have e2 : 5 = q := by simpa [exRes] using hq
      subst e1; subst e2
      show (5 : ℝ) ≤ ∑ i ∈ Finset.range 2, ([0, 1] : List ℝ).getD i 0 * 8
      rw [Finset.sum_range_succ, Finset.sum_range_succ, Finset.sum_range_zero]
      norm_num
    | z + 1 => simp [exRes] at hz
  · intro i g hi _
    match i with
    | 0 => simp at hi; subst hi; norm_num
    | 1 => simp at hi; subst hi; norm_num
    | i + 2 => simp at hi
  · intro q k i qk hq hk hqk
    have : q = [10] := by simpa [exRes, eq_comm] using hq
    subst this
    match k with
    | 0 => simp [perProvider] at hqk; rw [← hqk]; norm_num
    | k + 1 => simp [perProvider] at hqk
  · simp only [List.length_cons, List.length_nil]
    rw [exProv]
    norm_num [perProvider, exRes]

end

end Verif.Reserves
