import Verif.Opf.ResSpec
import Verif.Opf.ResInner
import Verif.Index.Props

/-! # The reserve data in internal numbering, and its blocks -/

namespace Verif.Opf

open Verif.Index (IsArgsort WF GenInService posOf orderOf)
open Verif.OpfModel Verif.Pips Verif.Network Verif.Cost Verif.OpfCost Verif.NumPy
open Verif.Reserves (Provides providers zoneReserves)

noncomputable section

/-! ### Preparation -/

theorem expand_at (ng : ℕ) (r : Reserves.Res) (v : List ℝ) (h : v.length = ng ∨ v.length = (providers ng r).length) :
    ∃ v', Reserves.expand (decide (v.length < ng)) ng (providers ng r) v = some v' ∧ v'.length = ng ∧
      ∀ i ∈ providers ng r, v'.getD i 0 = resDatum ng r v i := by
  unfold Reserves.expand resDatum
  by_cases hs : v.length < ng
  · simp only [hs, decide_true, if_true]
    have hl : v.length = (providers ng r).length := by rcases h with h | h <;> omega
    obtain ⟨v', h1, h2, h3, -⟩ := scatter_spec (List.replicate ng 0) (providers ng r) v (Reserves.providers_nodup ng r)
      (fun i hi => by simpa using Reserves.providers_lt hi) hl
    refine ⟨v', h1, by simpa using h2, fun i hi => ?_⟩
    rw [List.getD_eq_getElem?_getD, List.getD_eq_getElem?_getD, h3 ((providers ng r).idxOf i) i (List.getElem?_idxOf hi)]
  · simp only [hs, decide_false, if_false, Bool.false_eq_true]
    refine ⟨v, rfl, ?_, fun _ _ => rfl⟩
    have := (List.length_filter_le (fun i => @decide (Provides r i) (Classical.dec _)) (List.range ng))
    simp only [List.length_range] at this
    have hle : (providers ng r).length ≤ ng := this
    omega

theorem prepare_at (ng : ℕ) (r : Reserves.Res) (hv : Reserves.Valid ng r) : ∃ cost' qty', Reserves.prepare ng r = some { r with cost := cost', qty := qty' } ∧
    cost'.length = ng ∧ (∀ i ∈ providers ng r, cost'.getD i 0 = resDatum ng r r.cost i) ∧
    (r.qty = none ∧ qty' = none ∨ ∃ q q', r.qty = some q ∧ qty' = some q' ∧ q'.length = ng ∧ ∀ i ∈ providers ng r, q'.getD i 0 = resDatum ng r q i) := by
  obtain ⟨c', hc1, hc2, hc3⟩ := expand_at ng r r.cost hv.cost
  unfold Reserves.prepare
  rw [Reserves.igr_eq ng r hv]
  simp only [hc1, Option.bind_eq_bind, Option.bind_some]
  cases hq : r.qty with
  | none => exact ⟨c', none, by simp, hc2, hc3, Or.inl ⟨rfl, rfl⟩⟩
  | some q =>
    have hl := hv.qty q hq
    obtain ⟨q', hq1, hq2, hq3⟩ := expand_at ng r q (by rw [hl]; exact hv.cost)
    rw [hl] at hq1
    exact ⟨c', some q', by simp [hq1], hc2, hc3, Or.inr ⟨q, q', rfl, rfl, hq2, hq3⟩⟩

theorem rgens_eq (ng : ℕ) (r : Reserves.Res) (hv : Reserves.Valid ng r) (hne : r.zones ≠ []) :
    Reserves.rgens ng r = (List.range ng).map fun i => @decide (Provides r i) (Classical.dec _) := by
  unfold Reserves.rgens
  by_cases h1 : 1 < r.req.length
  · rw [if_pos h1]
    refine List.map_congr_left fun i _ => ?_
    rw [Bool.eq_iff_iff]
    simp [Provides, List.any_eq_true]
  · rw [if_neg h1]
    have hz := hv.req
    match hzz : r.zones with
    | [] => exact absurd hzz hne
    | [row] =>
      have hl := hv.zones row (by rw [hzz]; simp)
      simp only [List.flatten_cons, List.flatten_nil, List.append_nil]
      apply List.ext_getElem
      · simp [hl]
      · intro i h1 h2
        have hi : i < row.length := by simpa using h1
        simp [hi, Provides, hzz]
    | a :: b :: l => rw [hzz] at hz; simp at hz; omega

theorem gather_map_range {α : Type} (ng : ℕ) (p : ℕ → α) (pos : List ℕ) (h : ∀ i ∈ pos, i < ng) : gather ((List.range ng).map p) pos = some (pos.map p) := by
  induction pos with
  | nil => rfl
  | cons i is ih =>
    have hi := h i List.mem_cons_self
    simp only [gather, ih (fun j hj => h j (List.mem_cons_of_mem _ hj)), List.getElem?_map, List.getElem?_range hi]
    simp

theorem gather_of_get {α : Type} (xs : List α) (pos : List ℕ) (F : ℕ → α) (h : ∀ i ∈ pos, xs[i]? = some (F i)) : gather xs pos = some (pos.map F) := by
  induction pos with
  | nil => rfl
  | cons i is ih =>
    simp only [gather, ih (fun j hj => h j (List.mem_cons_of_mem _ hj)), h i List.mem_cons_self]
    simp

theorem mapM_gather (pos : List ℕ) (ng : ℕ) (h : ∀ i ∈ pos, i < ng) (l : List (List ℝ)) (hl : ∀ row ∈ l, row.length = ng) :
    l.mapM (fun row => gather row pos) = some (l.map fun row => pos.map fun i => row.getD i 0) := by
  induction l with
  | nil => rfl
  | cons a l ih =>
    rw [List.mapM_cons, ih (fun x hx => hl x (List.mem_cons_of_mem _ hx)),
      Reserves.gather_map_getD a pos (fun i hi => by rw [hl a List.mem_cons_self]; exact h i hi)]
    rfl

section internal
variable {srt : List ℕ → List ℕ} (hs : IsArgsort srt) (c : Index.Case Tables) (r : Reserves.Res) (hv : Reserves.Valid c.gen.length r)

/-- Internal rows of the providing generators. -/
def igOf (srt : List ℕ → List ℕ) (c : Index.Case Tables) (r : Reserves.Res) : List ℕ :=
  (List.range (posOf srt c .gen).length).filter fun k => @decide (Provides r ((posOf srt c .gen).getD k 0)) (Classical.dec _)

theorem igOf_lt {k : ℕ} (h : k ∈ igOf srt c r) : k < (posOf srt c .gen).length := List.mem_range.1 (List.mem_filter.1 h).1

include hs hv in
/-- The data the `ext2int` callback leaves. -/
theorem intReserves_eq (hne : r.zones ≠ []) :
    ∃ (cost' : List ℝ) (qty' : Option (List ℝ)), intReserves (orderOf srt c) r = some (⟨r.zones.map fun row => (posOf srt c .gen).map fun i => row.getD i 0, r.req,
        (posOf srt c .gen).map fun i => cost'.getD i 0, qty'.map fun q : List ℝ => (posOf srt c .gen).map fun i => q.getD i 0⟩, igOf srt c r) ∧
      (∀ i ∈ providers c.gen.length r, cost'.getD i 0 = resDatum c.gen.length r r.cost i) ∧
      (r.qty = none ∧ qty' = none ∨ ∃ q q', r.qty = some q ∧ qty' = some q' ∧ ∀ i ∈ providers c.gen.length r, q'.getD i 0 = resDatum c.gen.length r q i) := by
  obtain ⟨cost', qty', h1, h2, h3, h4⟩ := prepare_at c.gen.length r hv
  have hpos : ∀ i ∈ posOf srt c .gen, i < c.gen.length := Index.posOf_range hs c .gen
  refine ⟨cost', qty', ?_, h3, ?_⟩
  · have e0 : (orderOf srt c).extGen.length = c.gen.length := rfl
    have eq : intQty (orderOf srt c) qty' = some (qty'.map fun q : List ℝ => (posOf srt c .gen).map fun i => q.getD i 0) := by
      rcases h4 with ⟨-, rfl⟩ | ⟨q, q', -, rfl, hl, -⟩
      · rfl
      · simp only [intQty, Index.e2iSet_eq hs, Option.map_some]
        rw [Reserves.gather_map_getD q' _ (fun i hi => by rw [hl]; exact hpos i hi)]
        rfl
    have ec : Index.e2iSet (orderOf srt c) cost' .gen = some ((posOf srt c .gen).map fun i => cost'.getD i 0) := by
      rw [Index.e2iSet_eq hs, Reserves.gather_map_getD cost' _ (fun i hi => by rw [h2]; exact hpos i hi)]
    have ez : r.zones.mapM (fun row => Index.e2iSet (orderOf srt c) row .gen) = some (r.zones.map fun row => (posOf srt c .gen).map fun i => row.getD i 0) := by
      simp only [Index.e2iSet_eq hs]
      exact mapM_gather _ _ hpos _ hv.zones
    have em : Index.e2iSet (orderOf srt c) (Reserves.rgens c.gen.length r) .gen =
        some ((posOf srt c .gen).map fun i => @decide (Provides r i) (Classical.dec _)) := by
      rw [Index.e2iSet_eq hs, rgens_eq _ _ hv hne, gather_map_range _ _ _ hpos]
    unfold intReserves
    rw [e0]
    simp only [h1, eq, ec, ez, em, Option.bind_eq_bind, Option.bind_some, Option.some.injEq, Prod.mk.injEq, true_and]
    unfold igOf
    rw [← Reserves.find_eq_filter_range]
    congr 1
    apply List.ext_getElem
    · simp
    · intro i a b
      have : i < (posOf srt c .gen).length := by simpa using a
      simp [this]
  · rcases h4 with h4 | ⟨q, q', a, b, -, d⟩
    · exact Or.inl h4
    · exact Or.inr ⟨q, q', a, b, d⟩

theorem mem_providers {i : ℕ} (hi : i < c.gen.length) (hp : Provides r i) : i ∈ providers c.gen.length r := by
  unfold providers
  rw [List.mem_filter]
  exact ⟨List.mem_range.2 hi, by simpa using hp⟩

/-- The limit of a reserve (MW). -/
def resLimit (ramp10 : List ℝ → ℝ) (ng : ℕ) (r : Reserves.Res) (i : ℕ) (rest : List ℝ) (pmax : ℝ) : EReal :=
  match r.qty with
  | none => Reserves.rampLimit ⟨ramp10 rest, pmax⟩
  | some q => Reserves.qtyLimit (Reserves.rampLimit ⟨ramp10 rest, pmax⟩) (resDatum ng r q i)

theorem le_resLimit (ramp10 : List ℝ → ℝ) {i : ℕ} {g : Index.GenRow Tables.gen} (hg : c.gen[i]? = some g) (x : ℝ) :
    (x : EReal) ≤ resLimit ramp10 c.gen.length r i g.data.rest g.data.PMAX ↔ ReserveLimits ramp10 c r i x := by
  unfold resLimit ReserveLimits
  cases hq : r.qty with
  | none =>
    simp only [Reserves.rampLimit_le, hg, Option.some.injEq]
    constructor
    · intro h; exact ⟨fun g' e => e ▸ h, by simp⟩
    · intro h; exact h.1 g rfl
  | some q =>
    simp only [Reserves.qtyLimit_le, Reserves.rampLimit_le, hg, Option.some.injEq]
    constructor
    · rintro ⟨h1, h2⟩; exact ⟨fun g' e => e ▸ h1, fun q' e => e ▸ h2⟩
    · rintro ⟨h1, h2⟩; exact ⟨h1 g rfl, h2 q rfl⟩

end internal

/-- The row of the caller's table of the `k`-th providing generator. -/
def resRow (srt : List ℕ → List ℕ) (c : Index.Case Tables) (r : Reserves.Res) (k : Fin (igOf srt c r).length) : ℕ := (posOf srt c .gen).getD (igOf srt c r)[k] 0

section blocks
variable {srt : List ℕ → List ℕ} (hs : IsArgsort srt) (c c' : Index.Case Tables) (r : Reserves.Res) (hv : Reserves.Valid c.gen.length r)
  (hlen : c'.gen.length = (posOf srt c .gen).length) (base : ℝ) (ramp10 : List ℝ → ℝ)

/-- What the formulation adds, in terms of the caller's data. -/
def resW : RData c'.gen.length (igOf srt c r).length r.zones.length where
  jp k := ⟨(igOf srt c r)[k], by rw [hlen]; exact igOf_lt c r (List.getElem_mem _)⟩
  hi k := resLimit ramp10 c.gen.length r (resRow srt c r k) (c'.gen[(igOf srt c r)[k]]'(by rw [hlen]; exact igOf_lt c r (List.getElem_mem _))).data.rest
    (c'.gen[(igOf srt c r)[k]]'(by rw [hlen]; exact igOf_lt c r (List.getElem_mem _))).data.PMAX / (base : EReal)
  pm k := (c'.gen[(igOf srt c r)[k]]'(by rw [hlen]; exact igOf_lt c r (List.getElem_mem _))).data.PMAX / base
  Z z k := r.zones[z].getD (resRow srt c r k) 0
  lq z := r.req.getD z 0 / base
  cw k := resDatum c.gen.length r r.cost (resRow srt c r k) * base

include hs hv in
theorem resForm_eq (ho : c'.order = some (orderOf srt c)) (hne : r.zones ≠ []) :
    ∃ ri f, resForm base ramp10 r c' = some (ri, igOf srt c r, f) ∧ ri.zones = (r.zones.map fun row => (posOf srt c .gen).map fun i => row.getD i 0) ∧
      resOps c'.gen.length (igOf srt c r).length f = (resW c c' r hlen base ramp10).ops := by
  have hlen' := hlen
  obtain ⟨cost', qty', h1, h2, h3⟩ := intReserves_eq hs c r hv hne
  set ig := igOf srt c r with hig
  set pos := posOf srt c .gen with hpos
  have hil : ∀ k ∈ ig, k < c'.gen.length := fun k hk => by rw [hlen]; exact igOf_lt c r hk
  have hprov : ∀ k ∈ ig, pos.getD k 0 ∈ providers c.gen.length r := by
    intro k hk
    have h4 := List.mem_filter.1 hk
    refine mem_providers c r ?_ (by simpa using h4.2)
    have : k < pos.length := igOf_lt c r hk
    rw [List.getD_eq_getElem _ _ this]
    exact Index.posOf_range hs c .gen _ (List.getElem_mem _)
  have eg : gather (c'.gen.map fun g => (⟨ramp10 g.data.rest, g.data.PMAX⟩ : Reserves.Gen)) ig =
      some (List.ofFn fun k : Fin ig.length => (⟨ramp10 (c'.gen[ig[k]]'(hil _ (List.getElem_mem _))).data.rest,
        (c'.gen[ig[k]]'(hil _ (List.getElem_mem _))).data.PMAX⟩ : Reserves.Gen)) := by
    obtain ⟨w, hw⟩ := gather_isSome (c'.gen.map fun g => (⟨ramp10 g.data.rest, g.data.PMAX⟩ : Reserves.Gen)) ig (fun i hi => by simpa using hil i hi)
    rw [hw]
    congr 1
    apply List.ext_getElem?
    intro k
    rw [gather_get hw k, List.getElem?_ofFn]
    by_cases hk : k < ig.length
    · rw [dif_pos hk, List.getElem?_eq_getElem hk, Option.bind_some, List.getElem?_map, List.getElem?_eq_getElem (hil _ (List.getElem_mem hk))]
      rfl
    · rw [dif_neg hk, List.getElem?_eq_none (by omega)]
      rfl
  have emap : ∀ v : List ℝ, gather (pos.map fun i => v.getD i 0) ig = some (List.ofFn fun k : Fin ig.length => v.getD (pos.getD ig[k] 0) 0) := by
    intro v
    rw [Reserves.gather_map_getD _ _ (fun i hi => by rw [List.length_map]; exact igOf_lt c r hi)]
    congr 1
    apply List.ext_getElem
    · simp
    · intro k a b
      have hk : k < ig.length := by simpa using a
      have hp : ig[k] < pos.length := igOf_lt c r (List.getElem_mem hk)
      simp [hp]
  have ez : (r.zones.map fun row => pos.map fun i => row.getD i 0).mapM (fun row => gather row ig) =
      some (List.ofFn fun z : Fin r.zones.length => List.ofFn fun k : Fin ig.length => r.zones[z].getD (pos.getD ig[k] 0) 0) := by
    have : ∀ l : List (List ℝ), (l.map fun row => pos.map fun i => row.getD i 0).mapM (fun row => gather row ig) =
        some (l.map fun row => List.ofFn fun k : Fin ig.length => row.getD (pos.getD ig[k] 0) 0) := by
      intro l
      induction l with
      | nil => rfl
      | cons a l ih =>
        rw [List.map_cons, List.mapM_cons, ih, emap]
        rfl
    rw [this]
    congr 1
    apply List.ext_getElem
    · simp
    · intro z a b
      simp
  have eq : Reserves.gatherQty ig (qty'.map fun q : List ℝ => pos.map fun i => q.getD i 0) =
      some (qty'.map fun q : List ℝ => List.ofFn fun k : Fin ig.length => q.getD (pos.getD ig[k] 0) 0) := by
    cases qty' with
    | none => rfl
    | some q => simp only [Reserves.gatherQty, Option.map_some, emap]
  have hF : resForm base ramp10 r c' = some (⟨r.zones.map fun row => pos.map fun i => row.getD i 0, r.req, pos.map fun i => cost'.getD i 0,
      qty'.map fun q : List ℝ => pos.map fun i => q.getD i 0⟩, ig,
      { rmin := List.replicate ig.length 0
        rmax := (Reserves.rmax (List.ofFn fun k : Fin ig.length => (⟨ramp10 (c'.gen[ig[k]]'(hil _ (List.getElem_mem _))).data.rest,
          (c'.gen[ig[k]]'(hil _ (List.getElem_mem _))).data.PMAX⟩ : Reserves.Gen))
          (qty'.map fun q : List ℝ => List.ofFn fun k : Fin ig.length => q.getD (pos.getD ig[k] 0) 0)).map fun v => v / (base : EReal)
        pgR := ⟨ig.length, Constr.twoBlocks ig.length ig ((List.range ig.length).map (· + c'.gen.length)) (List.replicate ig.length 1) (List.replicate ig.length 1),
          List.replicate ig.length ⊥, (List.ofFn fun k : Fin ig.length => (⟨ramp10 (c'.gen[ig[k]]'(hil _ (List.getElem_mem _))).data.rest,
            (c'.gen[ig[k]]'(hil _ (List.getElem_mem _))).data.PMAX⟩ : Reserves.Gen)).map fun g => ((g.pmax / base : ℝ) : EReal), ig⟩
        req := List.ofFn fun z : Fin r.zones.length => List.ofFn fun k : Fin ig.length => r.zones[z].getD (pos.getD ig[k] 0) 0
        lreq := r.req.map (· / base)
        cw := (List.ofFn fun k : Fin ig.length => cost'.getD (pos.getD ig[k] 0) 0).map (· * base) }) := by
    unfold resForm
    simp only [ho, h1, Option.bind_eq_bind, Option.bind_some]
    unfold Reserves.formulation
    simp only [eg, eq, ez, emap, Option.bind_eq_bind, Option.bind_some, Option.pure_def, List.length_map]
  refine ⟨_, _, hF, rfl, ?_⟩
  have hrow : ∀ k : Fin ig.length, resRow srt c r k = pos.getD ig[k] 0 := fun _ => rfl
  have hmem : ∀ k : Fin ig.length, pos.getD ig[k] 0 ∈ providers c.gen.length r := fun k => hprov _ (List.getElem_mem _)
  set W := resW c c' r hlen' base ramp10 with hW
  have a1 : (List.replicate ig.length (0 : ℝ)).map Real.toEReal = List.replicate ig.length ((0 : ℝ) : EReal) := by rw [List.map_replicate]
  have a2 : ((Reserves.rmax (List.ofFn fun k : Fin ig.length => (⟨ramp10 (c'.gen[ig[k]]'(hil _ (List.getElem_mem _))).data.rest,
      (c'.gen[ig[k]]'(hil _ (List.getElem_mem _))).data.PMAX⟩ : Reserves.Gen))
      (qty'.map fun q : List ℝ => List.ofFn fun k : Fin ig.length => q.getD (pos.getD ig[k] 0) 0)).map fun v => v / (base : EReal)) = List.ofFn W.hi := by
    rcases h3 with ⟨h4, rfl⟩ | ⟨q, q', h4, rfl, h5⟩
    · simp only [Reserves.rmax, Option.map_none, List.map_ofFn]
      congr 1
      funext k
      simp only [Function.comp, hW, resW, resLimit, h4]
      rfl
    · simp only [Reserves.rmax, Option.map_some]
      apply List.ext_getElem
      · simp
        rfl
      · intro k x y
        have hk : k < ig.length := by simpa using y
        have e := h5 _ (hmem ⟨k, hk⟩)
        simp only [Fin.getElem_fin] at e
        simp only [List.getElem_map, List.getElem_zip, List.getElem_ofFn, Fin.getElem_fin, e, hW, resW, resLimit, h4]
        rfl
  have a3 : (List.ofFn fun k => (W.jp k : ℕ)) = ig := by
    apply List.ext_getElem
    · simp
      rfl
    · intro k x y
      simp [hW, resW]
      rfl
  have a4 : (List.ofFn fun k : Fin ig.length => (⟨ramp10 (c'.gen[ig[k]]'(hil _ (List.getElem_mem _))).data.rest,
      (c'.gen[ig[k]]'(hil _ (List.getElem_mem _))).data.PMAX⟩ : Reserves.Gen)).map (fun g => ((g.pmax / base : ℝ) : EReal)) = List.ofFn fun k => ((W.pm k : ℝ) : EReal) := by
    rw [List.map_ofFn]
    rfl
  have a6 : (r.req.map (· / base)).map Real.toEReal = List.ofFn fun z => ((W.lq z : ℝ) : EReal) := by
    apply List.ext_getElem
    · simp [hv.req]
    · intro k x y
      have hk : k < r.req.length := by simpa using x
      simp [hW, resW, hk]
  have a7 : (List.ofFn fun k : Fin ig.length => cost'.getD (pos.getD ig[k] 0) 0).map (· * base) = List.ofFn W.cw := by
    rw [List.map_ofFn]
    congr 1
    funext k
    simp only [Function.comp, h2 _ (hmem k), hW, resW]
    rfl
  have a8 : (List.ofFn fun z : Fin r.zones.length => List.ofFn fun k : Fin ig.length => r.zones[z].getD (pos.getD ig[k] 0) 0) = List.ofFn fun z => List.ofFn (W.Z z) := rfl
  unfold resOps RData.ops RData.pgR RData.req RData.cst
  simp only [a1, a2, a3, a4, a6, a7, a8, List.length_ofFn]
  rfl

end blocks

/-! ### Results -/

section results
variable {srt : List ℕ → List ℕ} (hs : IsArgsort srt) (c : Index.Case Tables) (r : Reserves.Res) (hv : Reserves.Valid c.gen.length r)

include hs in
theorem posOf_gen_nodup : (posOf srt c .gen).Nodup := (Index.posOf_gen_mem hs c).nodup_iff.2 (find_nodup _)

include hs in
theorem mem_posOf_gen (i : ℕ) : i ∈ posOf srt c .gen ↔ i ∈ onGens c := by
  rw [(Index.posOf_gen_mem hs c).mem_iff, mem_find, List.getElem?_map]
  simp only [onGens, Finset.mem_filter, Finset.mem_range]
  constructor
  · intro h
    obtain ⟨g, h1, h2⟩ := Option.map_eq_some_iff.1 h
    exact ⟨(List.getElem?_eq_some_iff.1 h1).1, g, h1, (Index.genK_iff c g).1 h2⟩
  · rintro ⟨-, g, h1, h2⟩
    rw [h1, Option.map_some, (Index.genK_iff c g).2 h2]

theorem resRow_get (k : Fin (igOf srt c r).length) : (posOf srt c .gen)[(igOf srt c r)[k]]? = some (resRow srt c r k) := by
  have h : (igOf srt c r)[k] < (posOf srt c .gen).length := igOf_lt c r (List.getElem_mem _)
  unfold resRow
  rw [List.getD_eq_getElem _ _ h, List.getElem?_eq_getElem h]

include hs in
theorem resRow_inj : Function.Injective (resRow srt c r) := by
  intro a b e
  have h1 := resRow_get c r a
  have h2 := resRow_get c r b
  rw [e] at h1
  obtain ⟨l1, g1⟩ := List.getElem?_eq_some_iff.1 h1
  obtain ⟨l2, g2⟩ := List.getElem?_eq_some_iff.1 h2
  have h3 := (List.Nodup.getElem_inj_iff (posOf_gen_nodup hs c)).1 (g1.trans g2.symm)
  have hn : (igOf srt c r).Nodup := List.nodup_range.filter _
  exact Fin.ext ((List.Nodup.getElem_inj_iff hn).1 h3)

include hs in
theorem resGens_eq : resGens c r = Finset.univ.image (resRow srt c r) := by
  ext i
  simp only [resGens, Finset.mem_filter, Finset.mem_image, Finset.mem_univ, true_and]
  rw [← mem_posOf_gen hs]
  constructor
  · rintro ⟨h1, h2⟩
    obtain ⟨j, hj⟩ := List.getElem?_of_mem h1
    have hjl := (List.getElem?_eq_some_iff.1 hj).1
    have hm : j ∈ igOf srt c r := by
      unfold igOf
      rw [List.mem_filter]
      refine ⟨List.mem_range.2 hjl, ?_⟩
      rw [List.getD_eq_getElem?_getD, hj]
      simpa using h2
    obtain ⟨k, hk, e⟩ := List.mem_iff_getElem.1 hm
    refine ⟨⟨k, hk⟩, ?_⟩
    have := resRow_get c r ⟨k, hk⟩
    simp only [Fin.getElem_fin, e, hj, Option.some.injEq] at this
    exact this.symm
  · rintro ⟨k, rfl⟩
    refine ⟨List.mem_of_getElem? (resRow_get c r k), ?_⟩
    have := (List.mem_filter.1 (List.getElem_mem k.isLt : (igOf srt c r)[(k : ℕ)] ∈ igOf srt c r)).2
    exact @of_decide_eq_true _ (Classical.dec _) this

/-- A vector with one entry per generator of the caller: `w` at the rows of the providing generators, zero elsewhere. -/
structure Spread {α : Type} [Zero α] (srt : List ℕ → List ℕ) (c : Index.Case Tables) (r : Reserves.Res) (L : List α) (w : Fin (igOf srt c r).length → α) : Prop where
  len : L.length = c.gen.length
  on : ∀ k, L[resRow srt c r k]? = some (w k)
  off : ∀ i < c.gen.length, i ∉ resGens c r → L[i]? = some 0

include hs in
theorem spread_at {α : Type} [Zero α] (l : List α) (w : Fin (igOf srt c r).length → α) (hl : l = List.ofFn w) :
    ∃ L, spread (orderOf srt c) (posOf srt c .gen).length (igOf srt c r) l = some L ∧ Spread srt c r L w := by
  subst hl
  obtain ⟨v, h1, h2, h3, h4⟩ := scatter_spec (List.replicate (posOf srt c .gen).length (0 : α)) (igOf srt c r) (List.ofFn w) (List.nodup_range.filter _)
    (fun i hi => by simpa using igOf_lt c r hi) (by simp)
  rw [List.length_replicate] at h2
  obtain ⟨L, h5, h6, h7, h8⟩ := Index.i2eSet_writes hs c id v (List.replicate c.gen.length (0 : α)) .gen h2 (by simp [Index.rows])
  refine ⟨L, ?_, ?_, ?_, ?_⟩
  · unfold spread
    simp only [h1, Option.bind_eq_bind, Option.bind_some]
    exact h5
  · simpa using h6
  · intro k
    rw [h7 _ _ (resRow_get c r k), h3 k _ (by simp), List.getElem?_ofFn, dif_pos k.isLt]
  · intro i hi hn
    by_cases hm : i ∈ posOf srt c .gen
    · obtain ⟨j, hj⟩ := List.getElem?_of_mem hm
      rw [h7 _ _ hj, h4 j ?_]
      · rw [List.getElem?_replicate, if_pos (List.getElem?_eq_some_iff.1 hj).1]
      · intro hji
        refine hn ?_
        rw [resGens_eq hs, Finset.mem_image]
        obtain ⟨k, hk, e⟩ := List.mem_iff_getElem.1 hji
        refine ⟨⟨k, hk⟩, Finset.mem_univ _, ?_⟩
        have := resRow_get c r ⟨k, hk⟩
        simp only [Fin.getElem_fin, e, hj, Option.some.injEq] at this
        exact this.symm
    · rw [h8 i hm]
      simp [hi]

include hs hv in
/-- The zones are restored. -/
theorem extZones_eq : extZones (orderOf srt c) (r.zones.map fun row => (posOf srt c .gen).map fun i => row.getD i 0) r.zones = some r.zones := by
  unfold extZones
  have one : ∀ row ∈ r.zones, Index.i2eSet (orderOf srt c) id ((posOf srt c .gen).map fun i => row.getD i 0) row .gen = some row := by
    intro row hrow
    have hl := hv.zones row hrow
    obtain ⟨L, h5, h6, h7, h8⟩ := Index.i2eSet_writes hs c id ((posOf srt c .gen).map fun i => row.getD i 0) row .gen (by simp) (by simpa [Index.rows] using hl)
    rw [h5]
    congr 1
    apply List.ext_getElem?
    intro i
    by_cases hm : i ∈ posOf srt c .gen
    · obtain ⟨j, hj⟩ := List.getElem?_of_mem hm
      have hi : i < row.length := by rw [hl]; exact Index.posOf_range hs c .gen i hm
      rw [h7 _ _ hj, List.getElem?_map, hj, Option.map_some, List.getElem?_eq_getElem hi, List.getD_eq_getElem _ _ hi]
    · rw [h8 i hm]
      simp
  have : ∀ l : List (List ℝ), (∀ row ∈ l, Index.i2eSet (orderOf srt c) id ((posOf srt c .gen).map fun i => row.getD i 0) row .gen = some row) →
      ((l.map fun row => (posOf srt c .gen).map fun i => row.getD i 0).zip l).mapM (fun p => Index.i2eSet (orderOf srt c) id p.1 p.2 .gen) = some l := by
    intro l
    induction l with
    | nil => intro _; rfl
    | cons a l ih =>
      intro h
      rw [List.map_cons, List.zip_cons_cons, List.mapM_cons, ih fun x hx => h x (List.mem_cons_of_mem _ hx), h a List.mem_cons_self]
      rfl
  exact this _ one

include hv in
/-- The prices. -/
theorem prices_eq (base : ℝ) (lam : List ℝ) (hl : lam.length = r.zones.length) : ∃ L, prices base c.gen.length (Reserves.igr c.gen.length r) r.zones lam = some L ∧
    L.length = c.gen.length ∧
    ∀ i < c.gen.length, L[i]? = some ((∑ z ∈ Finset.range r.zones.length, if (r.zones.getD z []).getD i 0 ≠ 0 then lam.getD z 0 else 0) / base) := by
  rw [Reserves.igr_eq _ _ hv]
  have hm : ∀ l : List ℕ, l.mapM (Reserves.price base r.zones lam) =
      some (l.map fun i => (∑ z ∈ Finset.range r.zones.length, if (r.zones.getD z []).getD i 0 ≠ 0 then lam.getD z 0 else 0) / base) := by
    intro l
    induction l with
    | nil => rfl
    | cons a l ih =>
      rw [List.mapM_cons, ih, Reserves.C57_price _ _ _ hl]
      rfl
  obtain ⟨L, h1, h2, h3, h4⟩ := scatter_spec (List.replicate c.gen.length 0) (providers c.gen.length r)
    ((providers c.gen.length r).map fun i => (∑ z ∈ Finset.range r.zones.length, if (r.zones.getD z []).getD i 0 ≠ 0 then lam.getD z 0 else 0) / base)
    (Reserves.providers_nodup _ r) (fun i hi => by simpa using Reserves.providers_lt hi) (by simp)
  refine ⟨L, ?_, by simpa using h2, fun i hi => ?_⟩
  · unfold prices
    simp only [hm, Option.bind_eq_bind, Option.bind_some]
    exact h1
  · by_cases hp : Provides r i
    · obtain ⟨k, hk⟩ := List.getElem?_of_mem (mem_providers c r hi hp)
      rw [h3 k i hk, List.getElem?_map, hk, Option.map_some]
    · have hn : i ∉ providers c.gen.length r := fun h => hp (by
        have := (List.mem_filter.1 h).2
        simpa using this)
      rw [h4 i hn, List.getElem?_replicate, if_pos hi]
      congr 1
      rw [Finset.sum_eq_zero, zero_div]
      intro z hz
      rw [if_neg]
      intro hne
      have hzl := Finset.mem_range.1 hz
      rw [List.getD_eq_getElem _ _ hzl] at hne
      exact hp ⟨_, List.getElem_mem hzl, hne⟩

end results

end

end Verif.Opf
