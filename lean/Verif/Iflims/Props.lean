import Verif.Iflims.Lemmas

/-!
# C55: interface flow limits
-/

open Verif.NumPy

set_option linter.unusedSectionVars false

namespace Verif.Iflims

noncomputable section

variable {B : Type} [Fintype B] [DecidableEq B]

/-! ## Specification -/

/-- A branch of the external table: in service or not, and its data. -/
abbrev ExtBranch (B : Type) := Bool × Network.Branch B

/-- The flow a map row contributes, in p.u.: the DC flow of its branch, with the sign of the row, if the branch is in
service, nothing otherwise. -/
def contribution (ext : List (ExtBranch B)) (flow : Network.Branch B → ℝ) (r : MapRow) : ℝ :=
  match ext[r.2.natAbs]? with
  | some (true, b) => if r.2 < 0 then -flow b else flow b
  | _ => 0

/-- Flow across interface `id`: contributions of the map rows of the interface. -/
def interfaceFlow (ext : List (ExtBranch B)) (ifmap : List MapRow) (flow : Network.Branch B → ℝ) (id : Int) : ℝ :=
  ((ifmap.filter fun r => decide (r.1 = id)).map (contribution ext flow)).sum

/-- The map refers to existing branches, none of them the first one in service. -/
structure GoodMap (ext : List (ExtBranch B)) (ifmap : List MapRow) : Prop where
  exist : ∀ r ∈ ifmap, r.2.natAbs < ext.length
  notFirst : ∀ r ∈ ifmap, ¬ FirstOn (ext.map Prod.fst) r.2.natAbs

/-- Branch table after ext2int: the rows in service. -/
def internal (ext : List (ExtBranch B)) : List (Network.Branch B) := (ext.filter Prod.fst).map Prod.snd

/-! ## Proof -/

theorem internal_get (ext : List (ExtBranch B)) (k i : Nat) (h : (find (ext.map Prod.fst))[k]? = some i) :
    ∃ b, ext[i]? = some (true, b) ∧ (internal ext)[k]? = some b := by
  obtain ⟨x, hx1, hx2, hx3⟩ := Constr.find_row ext Prod.fst k i h
  obtain ⟨o, b⟩ := x
  simp only at hx2
  subst hx2
  exact ⟨b, hx1, by rw [internal, List.getElem?_map, hx3]; rfl⟩

/-- A converted row of a good map contributes its flow; rows deleted contribute nothing. -/
theorem convRow_flow (ext : List (ExtBranch B)) (flow : Network.Branch B → ℝ) (e : List Nat)
    (he : e2i (ext.map Prod.fst) = some e) (r : MapRow) (hr : r.2.natAbs < ext.length)
    (hf : ¬ FirstOn (ext.map Prod.fst) r.2.natAbs) :
    ∃ s : Int, convRow e r = some (r.1, s)
      ∧ (s = 0 → contribution ext flow r = 0)
      ∧ (s ≠ 0 → ∃ b, (internal ext)[s.natAbs]? = some b ∧ contribution ext flow r = (s.sign : ℝ) * flow b) := by
  obtain ⟨k, hk, hoff, hon⟩ := convRow_spec _ e he r (by simpa using hr)
  refine ⟨_, hk, ?_, ?_⟩
  all_goals
    have hx := List.getElem?_eq_getElem hr
    rw [List.getElem?_map, hx] at hoff hon
    unfold contribution
    rw [hx]
    rcases hob : ext[r.2.natAbs] with ⟨o, b⟩
    rw [hob] at hx hoff hon
    cases o with
    | false => simp at hoff; subst hoff; simp
    | true =>
      have hk' := hon rfl
      have hk0 : k ≠ 0 := fun h => by subst h; exact hf ((firstOn_iff _ _).1 hk')
      have hr0 : r.2 ≠ 0 := fun h => by
        have h0 : (find (ext.map Prod.fst))[0]? = some r.2.natAbs := (firstOn_iff _ _).2
          ⟨by rw [List.getElem?_map, hx]; simp, by rw [h]; simp⟩
        exact hf ((firstOn_iff _ _).1 h0)
      first
        | intro h0
          exfalso
          rcases Int.mul_eq_zero.1 h0 with h | h
          · exact hr0 (Int.sign_eq_zero_iff_zero.1 h)
          · omega
        | intro _
          have hna : (r.2.sign * (k : Int)).natAbs = k := by
            rw [Int.natAbs_mul, Int.natAbs_sign_of_ne_zero hr0]; simp
          have hsg : (r.2.sign * (k : Int)).sign = r.2.sign := by
            rw [Int.sign_mul, Int.sign_sign, Int.sign_eq_one_of_pos (a := (k : Int)) (by omega), mul_one]
          obtain ⟨b', hb1, hb2⟩ := internal_get ext k _ hk'
          rw [hx] at hb1
          have : b = b' := by simpa using hb1
          subst this
          refine ⟨b, by rw [hna]; exact hb2, ?_⟩
          rw [hsg]
          simp only
          rcases lt_trichotomy r.2 0 with h | h | h
          · rw [if_pos h, Int.sign_eq_neg_one_of_neg h]; simp
          · exact absurd h hr0
          · rw [if_neg (by omega), Int.sign_eq_one_of_pos h]; simp

/-- The internal map of a good map: every member exists and the signed sum of a column over the members is the interface
flow. -/
theorem members_sum (ext : List (ExtBranch B)) (flow : Network.Branch B → ℝ) (e : List Nat)
    (he : e2i (ext.map Prod.fst) = some e) (ifmap : List MapRow) (hg : GoodMap ext ifmap) (m : List MapRow)
    (hm : ifmap.mapM (convRow e) = some m) (id : Int) :
    (∀ s ∈ members (m.filter fun r => decide (r.2 ≠ 0)) id, s.natAbs < (internal ext).length)
      ∧ ((members (m.filter fun r => decide (r.2 ≠ 0)) id).map fun s =>
          (s.sign : ℝ) * (((internal ext)[s.natAbs]?).map flow).getD 0).sum = interfaceFlow ext ifmap flow id := by
  induction ifmap generalizing m with
  | nil =>
    have : m = [] := by simpa using hm.symm
    subst this
    simp [members, interfaceFlow]
  | cons r rs ih =>
    have hg' : GoodMap ext rs := ⟨fun r' h => hg.exist r' (List.mem_cons_of_mem _ h),
      fun r' h => hg.notFirst r' (List.mem_cons_of_mem _ h)⟩
    obtain ⟨s, hs, hs0, hs1⟩ := convRow_flow ext flow e he r (hg.exist r List.mem_cons_self) (hg.notFirst r List.mem_cons_self)
    rw [List.mapM_cons, hs] at hm
    cases hmr : rs.mapM (convRow e) with
    | none => simp [hmr] at hm
    | some m' =>
      have hmm : m = (r.1, s) :: m' := by simpa [hmr] using hm.symm
      subst hmm
      obtain ⟨ih1, ih2⟩ := ih hg' m' hmr
      by_cases h0 : s = 0
      · have hc := hs0 h0
        have e1 : ((r.1, s) :: m').filter (fun r => decide (r.2 ≠ 0)) = m'.filter (fun r => decide (r.2 ≠ 0)) := by
          simp [h0]
        rw [e1]
        refine ⟨ih1, ?_⟩
        rw [ih2]
        unfold interfaceFlow
        by_cases hid : r.1 = id <;> simp [hid, hc]
      · obtain ⟨b, hb, hc⟩ := hs1 h0
        have e1 : ((r.1, s) :: m').filter (fun r => decide (r.2 ≠ 0)) = (r.1, s) :: m'.filter (fun r => decide (r.2 ≠ 0)) := by
          simp [h0]
        rw [e1]
        unfold members at ih1 ih2 ⊢
        unfold interfaceFlow at ih2 ⊢
        by_cases hid : r.1 = id
        · simp only [hid, List.filter_cons, decide_true, if_true, List.map_cons, List.sum_cons, List.mem_cons]
          refine ⟨?_, ?_⟩
          · rintro s' (rfl | h)
            · exact (List.getElem?_eq_some_iff.1 hb).1
            · exact ih1 s' h
          · rw [ih2, hb, hc]; simp
        · simp only [List.filter_cons, hid, decide_false, Bool.false_eq_true, if_false]
          exact ⟨ih1, ih2⟩

/-- Statuses in the internal table are 1 (ext2int keeps the rows in service). -/
def Statuses (ext : List (ExtBranch B)) : Prop := ∀ x ∈ ext, x.2.stat = if x.1 then 1 else 0

theorem internal_stat (ext : List (ExtBranch B)) (h : Statuses ext) : ∀ b ∈ internal ext, b.stat = 0 ∨ b.stat = 1 := by
  intro b hb
  obtain ⟨x, hx, rfl⟩ := List.mem_map.1 hb
  have := List.mem_filter.1 hx
  have hst := h x this.1
  right
  simpa [this.2] using hst

theorem mapM_zipIdx {α β : Type} (f : α × Nat → Option β) (l : List α) (n : Nat) (g : Nat → α → β → Prop)
    (h : ∀ (k : Nat) (a : α), l[k]? = some a → ∃ b, f (a, n + k) = some b ∧ g k a b) :
    ∃ bs, (l.zipIdx n).mapM f = some bs ∧ bs.length = l.length
      ∧ ∀ (k : Nat) (a : α), l[k]? = some a → ∃ b, bs[k]? = some b ∧ g k a b := by
  induction l generalizing n g with
  | nil => exact ⟨[], rfl, rfl, by simp⟩
  | cons a l ih =>
    obtain ⟨b, hb, hgb⟩ := h 0 a rfl
    obtain ⟨bs, h1, h2, h3⟩ := ih (n + 1) (fun k a b => g (k + 1) a b) (by
      intro k a' hk
      obtain ⟨b', hb', hg'⟩ := h (k + 1) a' (by simpa using hk)
      exact ⟨b', by rw [← hb']; congr 2; omega, hg'⟩)
    refine ⟨b :: bs, ?_, by simp [h2], ?_⟩
    · rw [List.zipIdx_cons, List.mapM_cons]
      have hb' : f (a, n) = some b := hb
      rw [hb', h1]; rfl
    · intro k a' hk
      match k with
      | 0 => exact ⟨b, rfl, by simp at hk; subst hk; exact hgb⟩
      | k + 1 =>
        obtain ⟨b', hb', hg'⟩ := h3 k a' (by simpa using hk)
        exact ⟨b', by simpa using hb', hg'⟩

/-- **C55 (partial).** If the interfaces are listed in increasing order, and the map refers to existing branches other than the
first one in service, then the callbacks succeed and the constraint holds at `theta` iff for every listed interface the
signed sum of the DC flows of its in-service branches lies within its limits. The reported interface flows are the same
sums of the solved flows. Missing: a map that refers to the first in-service branch (`C55_first_dropped`), limits in
another order (`C55_unsorted`), the restored map (`C55_map_not_restored`). -/
theorem C55_partial (baseMVA : ℝ) (hb : 0 < baseMVA) (ext : List (ExtBranch B)) (hs : Statuses ext) (ifmap : List MapRow)
    (hg : GoodMap ext ifmap) (lims : List LimRow) (hl : (lims.map Prod.fst).Pairwise (· < ·)) :
    ∃ saved m rows, ext2int (ext.map Prod.fst) ifmap = some (saved, m)
      ∧ formulation baseMVA (internal ext) m lims = some rows
      ∧ (∀ theta : B → ℝ, Holds rows theta ↔ ∀ (id : Int) (lo up : ℝ), (id, lo, up) ∈ lims →
          lo ≤ baseMVA * interfaceFlow ext ifmap (fun b => Network.dcFlow b theta) id
            ∧ baseMVA * interfaceFlow ext ifmap (fun b => Network.dcFlow b theta) id ≤ up)
      ∧ ∀ solved : Network.Branch B → ℝ, ∃ P, int2ext ((internal ext).map solved) saved m lims = some (saved, P)
          ∧ P = lims.map fun l => interfaceFlow ext ifmap solved l.1 := by
  obtain ⟨e, m, he, hm, hx⟩ := ext2int_eq (ext.map Prod.fst) ifmap (by simpa using hg.exist)
  have hrow : ∀ (k : Nat) (id : Int), (ifidx lims)[k]? = some id → ∃ r : Row B,
      row baseMVA (internal ext) (m.filter fun r => decide (r.2 ≠ 0)) lims (0 + k) id = some r
      ∧ ∃ l, lims[k]? = some l ∧ l.1 = id ∧ ∀ theta : B → ℝ, (r.lower ≤ ∑ j, r.A j * theta j ∧ ∑ j, r.A j * theta j ≤ r.upper)
        ↔ (l.2.1 ≤ baseMVA * interfaceFlow ext ifmap (fun b => Network.dcFlow b theta) id
          ∧ baseMVA * interfaceFlow ext ifmap (fun b => Network.dcFlow b theta) id ≤ l.2.2) := by
    intro k id hk
    rw [ifidx_sorted lims hl, List.getElem?_map] at hk
    cases hlk : lims[k]? with
    | none => simp [hlk] at hk
    | some l =>
      have hid : l.1 = id := by simpa [hlk] using hk
      obtain ⟨A, b, h1, h2⟩ := fold_spec (internal ext) (internal_stat ext hs) (members (m.filter fun r => decide (r.2 ≠ 0)) id)
        (members_sum ext (fun _ => 0) e he ifmap hg m hm id).1 (fun _ => 0, 0)
      refine ⟨⟨A, l.2.1 / baseMVA - b, l.2.2 / baseMVA - b⟩, ?_, l, rfl, hid, ?_⟩
      · unfold row; rw [h1]; simp [hlk]
      · intro theta
        have h3 := h2 theta
        have h4 := (members_sum ext (fun b => Network.dcFlow b theta) e he ifmap hg m hm id).2
        have h5 : ((members (m.filter fun r => decide (r.2 ≠ 0)) id).map fun s =>
            (s.sign : ℝ) * iflow (internal ext) s.natAbs theta).sum
            = interfaceFlow ext ifmap (fun b => Network.dcFlow b theta) id := by
          rw [← h4]
          congr 1
          apply List.map_congr_left
          intro s _
          unfold iflow
          cases (internal ext)[s.natAbs]? <;> simp
        rw [h5] at h3
        simp only [zero_mul, Finset.sum_const_zero, zero_add] at h3
        simp only
        rw [sub_le_iff_le_add, h3, div_le_iff₀ hb, le_sub_iff_add_le, h3, le_div_iff₀ hb, mul_comm baseMVA]
  obtain ⟨rows, hrows, hlen, hspec⟩ := mapM_zipIdx
    (fun p => row baseMVA (internal ext) (m.filter fun r => decide (r.2 ≠ 0)) lims p.2 p.1) (ifidx lims) 0 _ hrow
  refine ⟨m, _, rows, hx, hrows, ?_, ?_⟩
  · intro theta
    unfold Holds
    constructor
    · intro h id lo up hmem
      obtain ⟨k, hk⟩ := List.mem_iff_getElem?.1 hmem
      obtain ⟨r, hr, l, hl1, -, hl3⟩ := hspec k id (by rw [ifidx_sorted lims hl, List.getElem?_map, hk]; rfl)
      rw [hk] at hl1
      have : l = (id, lo, up) := Option.some.inj hl1.symm
      subst this
      exact (hl3 theta).1 (h r (List.mem_of_getElem? hr))
    · intro h r hr
      obtain ⟨k, hk⟩ := List.mem_iff_getElem?.1 hr
      have hkl : k < (ifidx lims).length := by rw [← hlen]; exact (List.getElem?_eq_some_iff.1 hk).1
      obtain ⟨r', hr', l, hl1, hl2, hl3⟩ := hspec k _ (List.getElem?_eq_getElem hkl)
      have : r = r' := Option.some.inj (hk.symm.trans hr')
      subst this
      refine (hl3 theta).2 ?_
      rw [← hl2]
      exact h l.1 l.2.1 l.2.2 (List.mem_of_getElem? hl1)
  · intro solved
    have hP : ∀ ids : List Int, ids.mapM (fun id => ((members (m.filter fun r => decide (r.2 ≠ 0)) id).mapM
        (flowTerm ((internal ext).map solved))).map List.sum)
          = some (ids.map fun id => interfaceFlow ext ifmap solved id) := by
      intro ids
      induction ids with
      | nil => rfl
      | cons id ids ih =>
        obtain ⟨hm1, hm2⟩ := members_sum ext solved e he ifmap hg m hm id
        have hterm : ∀ ss : List Int, (∀ s ∈ ss, s.natAbs < (internal ext).length) →
            ss.mapM (flowTerm ((internal ext).map solved))
              = some (ss.map fun s => (s.sign : ℝ) * (((internal ext)[s.natAbs]?).map solved).getD 0) := by
          intro ss
          induction ss with
          | nil => intro _; rfl
          | cons s ss ih2 =>
            intro hss
            have hs1 := hss s List.mem_cons_self
            rw [List.mapM_cons, ih2 (fun s' h => hss s' (List.mem_cons_of_mem _ h))]
            have : flowTerm ((internal ext).map solved) s = some ((s.sign : ℝ) * solved (internal ext)[s.natAbs]) := by
              simp [flowTerm, hs1]
            rw [this]
            simp [hs1]
        rw [List.mapM_cons, hterm _ hm1, ih]
        simp only [Option.map_some, hm2, List.map_cons]
        rfl
    refine ⟨_, ?_, rfl⟩
    unfold int2ext
    rw [hP, ifidx_sorted lims hl, List.map_map]
    rfl

/-- **C55, negation: the first in-service branch is dropped.** Whatever the map, the internal map is the one obtained after
deleting all rows that refer to the first branch in service, although that branch is in service. -/
theorem C55_first_dropped (on : List Bool) (ifmap : List MapRow) (hr : ∀ r ∈ ifmap, r.2.natAbs < on.length) (i : Nat)
    (hi : FirstOn on i) :
    ∃ saved saved' m, ext2int on ifmap = some (saved, m)
      ∧ ext2int on (ifmap.filter fun r => decide (r.2.natAbs ≠ i)) = some (saved', m) := by
  obtain ⟨e, m, he, hm, hx⟩ := ext2int_eq on ifmap hr
  obtain ⟨e', m', he', hm', hx'⟩ := ext2int_eq on (ifmap.filter fun r => decide (r.2.natAbs ≠ i))
    (fun r h => hr r (List.mem_filter.1 h).1)
  have : e = e' := Option.some.inj (he.symm.trans he')
  subst this
  refine ⟨m, m', _, hx, ?_⟩
  rw [hx']
  congr 2
  clear hx hx'
  induction ifmap generalizing m m' with
  | nil => simp at hm hm'; subst hm; subst hm'; rfl
  | cons r rs ih =>
    obtain ⟨k, hk, -, hon⟩ := convRow_spec on e he r (hr r List.mem_cons_self)
    rw [List.mapM_cons, hk] at hm
    cases hmr : rs.mapM (convRow e) with
    | none => simp [hmr] at hm
    | some mr =>
      have hmm : m = (r.1, r.2.sign * (k : Int)) :: mr := by simpa [hmr] using hm.symm
      subst hmm
      by_cases hri : r.2.natAbs = i
      · have hk0 : k = 0 := by
          have h1 := hon (by rw [hri]; exact hi.1)
          have h2 := (firstOn_iff on i).2 hi
          rw [hri] at h1
          have hl1 := (List.getElem?_eq_some_iff.1 h1)
          have hl2 := (List.getElem?_eq_some_iff.1 h2)
          obtain ⟨a1, b1⟩ := hl1
          obtain ⟨a2, b2⟩ := hl2
          exact (List.Nodup.getElem_inj_iff (find_nodup on)).1 (b1.trans b2.symm)
        subst hk0
        have e1 : (r :: rs).filter (fun r => decide (r.2.natAbs ≠ i)) = rs.filter (fun r => decide (r.2.natAbs ≠ i)) := by
          simp [hri]
        rw [e1] at hm'
        have := ih (fun r' h => hr r' (List.mem_cons_of_mem _ h)) mr hmr m' hm'
        rw [this]
        simp
      · have e1 : (r :: rs).filter (fun r => decide (r.2.natAbs ≠ i)) = r :: rs.filter (fun r => decide (r.2.natAbs ≠ i)) := by
          simp [hri]
        rw [e1, List.mapM_cons, hk] at hm'
        cases hmr' : (rs.filter fun r => decide (r.2.natAbs ≠ i)).mapM (convRow e) with
        | none => rw [hmr'] at hm'; exact absurd hm' (by simp)
        | some mr' =>
          have hmm' : m' = (r.1, r.2.sign * (k : Int)) :: mr' := by rw [hmr'] at hm'; simpa using hm'.symm
          subst hmm'
          have := ih (fun r' h => hr r' (List.mem_cons_of_mem _ h)) mr hmr mr' hmr'
          rw [List.filter_cons, List.filter_cons, this]

/-- **C55, negation: limits in another order.** With the limits of two interfaces listed in decreasing order, the first row of
the constraint bounds the flow of the smaller interface number by the limits of the other one. -/
theorem C55_unsorted (baseMVA : ℝ) (branch : List (Network.Branch B)) (m : List MapRow) (a b : Int) (hab : a < b)
    (la ua lb ub : ℝ) (rows : List (Row B))
    (h : formulation baseMVA branch m [(b, lb, ub), (a, la, ua)] = some rows) :
    ∃ r A bk, rows[0]? = some r ∧ (members m a).foldlM (addBranch branch) (fun _ => 0, 0) = some (A, bk)
      ∧ r = ⟨A, lb / baseMVA - bk, ub / baseMVA - bk⟩ := by
  have hidx : ifidx [(b, lb, ub), (a, la, ua)] = [a, b] := by
    unfold ifidx
    have : ([(b, lb, ub), (a, la, ua)] : List LimRow).map Prod.fst = [b, a] := rfl
    rw [this, List.dedup_eq_self.2 (by simp [hab.ne'])]
    simp [List.insertionSort, List.orderedInsert, hab.not_ge]
  unfold formulation at h
  rw [hidx] at h
  simp only [List.zipIdx_cons, List.mapM_cons] at h
  cases h0 : row baseMVA branch m [(b, lb, ub), (a, la, ua)] 0 a with
  | none => simp [h0] at h
  | some r =>
    have hr : rows[0]? = some r := by
      simp only [h0, Option.bind_eq_bind, Option.bind_some] at h
      cases h1 : row baseMVA branch m [(b, lb, ub), (a, la, ua)] (0 + 1) b with
      | none => simp [h1] at h
      | some r1 =>
        simp only [h1, List.zipIdx_nil, List.mapM_nil, Option.bind_some, Option.pure_def, Option.some.injEq] at h
        simp [← h]
    unfold row at h0
    cases hf : (members m a).foldlM (addBranch branch) (fun _ => 0, 0) with
    | none => simp [hf] at h0
    | some Ab =>
      obtain ⟨A, bk⟩ := Ab
      refine ⟨r, A, bk, hr, rfl, ?_⟩
      simp [hf] at h0
      exact h0.symm

/-- **C55, negation: the external map is not restored.** As soon as one row refers to an out-of-service branch other than
branch 0, the map in the results differs from the map given: that row now has branch 0. -/
theorem C55_map_not_restored (on : List Bool) (ifmap : List MapRow) (hr : ∀ r ∈ ifmap, r.2.natAbs < on.length) (n : Nat)
    (r : MapRow) (hn : ifmap[n]? = some r) (hoff : on[r.2.natAbs]? = some false) (h0 : r.2 ≠ 0) (pf : List ℝ)
    (lims : List LimRow) (saved m : List MapRow) (hx : ext2int on ifmap = some (saved, m)) (restored : List MapRow)
    (P : List ℝ) (hi : int2ext pf saved m lims = some (restored, P)) :
    restored[n]? = some (r.1, 0) ∧ restored ≠ ifmap := by
  obtain ⟨e, m1, he, hm, hx1⟩ := ext2int_eq on ifmap hr
  rw [hx1] at hx
  have hsm : m1 = saved := by
    have := Option.some.inj hx
    exact (Prod.mk.inj this).1
  have hrs : restored = saved := by
    unfold int2ext at hi
    cases hP : (ifidx lims).mapM fun id => ((members m id).mapM (flowTerm pf)).map List.sum with
    | none => simp [hP] at hi
    | some P' => simp [hP] at hi; exact hi.1.symm
  have key : restored[n]? = some (r.1, 0) := by
    rw [hrs, ← hsm]
    clear hx1 hx hi hsm hrs
    induction ifmap generalizing n m1 with
    | nil => simp at hn
    | cons a rs ih =>
      obtain ⟨k, hk, hoff', -⟩ := convRow_spec on e he a (hr a List.mem_cons_self)
      rw [List.mapM_cons, hk] at hm
      cases hmr : rs.mapM (convRow e) with
      | none => simp [hmr] at hm
      | some mr =>
        have hmm : m1 = (a.1, a.2.sign * (k : Int)) :: mr := by simpa [hmr] using hm.symm
        match n with
        | 0 =>
          have : a = r := by simpa using hn
          subst this
          rw [hmm, hoff' hoff]; simp
        | n + 1 =>
          rw [hmm]
          simpa using ih (fun r' h => hr r' (List.mem_cons_of_mem _ h)) n (by simpa using hn) mr hmr
  refine ⟨key, fun h => ?_⟩
  rw [h, hn] at key
  have := (Prod.ext_iff.1 (Option.some.inj key)).2
  exact h0 this

/-! ## Non-vacuity -/

/-- Three branches between two buses; the second one is out of service. -/
def exExt : List (ExtBranch (Fin 2)) :=
  [(true, ⟨0, 1, 0, 1, 0, 0, 0, 1⟩), (false, ⟨0, 1, 0, 1, 0, 0, 0, 0⟩), (true, ⟨0, 1, 0, 1, 0, 0, 0, 1⟩)]

theorem exGood : GoodMap exExt [(1, -2), (1, 1)] := by
  constructor
  · intro r hr; fin_cases hr <;> simp [exExt]
  · intro r hr
    fin_cases hr
    · rintro ⟨-, h⟩; exact h 0 (by simp) (by simp [exExt])
    · rintro ⟨h, -⟩; simp [exExt] at h

/-- Interface 1 consists of branch 2 reversed (and the idle branch 1): the limit of 10 MW bounds minus its flow. -/
example : ∃ rows, (∃ saved m, ext2int (exExt.map Prod.fst) [(1, -2), (1, 1)] = some (saved, m)
    ∧ formulation 100 (internal exExt) m [(1, -10, 10)] = some rows)
    ∧ Holds rows (fun _ => 0) ∧ ¬ Holds rows (fun i => if i = 0 then 1 else 0) := by
  obtain ⟨saved, m, rows, h1, h2, h3, -⟩ := C55_partial 100 (by norm_num) exExt
    (by intro x hx; simp only [exExt] at hx; fin_cases hx <;> simp) [(1, -2), (1, 1)] exGood [(1, -10, 10)] (by simp)
  refine ⟨rows, ⟨saved, m, h1, h2⟩, (h3 _).2 ?_, fun h => ?_⟩
  · intro id lo up hmem
    obtain ⟨rfl, rfl, rfl⟩ : id = 1 ∧ lo = -10 ∧ up = 10 := by simpa using hmem
    norm_num [interfaceFlow, contribution, exExt, Network.dcFlow]
  · have := ((h3 _).1 h 1 (-10) 10 (by simp)).1
    norm_num [interfaceFlow, contribution, exExt, Network.dcFlow] at this

end

end Verif.Iflims
