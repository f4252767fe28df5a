import Verif.Opf.AddLemmas
import Verif.Opf.IfModel
import Verif.Opf.IfSpec
import Verif.Iflims.Props

/-! # Interface flow limits: from the internal rows to the caller's tables -/

namespace Verif.Opf

open Verif.Index (BusRow GenRow BranchRow IsArgsort WF GenInService BranchInService Connected posOf orderOf brK brK_iff)
open Verif.OpfModel Verif.Pips Verif.Network Verif.Cost Verif.OpfCost Verif.NumPy
open Verif.Iflims (MapRow LimRow Row e2i convRow convRow_spec FirstOn firstOn_iff members ifidx)

noncomputable section

/-! ### The internal map -/

/-- A value with the sign of a map row. -/
def sg (r : MapRow) (v : ℝ) : ℝ := if r.2 < 0 then -v else v

theorem conv_row {on : List Bool} {e : List ℕ} (he : e2i on = some e) (r : MapRow) (hr : r.2.natAbs < on.length) {F G : ℕ → ℝ}
    (hFG : ∀ (k i : ℕ), (find on)[k]? = some i → G i = F k) (hoff : ∀ i, on[i]? = some false → G i = 0) :
    ∃ s : ℤ, convRow e r = some (r.1, s) ∧ (s = 0 → ¬ FirstOn on r.2.natAbs → sg r (G r.2.natAbs) = 0) ∧
      (s ≠ 0 → ¬ FirstOn on r.2.natAbs ∧ s.natAbs < (find on).length ∧ sg r (G r.2.natAbs) = (s.sign : ℝ) * F s.natAbs) := by
  obtain ⟨k, hk, h0, h1⟩ := convRow_spec on e he r hr
  refine ⟨_, hk, ?_, ?_⟩
  · intro hs hf
    cases hb : on[r.2.natAbs] with
    | false =>
      have := hoff _ ((List.getElem?_eq_getElem hr).trans (by rw [hb]))
      simp [sg, this]
    | true =>
      have hb' : on[r.2.natAbs]? = some true := (List.getElem?_eq_getElem hr).trans (by rw [hb])
      exfalso
      rcases Int.mul_eq_zero.1 hs with h | h
      · have h' := Int.sign_eq_zero_iff_zero.1 h
        exact hf ⟨hb', by rw [h']; simp⟩
      · have : k = 0 := by omega
        subst this
        exact hf ((firstOn_iff _ _).1 (h1 hb'))
  · intro hs
    have hk0 : k ≠ 0 := by rintro rfl; simp at hs
    have hr0 : r.2 ≠ 0 := by intro h; rw [h] at hs; simp at hs
    have hb' : on[r.2.natAbs]? = some true := by
      rw [List.getElem?_eq_getElem hr]
      cases hb : on[r.2.natAbs] with
      | true => rfl
      | false => exact absurd (h0 ((List.getElem?_eq_getElem hr).trans (by rw [hb]))) hk0
    have hf := h1 hb'
    have hlen := (List.getElem?_eq_some_iff.1 hf).1
    have hna : (r.2.sign * (k : ℤ)).natAbs = k := by rw [Int.natAbs_mul, Int.natAbs_sign_of_ne_zero hr0]; simp
    have hsg : (r.2.sign * (k : ℤ)).sign = r.2.sign := by
      rw [Int.sign_mul, Int.sign_sign, Int.sign_eq_one_of_pos (a := (k : ℤ)) (by omega), mul_one]
    refine ⟨?_, by rw [hna]; exact hlen, ?_⟩
    · intro hfo
      have e0 := (firstOn_iff _ _).2 hfo
      obtain ⟨l0, q0⟩ := List.getElem?_eq_some_iff.1 e0
      obtain ⟨l1, q1⟩ := List.getElem?_eq_some_iff.1 hf
      have := (List.pairwise_iff_getElem.1 (find_pairwise on)) 0 k l0 l1 (by omega)
      omega
    · rw [hna, hsg, hFG k _ hf]
      unfold sg
      rcases lt_trichotomy r.2 0 with h | h | h
      · rw [if_pos h, Int.sign_eq_neg_one_of_neg h]; simp
      · exact absurd h hr0
      · rw [if_neg (by omega), Int.sign_eq_one_of_pos h]; simp

open Classical in
theorem conv_sum {on : List Bool} {e : List ℕ} (he : e2i on = some e) {F G : ℕ → ℝ} (hFG : ∀ (k i : ℕ), (find on)[k]? = some i → G i = F k)
    (hoff : ∀ i, on[i]? = some false → G i = 0) (id : ℤ) (ifmap : List MapRow) (hr : ∀ r ∈ ifmap, r.2.natAbs < on.length) (m : List MapRow)
    (hm : ifmap.mapM (convRow e) = some m) :
    (∀ s ∈ members (m.filter fun r => decide (r.2 ≠ 0)) id, s.natAbs < (find on).length) ∧
    ((members (m.filter fun r => decide (r.2 ≠ 0)) id).map fun s => (s.sign : ℝ) * F s.natAbs).sum =
      (((ifmap.filter fun r => decide (¬ FirstOn on r.2.natAbs)).filter fun r => decide (r.1 = id)).map fun r => sg r (G r.2.natAbs)).sum := by
  induction ifmap generalizing m with
  | nil =>
    have : m = [] := by simpa using hm.symm
    subst this
    simp [members]
  | cons r rs ih =>
    obtain ⟨s, hs, hs0, hs1⟩ := conv_row he r (hr r List.mem_cons_self) hFG hoff
    rw [List.mapM_cons, hs] at hm
    cases hmr : rs.mapM (convRow e) with
    | none => simp [hmr] at hm
    | some m' =>
      have hmm : m = (r.1, s) :: m' := by simpa [hmr] using hm.symm
      subst hmm
      obtain ⟨ih1, ih2⟩ := ih (fun r' h => hr r' (List.mem_cons_of_mem _ h)) m' hmr
      by_cases h0 : s = 0
      · have e1 : ((r.1, s) :: m').filter (fun r => decide (r.2 ≠ 0)) = m'.filter (fun r => decide (r.2 ≠ 0)) := by simp [h0]
        rw [e1]
        refine ⟨ih1, ?_⟩
        rw [ih2]
        by_cases hf : FirstOn on r.2.natAbs
        · rw [List.filter_cons_of_neg (by simpa using hf)]
        · rw [List.filter_cons_of_pos (by simpa using hf)]
          by_cases hid : r.1 = id
          · rw [List.filter_cons_of_pos (by simpa using hid), List.map_cons, List.sum_cons, hs0 h0 hf, zero_add]
          · rw [List.filter_cons_of_neg (by simpa using hid)]
      · obtain ⟨hf, hlt, hc⟩ := hs1 h0
        have e1 : ((r.1, s) :: m').filter (fun r => decide (r.2 ≠ 0)) = (r.1, s) :: m'.filter (fun r => decide (r.2 ≠ 0)) := by simp [h0]
        rw [e1, List.filter_cons_of_pos (by simpa using hf)]
        unfold members at ih1 ih2 ⊢
        by_cases hid : r.1 = id
        · rw [List.filter_cons_of_pos (by simpa using hid), List.filter_cons_of_pos (by simpa using hid)]
          simp only [List.map_cons, List.sum_cons, List.mem_cons]
          refine ⟨?_, ?_⟩
          · rintro s' (rfl | h)
            · exact hlt
            · exact ih1 s' h
          · rw [ih2, hc]
        · rw [List.filter_cons_of_neg (by simpa using hid), List.filter_cons_of_neg (by simpa using hid)]
          exact ⟨ih1, ih2⟩

theorem mapM_some {α β : Type} {f : α → Option β} {g : α → β} {l : List α} (h : ∀ a ∈ l, f a = some (g a)) : l.mapM f = some (l.map g) := by
  induction l with
  | nil => rfl
  | cons a l ih => rw [List.mapM_cons, h a List.mem_cons_self, ih fun b hb => h b (List.mem_cons_of_mem _ hb)]; rfl

/-! ### The rows in the caller's tables -/

open Classical in
/-- Flow (per unit) of row `i` at zero angles. -/
def shAt (c : Index.Case Tables) (i : ℕ) : ℝ := match c.branch[i]? with | some l => if BranchInService c l then dcFlow (asBranch l) (fun _ => 0) else 0 | none => 0

theorem ifTerm_eq (t : Index.Case Tables) (r : MapRow) : ifTerm t r = sg r (pfAt t r.2.natAbs) := by
  unfold ifTerm sg pfAt
  split <;> simp_all

theorem shiftTerm_eq (c : Index.Case Tables) (r : MapRow) : shiftTerm c r = sg r (shAt c r.2.natAbs) := by
  unfold shiftTerm sg shAt
  cases c.branch[r.2.natAbs]? with
  | none => simp
  | some l => by_cases h1 : BranchInService c l <;> simp [h1]

theorem onMask (srt : List ℕ → List ℕ) (c : Index.Case Tables) : ifOn (orderOf srt c) = c.branch.map (brK c.bus) := by
  apply List.ext_getElem?
  intro i
  show ((List.range c.branch.length).map fun i => decide (i ∈ find (c.branch.map (brK c.bus))))[i]? = _
  simp only [List.getElem?_map]
  by_cases hi : i < c.branch.length
  · rw [List.getElem?_range hi, List.getElem?_eq_getElem hi]
    simp only [Option.map_some, Option.some.injEq, mem_find, List.getElem?_map, List.getElem?_eq_getElem hi]
    simp
  · rw [List.getElem?_eq_none (by simpa using hi), List.getElem?_eq_none (by omega)]
    rfl

theorem firstOn_ext (c : Index.Case Tables) (i : ℕ) : FirstOn (c.branch.map (brK c.bus)) i ↔ FirstInService c i := by
  unfold FirstOn FirstInService
  simp only [List.getElem?_map]
  constructor
  · rintro ⟨h1, h2⟩
    refine ⟨?_, ?_⟩
    · cases hc : c.branch[i]? with
      | none => simp [hc] at h1
      | some l => simp only [hc, Option.map_some, Option.some.injEq] at h1; exact ⟨l, rfl, (brK_iff c l).1 h1⟩
    · intro j l hj hl hb
      exact h2 j hj (by rw [hl, Option.map_some, (brK_iff c l).2 hb])
  · rintro ⟨⟨l, h1, h1'⟩, h2⟩
    refine ⟨by rw [h1, Option.map_some, (brK_iff c l).2 h1'], ?_⟩
    intro j hj hb
    cases hc : c.branch[j]? with
    | none => simp [hc] at hb
    | some l => simp only [hc, Option.map_some, Option.some.injEq] at hb; exact h2 j l hj hc ((brK_iff c l).1 hb)

theorem counted_eq (c : Index.Case Tables) (ifmap : List MapRow) (id : ℤ) (G : ℕ → ℝ) [DecidablePred fun i => FirstOn (c.branch.map (brK c.bus)) i] :
    (((ifmap.filter fun r => decide (¬ FirstOn (c.branch.map (brK c.bus)) r.2.natAbs)).filter fun r => decide (r.1 = id)).map fun r => sg r (G r.2.natAbs)).sum =
      (((counted c ifmap).filter fun r => decide (r.1 = id)).map fun r => sg r (G r.2.natAbs)).sum := by
  unfold counted
  congr 4
  funext r
  exact decide_eq_decide.2 (not_congr (firstOn_ext c _))

theorem ifidx_length (lims : List LimRow) : (ifidx lims).length ≤ lims.length := by
  unfold Iflims.ifidx
  rw [List.length_insertionSort]
  exact (List.dedup_sublist _).length_le.trans (by simp)

/-- The tables `t` show the flows `PF` of the branches in service and none for the others. -/
structure Flows (c t : Index.Case Tables) {nl : ℕ} (lp : Fin nl → ℕ) (PF : Fin nl → ℝ) : Prop where
  on : ∀ k, pfAt t (lp k) = PF k
  off : ∀ (i : ℕ) l, c.branch[i]? = some l → ¬ BranchInService c l → pfAt t i = 0

section
variable {srt : List ℕ → List ℕ} (hs : IsArgsort srt) {base : ℝ} {c : Index.Case Tables} (h : WF c) {ifmap : List MapRow} (hrows : MapRows c ifmap) (lims : List LimRow)
  (hst : ∀ l ∈ c.branch, l.status = 0 ∨ l.status = 1)
  {c' : Index.Case Tables} {d : Case c'.bus.length c'.gen.length c'.branch.length} {z : Off} {R : Index.Case Tables} {u : Upd c'.bus.length c'.gen.length c'.branch.length}
  {bp : Fin c'.bus.length → ℕ} {gp : Fin c'.gen.length → ℕ} {lp : Fin c'.branch.length → ℕ}
  (he : Index.ext2int srt c = some c') (B : Bridge c R z d u bp gp lp)
  (hlp : ∀ k : Fin c'.branch.length, (posOf srt c .branch)[(k : ℕ)]? = some (lp k))

include hs h he in
theorem pos_length : (find (c.branch.map (brK c.bus))).length = c'.branch.length := by
  obtain ⟨c1, o1, pos, apos, h1, h2, -, h3, rfl, rfl⟩ := Index.ext2int_corr hs h
  rw [he] at h1; cases h1
  exact h3.brLen.symm

include hs h hrows hst he B hlp in
/-- What the callbacks make of a map of existing rows. -/
theorem if_form : ∃ saved im rows, ifForm ifmap lims d c' = some (saved, im, rows) ∧ rows.length = (ifidx lims).length ∧
    (∀ (k : ℕ) id, (ifidx lims)[k]? = some id → ∃ l r, lims[k]? = some l ∧ rows[k]? = some r ∧
      r.lower = l.2.1 / d.base - ifShift c (counted c ifmap) id ∧ r.upper = l.2.2 / d.base - ifShift c (counted c ifmap) id ∧
      ∀ (t : Index.Case Tables) (θ : Fin c'.bus.length → ℝ), Flows c t lp (fun k => d.base * dcFlow (d.branch k) θ) →
        d.base * (∑ j, r.A j * θ j + ifShift c (counted c ifmap) id) = ifFlow t (counted c ifmap) id) ∧
    ∀ (t : Index.Case Tables) (PF : Fin c'.branch.length → ℝ), Flows c t lp PF →
      Iflims.int2ext (List.ofFn PF) saved im lims = some (saved, (ifidx lims).map (ifFlow t (counted c ifmap))) := by
  classical
  obtain ⟨ho, -⟩ := int_order hs h he
  have hlen := pos_length hs h he
  obtain ⟨e, m, he2, hm, hx⟩ := Iflims.ext2int_eq (c.branch.map (brK c.bus)) ifmap (by rw [List.length_map]; exact hrows)
  have hr' : ∀ r ∈ ifmap, r.2.natAbs < (c.branch.map (brK c.bus)).length := by rw [List.length_map]; exact hrows
  have hpos : ∀ (k i : ℕ), (find (c.branch.map (brK c.bus)))[k]? = some i → ∃ hk : k < c'.branch.length, lp ⟨k, hk⟩ = i := by
    intro k i hk
    have hk' : k < c'.branch.length := by rw [← hlen]; exact (List.getElem?_eq_some_iff.1 hk).1
    have := hlp ⟨k, hk'⟩
    rw [show posOf srt c .branch = find (c.branch.map (brK c.bus)) from rfl, hk] at this
    exact ⟨hk', (Option.some.inj this).symm⟩
  have hoffrow : ∀ (i : ℕ), (c.branch.map (brK c.bus))[i]? = some false → ∃ l, c.branch[i]? = some l ∧ ¬ BranchInService c l := by
    intro i hi
    rw [List.getElem?_map] at hi
    cases hc : c.branch[i]? with
    | none => simp [hc] at hi
    | some l =>
      simp only [hc, Option.map_some, Option.some.injEq] at hi
      exact ⟨l, rfl, fun hb => by rw [(brK_iff c l).2 hb] at hi; cases hi⟩
  have hstat : ∀ b ∈ List.ofFn d.branch, b.stat = 0 ∨ b.stat = 1 := by
    intro b hb
    obtain ⟨k, rfl⟩ := (List.mem_ofFn' d.branch b).1 hb
    obtain ⟨l0, h1, -, -, -, -, -, -, -, -, -, h2, -⟩ := B.branch k
    rw [h2]
    rcases hst l0 (List.mem_of_getElem? h1) with h3 | h3 <;> simp [h3]
  have hflow : ∀ (k : Fin c'.branch.length) θ, Iflims.iflow (List.ofFn d.branch) k θ = dcFlow (d.branch k) θ := by
    intro k θ
    unfold Iflims.iflow
    rw [List.getElem?_ofFn, dif_pos k.isLt]
  have hmem : ∀ id, ∀ s ∈ members (m.filter fun r => decide (r.2 ≠ 0)) id, s.natAbs < c'.branch.length := fun id s hs' => by
    rw [← hlen]
    exact (conv_sum (F := fun _ => 0) (G := fun _ => 0) he2 (fun _ _ _ => rfl) (fun _ _ => rfl) id ifmap hr' m hm).1 s hs'
  have hshift : ∀ id, ((members (m.filter fun r => decide (r.2 ≠ 0)) id).map fun s => (s.sign : ℝ) * Iflims.iflow (List.ofFn d.branch) s.natAbs fun _ => 0).sum =
      ifShift c (counted c ifmap) id := by
    intro id
    have := (conv_sum (F := fun k => Iflims.iflow (List.ofFn d.branch) k fun _ => 0) (G := shAt c) he2 ?_ ?_ id ifmap hr' m hm).2
    · rw [this, counted_eq]
      unfold ifShift
      rw [show shiftTerm c = fun r => sg r (shAt c r.2.natAbs) from funext (shiftTerm_eq c)]
    · intro k i hk
      obtain ⟨hk', rfl⟩ := hpos k i hk
      obtain ⟨l, h1, h2, -, -, -, -, hx', -, htap, hsh, hst', -⟩ := B.branch ⟨k, hk'⟩
      show shAt c (lp ⟨k, hk'⟩) = _
      unfold shAt
      rw [h1, hflow ⟨k, hk'⟩]
      simp only [if_pos h2, dcFlow, asBranch, hx', htap, hsh, hst']
      congr
    · intro i hi
      obtain ⟨l, h1, h2⟩ := hoffrow i hi
      simp [shAt, h1, h2]
  have hPF : ∀ (t : Index.Case Tables) (PF : ℕ → ℝ) id, Flows c t lp (fun k => PF k) →
      ((members (m.filter fun r => decide (r.2 ≠ 0)) id).map fun s => (s.sign : ℝ) * PF s.natAbs).sum = ifFlow t (counted c ifmap) id := by
    intro t PF id hF
    have := (conv_sum (F := PF) (G := pfAt t) he2 ?_ ?_ id ifmap hr' m hm).2
    · rw [this, counted_eq]
      unfold ifFlow
      rw [show ifTerm t = fun r => sg r (pfAt t r.2.natAbs) from funext (ifTerm_eq t)]
    · intro k i hk
      obtain ⟨hk', rfl⟩ := hpos k i hk
      exact hF.on ⟨k, hk'⟩
    · intro i hi
      obtain ⟨l, h1, h2⟩ := hoffrow i hi
      exact hF.off i l h1 h2
  have hrow : ∀ (k : ℕ) id, (ifidx lims)[k]? = some id → ∃ r : Row (Fin c'.bus.length),
      Iflims.row d.base (List.ofFn d.branch) (m.filter fun r => decide (r.2 ≠ 0)) lims (0 + k) id = some r ∧ ∃ l, lims[k]? = some l ∧
      r.lower = l.2.1 / d.base - ifShift c (counted c ifmap) id ∧ r.upper = l.2.2 / d.base - ifShift c (counted c ifmap) id ∧
      ∀ (t : Index.Case Tables) (θ : Fin c'.bus.length → ℝ), Flows c t lp (fun k => d.base * dcFlow (d.branch k) θ) →
        d.base * (∑ j, r.A j * θ j + ifShift c (counted c ifmap) id) = ifFlow t (counted c ifmap) id := by
    intro k id hk
    have hkl : k < lims.length := lt_of_lt_of_le (List.getElem?_eq_some_iff.1 hk).1 (ifidx_length lims)
    obtain ⟨A, b, hf, hA⟩ := Iflims.fold_spec (List.ofFn d.branch) hstat (members (m.filter fun r => decide (r.2 ≠ 0)) id) (by simpa using hmem id) (fun _ => 0, 0)
    have hb0 : b = ifShift c (counted c ifmap) id := by
      have := hA fun _ => 0
      rw [hshift id] at this
      simpa using this
    refine ⟨⟨A, lims[k].2.1 / d.base - b, lims[k].2.2 / d.base - b⟩, ?_, lims[k], List.getElem?_eq_getElem hkl, ?_, ?_, ?_⟩
    · unfold Iflims.row
      rw [hf, zero_add, List.getElem?_eq_getElem hkl]
      rfl
    · rw [hb0]
    · rw [hb0]
    · intro t θ hF
      rw [← hb0, hA θ]
      simp only [zero_mul, Finset.sum_const_zero, zero_add]
      rw [← hPF t (fun k => d.base * Iflims.iflow (List.ofFn d.branch) k θ) id ⟨fun k => by rw [hF.on k, hflow k], hF.off⟩, ← List.sum_map_mul_left]
      congr 2
      funext s
      ring
  obtain ⟨rows, h1, h2, h3⟩ := Iflims.mapM_zipIdx (fun p : ℤ × ℕ => Iflims.row d.base (List.ofFn d.branch) (m.filter fun r => decide (r.2 ≠ 0)) lims p.2 p.1) (ifidx lims) 0
    (fun k id r => ∃ l, lims[k]? = some l ∧ r.lower = l.2.1 / d.base - ifShift c (counted c ifmap) id ∧ r.upper = l.2.2 / d.base - ifShift c (counted c ifmap) id ∧
      ∀ (t : Index.Case Tables) (θ : Fin c'.bus.length → ℝ), Flows c t lp (fun k => d.base * dcFlow (d.branch k) θ) →
        d.base * (∑ j, r.A j * θ j + ifShift c (counted c ifmap) id) = ifFlow t (counted c ifmap) id) hrow
  refine ⟨m, m.filter fun r => decide (r.2 ≠ 0), rows, ?_, h2, ?_, ?_⟩
  · unfold ifForm Iflims.formulation
    rw [ho]
    simp only [Option.bind_eq_bind, Option.bind_some, onMask, hx, h1]
  · intro k id hk
    obtain ⟨r, e1, l, e2, e3⟩ := h3 k id hk
    exact ⟨l, r, e2, e1, e3⟩
  · intro t PF hF
    unfold Iflims.int2ext
    have : (ifidx lims).mapM (fun id => ((members (m.filter fun r => decide (r.2 ≠ 0)) id).mapM (Iflims.flowTerm (List.ofFn PF))).map List.sum) =
        some ((ifidx lims).map (ifFlow t (counted c ifmap))) := by
      refine mapM_some fun id _ => ?_
      have e1 : (members (m.filter fun r => decide (r.2 ≠ 0)) id).mapM (Iflims.flowTerm (List.ofFn PF)) =
          some ((members (m.filter fun r => decide (r.2 ≠ 0)) id).map fun s => (s.sign : ℝ) * (if h : s.natAbs < c'.branch.length then PF ⟨s.natAbs, h⟩ else 0)) := by
        refine mapM_some fun s hs' => ?_
        unfold Iflims.flowTerm
        rw [List.getElem?_ofFn, dif_pos (hmem id s hs')]
        simp [dif_pos (hmem id s hs')]
      rw [e1, Option.map_some, hPF t (fun k => if h : k < c'.branch.length then PF ⟨k, h⟩ else 0) id ⟨fun k => by rw [hF.on k]; simp, hF.off⟩]
    rw [this]
    rfl

end

end

end Verif.Opf
