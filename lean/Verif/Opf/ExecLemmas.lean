import Verif.Opf.ExecModel
import Verif.Opf.CompProps

/-! # Lemmas about the named results -/

namespace Verif.Opf

open Verif.OpfModel Verif.Pips

theorem pickRange_eq (v : List ℝ) (i1 n : ℕ) (h : i1 + n ≤ v.length) : pickRange v i1 (i1 + n) = some ((List.range n).map fun k => v.getD (i1 + k) 0) := by
  unfold pickRange
  rw [Nat.add_sub_cancel_left]
  have key : ∀ L : List ℕ, (∀ k ∈ L, i1 + k < v.length) → L.mapM (fun k => v[i1 + k]?) = some (L.map fun k => v.getD (i1 + k) 0) := by
    intro L
    induction L with
    | nil => intro _; rfl
    | cons a L ih =>
      intro hL
      have ha := hL a List.mem_cons_self
      rw [List.mapM_cons, ih fun k hk => hL k (List.mem_cons_of_mem _ hk)]
      simp [List.getElem?_eq_getElem ha, List.getD]
  exact key _ fun k hk => by have := List.mem_range.1 hk; omega

theorem getN_fold (bs : List (String × ℕ)) (hnd : (names bs).Nodup) (v : String) (hv : v ∈ names bs) : (foldIdx bs).getN (some v) = size bs v := by
  simp [Idx.getN, ((foldIdx_lookup bs hnd).1 v hv).2.2]

/-- What the loops leave behind: one entry per non-empty block, holding that block's part of the vector. -/
theorem cutUp_spec (bs : List (String × ℕ)) (hnd : (names bs).Nodup) (v : List ℝ) (hlen : total bs ≤ v.length) :
    ∃ D, cutUp (foldIdx bs) v (foldIdx bs).order (fun _ => none) = some D ∧
      ∀ k, D k = if k ∈ names bs ∧ 0 < size bs k then some (part bs (fun i => v.getD i 0) k) else none := by
  have key : ∀ (L : List String) (D : Dict (List ℝ)), (∀ k ∈ L, k ∈ names bs) →
      ∃ D', cutUp (foldIdx bs) v L D = some D' ∧ ∀ k, D' k = if k ∈ L ∧ 0 < size bs k then some (part bs (fun i => v.getD i 0) k) else D k := by
    intro L
    induction L with
    | nil => intro D _; exact ⟨D, rfl, fun k => by simp⟩
    | cons a L ih =>
      intro D hL
      have ha := hL a List.mem_cons_self
      obtain ⟨e1, e2, -⟩ := (foldIdx_lookup bs hnd).1 a ha
      unfold cutUp
      rw [getN_fold bs hnd a ha]
      by_cases h0 : size bs a = 0
      · rw [if_pos h0]
        obtain ⟨D', hD, hk⟩ := ih D fun k hk => hL k (List.mem_cons_of_mem _ hk)
        refine ⟨D', hD, fun k => ?_⟩
        rw [hk]
        by_cases hka : k = a
        · subst hka; simp [h0]
        · simp [hka]
      · rw [if_neg h0, e1, e2]
        simp only [Option.bind_eq_bind, Option.bind_some]
        have := start_size_le bs a ha
        rw [pickRange_eq v _ _ (by omega), Option.bind_some]
        obtain ⟨D', hD, hk⟩ := ih (D.set a ((List.range (size bs a)).map fun k => v.getD (start bs a + k) 0)) fun k hk => hL k (List.mem_cons_of_mem _ hk)
        refine ⟨D', hD, fun k => ?_⟩
        rw [hk]
        by_cases hka : k = a
        · subst hka
          by_cases hin : k ∈ L
          · simp [hin, Nat.pos_of_ne_zero h0]
          · simp [hin, Nat.pos_of_ne_zero h0, Dict.set, part]
        · simp [hka, Dict.set]
  rw [(foldIdx_basic bs).2.2]
  exact key _ _ fun k hk => hk

/-! ### The cost loop -/

theorem namedCosts_skip (x : ℕ → ℝ) (m : Model) (D : Dict ℝ) (L R : List String) (h : ∀ k ∈ L, m.cost.getN (some k) = 0) :
    namedCosts x (L ++ R) m D = namedCosts x R m D := by
  induction L with
  | nil => rfl
  | cons a L ih =>
    rw [List.cons_append, namedCosts, if_pos (h a List.mem_cons_self)]
    exact ih fun k hk => h k (List.mem_cons_of_mem _ hk)

/-- Once the stored parameters have been cut down to fewer rows than some later block ends at, the loop raises. -/
theorem namedCosts_fails (x : ℕ → ℝ) (L : List String) : ∀ (m : Model) (P : Params) (D : Dict ℝ), m.params = some P →
    (∀ k ∈ L, 0 < m.cost.getN (some k) → ∃ iN, m.cost.iN k = some iN ∧ P.nw < iN) → (∃ k ∈ L, 0 < m.cost.getN (some k)) →
    namedCosts x L m D = none := by
  induction L with
  | nil => intro m P D _ _ h; simp at h
  | cons a L ih =>
    intro m P D hP hk hex
    rw [namedCosts]
    by_cases h0 : m.cost.getN (some a) = 0
    · rw [if_pos h0]
      refine ih m P D hP (fun k hk' => hk k (List.mem_cons_of_mem _ hk')) ?_
      obtain ⟨k, hk', hpos⟩ := hex
      rcases List.mem_cons.1 hk' with rfl | hk'
      · omega
      · exact ⟨k, hk', hpos⟩
    · obtain ⟨iN, hi, hlt⟩ := hk a List.mem_cons_self (Nat.pos_of_ne_zero h0)
      rw [if_neg h0]
      have : m.computeCost x (some a) = none := by
        simp only [Model.computeCost, Model.getCostParams, hP, h0, hi, if_false, Option.bind_eq_bind, Option.bind_some]
        cases m.cost.i1 a <;> simp [not_le.2 hlt]
      simp [this]

/-- Cutting the rows of a block out. -/
theorem computeCost_block (m : Model) (P : Params) (hP : m.params = some P) (x : ℕ → ℝ) (v : String) (i1 n : ℕ) (h1 : m.cost.i1 v = some i1)
    (h2 : m.cost.iN v = some (i1 + n)) (h3 : m.cost.getN (some v) = n) (hn : 0 < n) (hle : i1 + n ≤ P.nw) :
    m.computeCost x (some v) = some ((P.slice i1 (i1 + n)).f x, { m with params := some (P.slice i1 (i1 + n)) }) := by
  simp only [Model.computeCost, Model.getCostParams, hP, h1, h2, h3, Option.bind_eq_bind, Option.bind_some, if_neg hn.ne', if_pos hle]
  have : (P.slice i1 (i1 + n)).nw = n := by simp [Params.slice]
  rw [this, if_neg hn.ne']

theorem nodup_split {bs : List (String × ℕ)} (hnd : (names bs).Nodup) {k : String} (hk : k ∈ names bs) :
    ∃ L R, names bs = L ++ k :: R ∧ k ∉ L ∧ k ∉ R := by
  obtain ⟨L, R, h⟩ := List.append_of_mem hk
  refine ⟨L, R, h, ?_, ?_⟩
  · intro hL
    rw [h] at hnd
    exact (List.disjoint_of_nodup_append hnd) hL List.mem_cons_self
  · intro hR
    rw [h] at hnd
    exact (List.nodup_cons.1 (List.nodup_append.1 hnd).2.1).1 hR

/-- No rows at all: nothing is evaluated. -/
theorem namedCosts_none (x : ℕ → ℝ) (bs : List (String × ℕ)) (hnd : (names bs).Nodup) (m : Model) (hc : m.cost = foldIdx bs)
    (h0 : ∀ k ∈ names bs, size bs k = 0) : namedCosts x m.cost.order m (fun _ => none) = some (fun _ => none, m) := by
  have := namedCosts_skip x m (fun _ => none) m.cost.order [] (by
    intro k hk
    rw [hc, (foldIdx_basic bs).2.2] at hk
    rw [hc, getN_fold bs hnd k hk]
    exact h0 k hk)
  rw [List.append_nil] at this
  rw [this]; rfl

/-- One block with rows: its cost, and nothing else. -/
theorem namedCosts_one (x : ℕ → ℝ) (bs : List (String × ℕ)) (hnd : (names bs).Nodup) (m : Model) (P : Params) (hP : m.params = some P) (hnw : P.nw = total bs)
    (hc : m.cost = foldIdx bs) (k : String) (hk : k ∈ names bs) (hpos : 0 < size bs k) (hu : ∀ j ∈ names bs, 0 < size bs j → j = k) :
    ∃ m', namedCosts x m.cost.order m (fun _ => none) =
      some (fun j => if j = k then some ((P.slice (start bs k) (start bs k + size bs k)).f x) else none, m') := by
  obtain ⟨L, R, hLR, hkL, hkR⟩ := nodup_split hnd hk
  obtain ⟨e1, e2, -⟩ := (foldIdx_lookup bs hnd).1 k hk
  have hz : ∀ j ∈ names bs, j ≠ k → (foldIdx bs).getN (some j) = 0 := by
    intro j hj hne
    rw [getN_fold bs hnd j hj]
    by_contra h
    exact hne (hu j hj (Nat.pos_of_ne_zero h))
  have ho : m.cost.order = L ++ k :: R := by rw [hc, (foldIdx_basic bs).2.2, hLR]
  rw [ho, namedCosts_skip _ _ _ _ _ (by
    intro j hj
    rw [hc]
    exact hz j (by rw [hLR]; exact List.mem_append_left _ hj) fun h => hkL (h ▸ hj)), namedCosts]
  have hN : m.cost.getN (some k) = size bs k := by rw [hc, getN_fold bs hnd k hk]
  rw [if_neg (by omega), computeCost_block m P hP x k _ _ (by rw [hc]; exact e1) (by rw [hc]; exact e2) hN hpos
    (by rw [hnw]; exact start_size_le bs k hk)]
  simp only [Option.bind_eq_bind, Option.bind_some]
  have := namedCosts_skip x { m with params := some (P.slice (start bs k) (start bs k + size bs k)) }
    (Dict.set (fun _ => none) k ((P.slice (start bs k) (start bs k + size bs k)).f x)) R [] (by
      intro j hj
      change m.cost.getN (some j) = 0
      rw [hc]
      exact hz j (by rw [hLR]; exact List.mem_append_right _ (List.mem_cons_of_mem _ hj)) fun h => hkR (h ▸ hj))
  rw [List.append_nil] at this
  exact ⟨_, this.trans rfl⟩

theorem start_append_lt (bs : List (String × ℕ)) (hnd : (names bs).Nodup) (L R : List String) (a b : String) (h : names bs = L ++ a :: R) (hb : b ∈ R) :
    start bs a + size bs a ≤ start bs b := by
  obtain ⟨l1, l2, hbs, h1, h2⟩ := List.map_eq_append_iff.1 h
  obtain ⟨p, l3, hl2, hp, h3⟩ := List.map_eq_cons_iff.1 h2
  subst hl2
  subst hbs
  have haL : a ∉ names l1 := by
    intro hL
    rw [names, List.map_append] at hnd
    exact (List.disjoint_of_nodup_append hnd) hL (by simp [hp])
  have hbL : b ∉ names l1 := by
    intro hL
    rw [names, List.map_append] at hnd
    exact (List.disjoint_of_nodup_append hnd) hL (by rw [List.map_cons, h3]; exact List.mem_cons_of_mem _ hb)
  have hab : a ≠ b := by
    rintro rfl
    rw [h] at hnd
    exact (List.nodup_cons.1 (List.nodup_append.1 hnd).2.1).1 hb
  have tw : ∀ c : String, c ∉ names l1 → (l1 ++ p :: l3).takeWhile (fun q => decide (q.1 ≠ c)) = l1 ++ (p :: l3).takeWhile (fun q => decide (q.1 ≠ c)) := by
    intro c hcl
    rw [List.takeWhile_append_of_pos]
    intro q hq
    simp only [decide_eq_true_eq]
    rintro rfl
    exact hcl (List.mem_map.2 ⟨q, hq, rfl⟩)
  have sa : start (l1 ++ p :: l3) a = total l1 := by
    rw [start, tw a haL, List.takeWhile_cons_of_neg (by simp [hp]), List.append_nil]
  have za : size (l1 ++ p :: l3) a = p.2 := by
    have := size_of_mem (l1 ++ p :: l3) hnd p (by simp)
    rw [hp] at this
    exact this
  rw [sa, za, start, tw b hbL, List.takeWhile_cons_of_pos (by simpa [hp] using hab), total_append]
  simp [total]

/-- Two blocks with rows: the second evaluation raises. -/
theorem namedCosts_two (x : ℕ → ℝ) (bs : List (String × ℕ)) (hnd : (names bs).Nodup) (m : Model) (P : Params) (hP : m.params = some P) (hnw : P.nw = total bs)
    (hc : m.cost = foldIdx bs) (j k : String) (hj : j ∈ names bs) (hk : k ∈ names bs) (hjk : j ≠ k) (hjp : 0 < size bs j) (hkp : 0 < size bs k) :
    namedCosts x m.cost.order m (fun _ => none) = none := by
  -- the first block with rows
  have first : ∀ L : List String, (∃ a ∈ L, 0 < size bs a) → ∃ L1 a R, L = L1 ++ a :: R ∧ 0 < size bs a ∧ ∀ c ∈ L1, size bs c = 0 := by
    intro L
    induction L with
    | nil => intro h; simp at h
    | cons a L ih =>
      intro h
      by_cases h0 : 0 < size bs a
      · exact ⟨[], a, L, rfl, h0, fun c hc => by simp at hc⟩
      · obtain ⟨b, hb, hbp⟩ := h
        rcases List.mem_cons.1 hb with rfl | hb
        · exact absurd hbp h0
        · obtain ⟨L1, c, R, hL, hc, hz⟩ := ih ⟨b, hb, hbp⟩
          refine ⟨a :: L1, c, R, by rw [hL]; rfl, hc, fun d hd => ?_⟩
          rcases List.mem_cons.1 hd with rfl | hd
          · omega
          · exact hz d hd
  obtain ⟨L1, a, R, hL, hap, hz⟩ := first (names bs) ⟨j, hj, hjp⟩
  have ha : a ∈ names bs := by rw [hL]; simp
  obtain ⟨e1, e2, -⟩ := (foldIdx_lookup bs hnd).1 a ha
  have hsub : ∀ c ∈ R, c ∈ names bs := fun c hcR => by rw [hL]; exact List.mem_append_right _ (List.mem_cons_of_mem _ hcR)
  have ho : m.cost.order = L1 ++ a :: R := by rw [hc, (foldIdx_basic bs).2.2, hL]
  have hN : m.cost.getN (some a) = size bs a := by rw [hc, getN_fold bs hnd a ha]
  rw [ho, namedCosts_skip _ _ _ _ _ (by
    intro c hcL
    rw [hc, getN_fold bs hnd c (by rw [hL]; exact List.mem_append_left _ hcL)]
    exact hz c hcL), namedCosts, if_neg (by omega), computeCost_block m P hP x a _ _ (by rw [hc]; exact e1) (by rw [hc]; exact e2) hN hap
    (by rw [hnw]; exact start_size_le bs a ha)]
  simp only [Option.bind_eq_bind, Option.bind_some]
  refine namedCosts_fails x R _ (P.slice (start bs a) (start bs a + size bs a)) _ rfl ?_ ?_
  · intro c hcR hpos
    change 0 < m.cost.getN (some c) at hpos
    obtain ⟨-, f2, -⟩ := (foldIdx_lookup bs hnd).1 c (hsub c hcR)
    refine ⟨_, by rw [← hc] at f2; exact f2, ?_⟩
    rw [hc, getN_fold bs hnd c (hsub c hcR)] at hpos
    have := start_append_lt bs hnd L1 R a c hL hcR
    simp only [Params.slice, Nat.add_sub_cancel_left]
    omega
  · -- one of the two is after the first
    have hmem : ∀ c ∈ names bs, c ≠ a → 0 < size bs c → c ∈ R := by
      intro c hcn hne hcp
      rw [hL] at hcn
      rcases List.mem_append.1 hcn with h | h
      · have := hz c h; omega
      · rcases List.mem_cons.1 h with h | h
        · exact absurd h hne
        · exact h
    have hget : ∀ c ∈ R, 0 < size bs c → 0 < m.cost.getN (some c) := fun c hcR hp => by rw [hc, getN_fold bs hnd c (hsub c hcR)]; exact hp
    by_cases hja : j = a
    · have := hmem k hk (fun h => hjk (hja.trans h.symm)) hkp
      exact ⟨k, this, hget k this hkp⟩
    · have := hmem j hj hja hjp
      exact ⟨j, this, hget j this hjp⟩

end Verif.Opf
