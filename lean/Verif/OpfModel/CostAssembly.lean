import Verif.OpfModel.Assembly

/-! # Lemmas about assembling cost parameters -/

namespace Verif.OpfModel

theorem costBlocks_names (h : List Op) : names (costBlocks h) = names (costBlks h) := by simp [names, costBlocks]

theorem optSlice_none (f : Nat → ℝ) (a b : Nat) : optSlice f a b none = some f := rfl

theorem costStep_spec {h : List Op} {m : Model} (r : Rep h m) (hv : (names (varBlocks h)).Nodup) (hl : (names (costBlks h)).Nodup)
    (b : String × CostBlk) (hb : b ∈ costBlks h) (hf : CostFits (varBlocks h) b.2)
    (hopt : m.dd b.1 = none ∧ m.rh b.1 = none ∧ m.kk b.1 = none ∧ m.mm b.1 = none) (P : Params)
    (hN : ∀ i j, start (costBlocks h) b.1 ≤ i → i < start (costBlocks h) b.1 + b.2.cp.N.rows → P.N i j = 0)
    (hH : ∀ i j, start (costBlocks h) b.1 ≤ i → i < start (costBlocks h) b.1 + b.2.cp.N.rows → P.H i j = 0) :
    ∃ P', m.costStep P b.1 = some P' ∧ P'.nw = P.nw ∧ P'.nx = P.nx ∧ P'.dd = P.dd ∧ P'.rh = P.rh ∧ P'.kk = P.kk ∧ P'.mm = P.mm ∧
      (∀ i, i < b.2.cp.N.rows → CostRowOK (varBlocks h) P' (start (costBlocks h) b.1) b.2 i) ∧
      (∀ i j, start (costBlocks h) b.1 ≤ i → i < start (costBlocks h) b.1 + b.2.cp.N.rows →
        ¬ (start (costBlocks h) b.1 ≤ j ∧ j < start (costBlocks h) b.1 + b.2.cp.N.rows) → P'.H i j = 0) ∧
      (∀ k, ¬ (start (costBlocks h) b.1 ≤ k ∧ k < start (costBlocks h) b.1 + b.2.cp.N.rows) →
        (∀ j, P'.N k j = P.N k j) ∧ (∀ j, P'.H k j = P.H k j) ∧ P'.Cw k = P.Cw k) := by
  have hmem : b.1 ∈ names (costBlocks h) := by rw [costBlocks_names]; exact List.mem_map.2 ⟨b, hb, rfl⟩
  have hnd : (names (costBlocks h)).Nodup := (costBlocks_names h).symm ▸ hl
  obtain ⟨l1, l2, l3⟩ := (foldIdx_lookup (costBlocks h) hnd).1 b.1 hmem
  have hsz : size (costBlocks h) b.1 = b.2.cp.N.rows := size_of_mem _ hnd (b.1, b.2.cp.N.rows) (List.mem_map.2 ⟨b, hb, rfl⟩)
  rw [hsz] at l2 l3
  set s := start (costBlocks h) b.1 with hs
  by_cases hn : b.2.cp.N.rows = 0
  · refine ⟨P, ?_, rfl, rfl, rfl, rfl, rfl, rfl, ?_, ?_, ?_⟩
    · rw [hn] at l3
      simp [Model.costStep, r.cost, l1, l2, l3, r.cN, foldDict_mem _ _ hl b hb]
    · intro i hi; omega
    · intro i j h1 h2; omega
    · intro k _; exact ⟨fun _ => rfl, fun _ => rfl, rfl⟩
  · obtain ⟨F, f1, f2, f3⟩ := fillCols_spec (varBlocks h) hv b.2.cp.N s (s + b.2.cp.N.rows) (eff (varBlocks h) b.2.vs) 0 P.N
      (by unfold eff; split
          · exact hv
          · exact hf.nodup)
      (by intro v hvv
          unfold eff at hvv
          split at hvv
          · exact hvv
          · exact r.costEx b hb v hvv)
      (by rw [← hf.cols]; omega) (by intro i h1 h2 v _ j _ _; exact hN i j h1 h2)
    obtain ⟨C, a1, a2, a3⟩ := setSlice_spec P.Cw s b.2.cp.N.rows b.2.cp.Cw (r.costLen b hb).1
    refine ⟨⟨P.nw, P.nx, F, C, optH P.H s (s + b.2.cp.N.rows) b.2.cp.H, P.dd, P.rh, P.kk, P.mm⟩, ?_, rfl, rfl, rfl, rfl, rfl, rfl, ?_, ?_, ?_⟩
    · simp only [Model.costStep, r.cost, l1, l2, l3, Option.bind_eq_bind, Option.bind_some, hn, if_false, r.cN, r.cCw, r.costVs, r.cH,
        foldDict_mem _ _ hl b hb, foldDictOpt_mem _ _ hl b hb, resolve_eq r, a1, hopt, optSlice_none]
      rw [r.var, f1]
      rfl
    · intro i hi
      refine ⟨?_, a2 i hi, ?_⟩
      · intro x
        have := f3 (s + i) (by omega) (by omega) x
        simp only [Nat.add_sub_cancel_left, Nat.zero_add] at this
        rw [this, rowDot, hf.cols, Finset.sum_eq_zero, zero_add]
        intro j _
        rw [hN (s + i) j (by omega) (by omega), zero_mul]
      · intro k hk
        cases hHb : b.2.cp.H with
        | none => simp only [optH]; rw [hH _ _ (by omega) (by omega)]; rfl
        | some H =>
          simp only [optH, Nat.le_add_right, Nat.add_lt_add_iff_left, hi, hk, and_self, if_true, Nat.add_sub_cancel_left]
          rfl
    · intro i j h1 h2 h3
      cases hHb : b.2.cp.H with
      | none => simp only [optH]; exact hH i j h1 h2
      | some H => simp only [optH, h3, and_false, if_false]; exact hH i j h1 h2
    · intro k hk
      refine ⟨fun j => f2 k j hk, fun j => ?_, a3 k hk⟩
      cases hHb : b.2.cp.H with
      | none => rfl
      | some H => simp only [optH, hk, false_and, if_false]

/-- Two different blocks of a history do not share rows. -/
theorem cost_rows_disjoint {h : List Op} (hl : (names (costBlks h)).Nodup) (b c : String × CostBlk) (hb : b ∈ costBlks h) (hc : c ∈ costBlks h)
    (hne : b.1 ≠ c.1) : start (costBlocks h) b.1 + b.2.cp.N.rows ≤ start (costBlocks h) c.1 ∨
      start (costBlocks h) c.1 + c.2.cp.N.rows ≤ start (costBlocks h) b.1 := by
  have hnd : (names (costBlocks h)).Nodup := (costBlocks_names h).symm ▸ hl
  have hdis := blocks_disjoint (costBlocks h) b.1 c.1 (by rw [costBlocks_names]; exact List.mem_map.2 ⟨b, hb, rfl⟩)
    (by rw [costBlocks_names]; exact List.mem_map.2 ⟨c, hc, rfl⟩) hne
  rwa [size_of_mem _ hnd (b.1, b.2.cp.N.rows) (List.mem_map.2 ⟨b, hb, rfl⟩),
    size_of_mem _ hnd (c.1, c.2.cp.N.rows) (List.mem_map.2 ⟨c, hc, rfl⟩)] at hdis

theorem costFold_spec {h : List Op} {m : Model} (r : Rep h m) (hv : (names (varBlocks h)).Nodup) (hl : (names (costBlks h)).Nodup)
    (hf : ∀ b ∈ costBlks h, CostFits (varBlocks h) b.2)
    (hopt : ∀ b ∈ costBlks h, m.dd b.1 = none ∧ m.rh b.1 = none ∧ m.kk b.1 = none ∧ m.mm b.1 = none) :
    ∀ (todo done : List (String × CostBlk)) (P : Params), done ++ todo = costBlks h →
      (∀ b ∈ done, ∀ i, i < b.2.cp.N.rows → CostRowOK (varBlocks h) P (start (costBlocks h) b.1) b.2 i) →
      (∀ b ∈ done, ∀ i j, start (costBlocks h) b.1 ≤ i → i < start (costBlocks h) b.1 + b.2.cp.N.rows →
        ¬ (start (costBlocks h) b.1 ≤ j ∧ j < start (costBlocks h) b.1 + b.2.cp.N.rows) → P.H i j = 0) →
      (∀ b ∈ todo, ∀ i j, start (costBlocks h) b.1 ≤ i → i < start (costBlocks h) b.1 + b.2.cp.N.rows → P.N i j = 0 ∧ P.H i j = 0) →
      ∃ P', (names todo).foldlM m.costStep P = some P' ∧ P'.nw = P.nw ∧ P'.nx = P.nx ∧ P'.dd = P.dd ∧ P'.rh = P.rh ∧ P'.kk = P.kk ∧ P'.mm = P.mm ∧
        (∀ b ∈ costBlks h, ∀ i, i < b.2.cp.N.rows → CostRowOK (varBlocks h) P' (start (costBlocks h) b.1) b.2 i) ∧
        (∀ b ∈ costBlks h, ∀ i j, start (costBlocks h) b.1 ≤ i → i < start (costBlocks h) b.1 + b.2.cp.N.rows →
          ¬ (start (costBlocks h) b.1 ≤ j ∧ j < start (costBlocks h) b.1 + b.2.cp.N.rows) → P'.H i j = 0) := by
  intro todo
  induction todo with
  | nil =>
    intro done P hd hok hoff _
    rw [List.append_nil] at hd
    subst hd
    exact ⟨P, rfl, rfl, rfl, rfl, rfl, rfl, rfl, hok, hoff⟩
  | cons c todo ih =>
    intro done P hd hok hoff hz
    have hc : c ∈ costBlks h := by rw [← hd]; simp
    have hnd2 := hl
    rw [← hd] at hnd2
    simp only [names, List.map_append, List.map_cons] at hnd2
    rw [List.nodup_append, List.nodup_cons] at hnd2
    obtain ⟨P1, s1, n1, n2, n3, n4, n5, n6, s2, s3, s4⟩ := costStep_spec r hv hl c hc (hf c hc) (hopt c hc) P
      (fun i j h1 h2 => (hz c (by simp) i j h1 h2).1) (fun i j h1 h2 => (hz c (by simp) i j h1 h2).2)
    obtain ⟨P', t1, o1, o2, o3, o4, o5, o6, t2, t3⟩ := ih (done ++ [c]) P1 (by rw [← hd]; simp) (by
      intro b hb i hi
      rcases List.mem_append.1 hb with hb | hb
      · have hbl : b ∈ costBlks h := by rw [← hd]; simp [hb]
        have hne : b.1 ≠ c.1 := hnd2.2.2 _ (List.mem_map.2 ⟨b, hb, rfl⟩) _ (by simp)
        have hdis := cost_rows_disjoint hl b c hbl hc hne
        obtain ⟨u1, u2, u3⟩ := s4 (start (costBlocks h) b.1 + i) (by omega)
        have := hok b hb i hi
        exact ⟨fun x => by simp only [u1]; exact this.N x, by rw [u3]; exact this.Cw, fun k hk => by rw [u2]; exact this.H k hk⟩
      · simp only [List.mem_singleton] at hb; subst hb; exact s2 i hi) (by
      intro b hb i j h1 h2 h3
      rcases List.mem_append.1 hb with hb | hb
      · have hbl : b ∈ costBlks h := by rw [← hd]; simp [hb]
        have hne : b.1 ≠ c.1 := hnd2.2.2 _ (List.mem_map.2 ⟨b, hb, rfl⟩) _ (by simp)
        have hdis := cost_rows_disjoint hl b c hbl hc hne
        rw [(s4 i (by omega)).2.1]
        exact hoff b hb i j h1 h2 h3
      · simp only [List.mem_singleton] at hb; subst hb; exact s3 i j h1 h2 h3) (by
      intro b hb i j h1 h2
      have hbl : b ∈ costBlks h := by rw [← hd]; simp [hb]
      have hne : b.1 ≠ c.1 := by
        intro he; exact hnd2.2.1.1 (he ▸ List.mem_map.2 ⟨b, hb, rfl⟩)
      have hdis := cost_rows_disjoint hl b c hbl hc hne
      obtain ⟨u1, u2, _⟩ := s4 i (by omega)
      rw [u1, u2]; exact hz b (by simp [hb]) i j h1 h2)
    refine ⟨P', ?_, o1.trans n1, o2.trans n2, o3.trans n3, o4.trans n4, o5.trans n5, o6.trans n6, t2, t3⟩
    simp only [names, List.map_cons, List.foldlM_cons, s1, Option.bind_eq_bind, Option.bind_some]
    exact t1

end Verif.OpfModel
