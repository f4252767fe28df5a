import Verif.OpfModel.Lemmas

/-! # Lemmas about assembling linear constraints and cost parameters -/

namespace Verif.OpfModel

theorem blocks_disjoint (bs : List (String × Nat)) (v w : String) (hv : v ∈ names bs) (hw : w ∈ names bs) (hvw : v ≠ w) :
    start bs v + size bs v ≤ start bs w ∨ start bs w + size bs w ≤ start bs v := by
  induction bs using List.reverseRecOn with
  | nil => simp [names] at hv
  | append_singleton bs b ih =>
    by_cases h1 : v ∈ names bs <;> by_cases h2 : w ∈ names bs
    · rw [start_append_of_mem _ _ _ h1, size_append_of_mem _ _ _ h1, start_append_of_mem _ _ _ h2, size_append_of_mem _ _ _ h2]
      exact ih h1 h2
    · left
      rw [start_append_of_mem _ _ _ h1, size_append_of_mem _ _ _ h1, start_append_of_not_mem _ _ _ h2]
      have := start_size_le bs v h1; omega
    · right
      rw [start_append_of_mem _ _ _ h2, size_append_of_mem _ _ _ h2, start_append_of_not_mem _ _ _ h1]
      have := start_size_le bs w h2; omega
    · have e1 : v = b.1 := by simp [names] at hv h1; grind
      have e2 : w = b.1 := by simp [names] at hw h2; grind
      exact absurd (e1.trans e2.symm) hvw

theorem setBlock_spec (F : Nat → Nat → ℝ) (r0 rN j1 n k nx : Nat) (Ak : Mat) (hc : k + n ≤ Ak.cols) (hj : j1 + n ≤ nx) :
    ∃ F', setBlock F r0 rN j1 (j1 + n) Ak k (k + n) = some F' ∧
      (∀ i j, ¬ ((r0 ≤ i ∧ i < rN) ∧ (j1 ≤ j ∧ j < j1 + n)) → F' i j = F i j) ∧
      (∀ i, r0 ≤ i → i < rN → (∀ j, j1 ≤ j → j < j1 + n → F i j = 0) → ∀ x : Nat → ℝ,
        ∑ j ∈ Finset.range nx, F' i j * x j = ∑ j ∈ Finset.range nx, F i j * x j + ∑ t ∈ Finset.range n, Ak.val (i - r0) (k + t) * x (j1 + t)) := by
  refine ⟨_, by rw [setBlock, if_pos (by omega)], ?_, ?_⟩
  · intro i j h; exact if_neg h
  · intro i h1 h2 hz x
    have e : ∀ j ∈ Finset.range nx, (if (r0 ≤ i ∧ i < rN) ∧ (j1 ≤ j ∧ j < j1 + n) then Ak.val (i - r0) (k + (j - j1)) else F i j) * x j =
        F i j * x j + if j1 ≤ j ∧ j < j1 + n then Ak.val (i - r0) (k + (j - j1)) * x j else 0 := by
      intro j _
      by_cases hj : j1 ≤ j ∧ j < j1 + n
      · rw [if_pos ⟨⟨h1, h2⟩, hj⟩, if_pos hj, hz j hj.1 hj.2]; ring
      · rw [if_neg (fun h => hj h.2), if_neg hj]; ring
    rw [Finset.sum_congr rfl e, Finset.sum_add_distrib]
    congr 1
    rw [← Finset.sum_filter]
    have : (Finset.range nx).filter (fun j => j1 ≤ j ∧ j < j1 + n) = Finset.Ico j1 (j1 + n) := by
      ext j; simp; omega
    rw [this, Finset.sum_Ico_eq_sum_range]
    simp

theorem subvec_length (bs : List (String × Nat)) (x : Nat → ℝ) (vs : List String) : (subvec bs x vs).length = widthOf bs vs := by
  simp [subvec, widthOf, List.length_flatMap, part]

theorem fillCols_spec (bs : List (String × Nat)) (hnd : (names bs).Nodup) (Ak : Mat) (r0 rN : Nat) (vs : List String) :
    ∀ (k : Nat) (F : Nat → Nat → ℝ), vs.Nodup → (∀ v ∈ vs, v ∈ names bs) → k + widthOf bs vs ≤ Ak.cols →
      (∀ i, r0 ≤ i → i < rN → ∀ v ∈ vs, ∀ j, start bs v ≤ j → j < start bs v + size bs v → F i j = 0) →
      ∃ F', fillCols (foldIdx bs) Ak r0 rN vs k F = some F' ∧
        (∀ i j, ¬ (r0 ≤ i ∧ i < rN) → F' i j = F i j) ∧
        (∀ i, r0 ≤ i → i < rN → ∀ x : Nat → ℝ, ∑ j ∈ Finset.range (total bs), F' i j * x j =
          ∑ j ∈ Finset.range (total bs), F i j * x j + ∑ t ∈ Finset.range (widthOf bs vs), Ak.val (i - r0) (k + t) * (subvec bs x vs).getD t 0) := by
  induction vs with
  | nil => intro k F _ _ _ _; exact ⟨F, rfl, fun _ _ _ => rfl, fun i _ _ x => by simp [widthOf]⟩
  | cons v vs ih =>
    intro k F hvs hmem hw hz
    have hv := hmem v (by simp)
    obtain ⟨l1, l2, l3⟩ := (foldIdx_lookup bs hnd).1 v hv
    have hwc : widthOf bs (v :: vs) = size bs v + widthOf bs vs := by simp [widthOf]
    rw [hwc] at hw
    obtain ⟨F1, s1, s2, s3⟩ := setBlock_spec F r0 rN (start bs v) (size bs v) k (total bs) Ak (by omega) (start_size_le bs v hv)
    obtain ⟨hvn, hvs'⟩ := List.nodup_cons.1 hvs
    obtain ⟨F2, t1, t2, t3⟩ := ih (k + size bs v) F1 hvs' (fun w hw => hmem w (by simp [hw])) (by omega) (by
      intro i h1 h2 w hw j hj1 hj2
      rw [s2 i j]
      · exact hz i h1 h2 w (by simp [hw]) j hj1 hj2
      · rintro ⟨_, h3, h4⟩
        have hne : v ≠ w := by rintro rfl; exact hvn hw
        rcases blocks_disjoint bs v w hv (hmem w (by simp [hw])) hne with h | h <;> omega)
    refine ⟨F2, ?_, ?_, ?_⟩
    · simp only [fillCols, l1, l2, l3, Option.bind_eq_bind, Option.bind_some, s1, t1]
    · intro i j h; rw [t2 i j h, s2 i j (fun h' => h h'.1)]
    · intro i h1 h2 x
      rw [t3 i h1 h2 x, s3 i h1 h2 (hz i h1 h2 v (by simp)) x, hwc, Finset.sum_range_add, add_assoc]
      congr 1
      have hp : (part bs x v).length = size bs v := by simp [part]
      congr 1
      · apply Finset.sum_congr rfl
        intro t ht
        have ht' : t < size bs v := Finset.mem_range.1 ht
        have : (subvec bs x (v :: vs)).getD t 0 = x (start bs v + t) := by
          simp only [subvec, List.flatMap_cons]
          rw [List.getD_eq_getElem?_getD, List.getElem?_append_left (by rw [hp]; exact ht')]
          simp [part, ht']
        rw [this]
      · apply Finset.sum_congr rfl
        intro t _
        have : (subvec bs x (v :: vs)).getD (size bs v + t) 0 = (subvec bs x vs).getD t 0 := by
          simp only [subvec, List.flatMap_cons]
          rw [List.getD_eq_getElem?_getD, List.getElem?_append_right (by rw [hp]; omega), hp, Nat.add_sub_cancel_left]
          simp
        rw [this, add_assoc]


theorem setSlice_spec {α : Type} (f : Nat → α) (i1 n : Nat) (v : List α) (hv : v.length = n) :
    ∃ f', setSlice f i1 (i1 + n) v = some f' ∧ (∀ i, i < n → v[i]? = some (f' (i1 + i))) ∧ (∀ i, ¬ (i1 ≤ i ∧ i < i1 + n) → f' i = f i) := by
  refine ⟨_, by rw [setSlice, if_pos (by omega)], ?_, ?_⟩
  · intro i hi
    simp only [Nat.le_add_right, Nat.add_lt_add_iff_left, hi, and_self, if_true, Nat.add_sub_cancel_left]
    rw [List.getElem?_eq_getElem (by omega)]; rfl
  · intro i h; exact if_neg h

theorem size_of_mem (bs : List (String × Nat)) (hnd : (names bs).Nodup) (d : String × Nat) (hd : d ∈ bs) : size bs d.1 = d.2 := by
  unfold size
  have : bs.find? (fun b => decide (b.1 = d.1)) = some d := by
    cases hfnd : bs.find? (fun b => decide (b.1 = d.1)) with
    | none => rw [List.find?_eq_none] at hfnd; exact absurd (by simp) (hfnd _ hd)
    | some e =>
      have he1 := List.find?_some hfnd
      have he2 := List.mem_of_find?_eq_some hfnd
      rw [List.inj_on_of_nodup_map hnd he2 hd (by simpa using he1)]
  rw [this]; rfl

theorem resolve_eq {h : List Op} {m : Model} (r : Rep h m) (vs : List String) : m.resolve (storeVs vs) = eff (varBlocks h) vs := by
  unfold storeVs eff
  split
  · rw [Model.resolve, r.var, (foldIdx_basic _).2.2]
  · rfl

theorem orDefault_length (n : Nat) (d : EReal) (l : List EReal) (h : l = [] ∨ l.length = n) : (orDefault n d (some l)).length = n := by
  cases l with
  | nil => simp [orDefault]
  | cons a as => rcases h with h | h <;> simp_all [orDefault]

theorem orDefault_getElem (n : Nat) (d : EReal) (l : List EReal) (h : l = [] ∨ l.length = n) (i : Nat) (hi : i < n) (y : EReal)
    (hy : (orDefault n d (some l))[i]? = some y) : y = if l = [] then d else l.getD i d := by
  cases l with
  | nil => simp [orDefault, hi] at hy; simp [hy]
  | cons a as =>
    rw [orDefault] at hy
    rw [if_neg (by simp), List.getD_eq_getElem?_getD, hy]; rfl

theorem linStep_spec {h : List Op} {m : Model} (r : Rep h m) (hv : (names (varBlocks h)).Nodup) (hl : (names (linBlks h)).Nodup)
    (b : String × LinBlk) (hb : b ∈ linBlks h) (hf : LinFits (varBlocks h) b.2) (acc : LinAcc) :
    ∃ acc', m.linStep acc b.1 = some acc' ∧
      (∀ i, i < b.2.A.rows → RowOK (varBlocks h) acc' (start (linBlocks h) b.1 + i) b.2 i) ∧
      (∀ k, ¬ (start (linBlocks h) b.1 ≤ k ∧ k < start (linBlocks h) b.1 + b.2.A.rows) →
        (∀ j, acc'.A k j = acc.A k j) ∧ acc'.l k = acc.l k ∧ acc'.u k = acc.u k) := by
  have hnames : names (linBlocks h) = names (linBlks h) := by simp [names, linBlocks]
  have hmem : b.1 ∈ names (linBlocks h) := by rw [hnames]; exact List.mem_map.2 ⟨b, hb, rfl⟩
  obtain ⟨l1, l2, l3⟩ := (foldIdx_lookup (linBlocks h) (hnames ▸ hl)).1 b.1 hmem
  have hsz : size (linBlocks h) b.1 = b.2.A.rows := by
    exact size_of_mem _ (hnames ▸ hl) (b.1, b.2.A.rows) (List.mem_map.2 ⟨b, hb, rfl⟩)
  rw [hsz] at l2 l3
  by_cases hn : b.2.A.rows = 0
  · refine ⟨acc, ?_, ?_, ?_⟩
    · rw [hn] at l3
      simp [Model.linStep, r.lin, l3]
    · intro i hi; omega
    · intro k _; exact ⟨fun _ => rfl, rfl, rfl⟩
  · obtain ⟨F, f1, f2, f3⟩ := fillCols_spec (varBlocks h) hv b.2.A 0 b.2.A.rows (eff (varBlocks h) b.2.vs) 0 (fun _ _ => 0)
      (by unfold eff; split
          · exact hv
          · exact hf.nodup)
      (by intro v hvv
          unfold eff at hvv
          split at hvv
          · exact hvv
          · exact r.linEx b hb v hvv)
      (by rw [← hf.cols]; omega) (by intros; rfl)
    obtain ⟨l', a1, a2, a3⟩ := setSlice_spec acc.l (start (linBlocks h) b.1) b.2.A.rows (orDefault b.2.A.rows ⊥ (some b.2.l))
      (orDefault_length _ _ _ hf.l)
    obtain ⟨u', b1, b2, b3⟩ := setSlice_spec acc.u (start (linBlocks h) b.1) b.2.A.rows (orDefault b.2.A.rows ⊤ (some b.2.u))
      (orDefault_length _ _ _ hf.u)
    refine ⟨⟨fun i j => if start (linBlocks h) b.1 ≤ i ∧ i < start (linBlocks h) b.1 + b.2.A.rows then F (i - start (linBlocks h) b.1) j else acc.A i j,
      l', u'⟩, ?_, ?_, ?_⟩
    · simp only [Model.linStep, r.lin, l3, Option.bind_eq_bind, Option.bind_some, hn, if_false, r.A, r.l, r.u, r.linVs,
        foldDict_mem _ _ hl b hb, l1, l2, resolve_eq r, a1, b1]
      rw [r.var, f1]
      rfl
    · intro i hi
      refine ⟨?_, ?_, ?_⟩
      · intro x
        have := f3 i (by omega) hi x
        simp only [Nat.le_add_right, Nat.add_lt_add_iff_left, hi, and_self, if_true, Nat.add_sub_cancel_left]
        rw [this, rowDot, hf.cols]
        simp
      · exact orDefault_getElem _ _ _ hf.l i hi _ (a2 i hi)
      · exact orDefault_getElem _ _ _ hf.u i hi _ (b2 i hi)
    · intro k hk
      refine ⟨fun j => ?_, a3 k hk, b3 k hk⟩
      simp only [hk, if_false]

theorem linFold_spec {h : List Op} {m : Model} (r : Rep h m) (hv : (names (varBlocks h)).Nodup) (hl : (names (linBlks h)).Nodup)
    (hf : ∀ b ∈ linBlks h, LinFits (varBlocks h) b.2) :
    ∀ (todo done : List (String × LinBlk)) (acc : LinAcc), done ++ todo = linBlks h →
      (∀ b ∈ done, ∀ i, i < b.2.A.rows → RowOK (varBlocks h) acc (start (linBlocks h) b.1 + i) b.2 i) →
      ∃ acc', (names todo).foldlM m.linStep acc = some acc' ∧
        ∀ b ∈ linBlks h, ∀ i, i < b.2.A.rows → RowOK (varBlocks h) acc' (start (linBlocks h) b.1 + i) b.2 i := by
  intro todo
  induction todo with
  | nil => intro done acc hd hok; exact ⟨acc, rfl, by rw [← hd]; simpa using hok⟩
  | cons c todo ih =>
    intro done acc hd hok
    have hc : c ∈ linBlks h := by rw [← hd]; simp
    obtain ⟨acc1, s1, s2, s3⟩ := linStep_spec r hv hl c hc (hf c hc) acc
    obtain ⟨acc', t1, t2⟩ := ih (done ++ [c]) acc1 (by rw [← hd]; simp) (by
      intro b hb i hi
      rcases List.mem_append.1 hb with hb | hb
      · have hbl : b ∈ linBlks h := by rw [← hd]; simp [hb]
        have hne : b.1 ≠ c.1 := by
          rw [← hd] at hl
          simp only [names, List.map_append, List.map_cons] at hl
          rw [List.nodup_append] at hl
          exact hl.2.2 _ (List.mem_map.2 ⟨b, hb, rfl⟩) _ (by simp)
        have hnames : names (linBlocks h) = names (linBlks h) := by simp [names, linBlocks]
        have hsz : ∀ d ∈ linBlks h, size (linBlocks h) d.1 = d.2.A.rows := by
          intro d hd'
          exact size_of_mem _ (hnames ▸ hl) (d.1, d.2.A.rows) (List.mem_map.2 ⟨d, hd', rfl⟩)
        have hdis := blocks_disjoint (linBlocks h) b.1 c.1 (by rw [hnames]; exact List.mem_map.2 ⟨b, hbl, rfl⟩)
          (by rw [hnames]; exact List.mem_map.2 ⟨c, hc, rfl⟩) hne
        rw [hsz b hbl, hsz c hc] at hdis
        obtain ⟨u1, u2, u3⟩ := s3 (start (linBlocks h) b.1 + i) (by omega)
        have := hok b hb i hi
        exact ⟨fun x => by simp only [u1]; exact this.A x, by rw [u2]; exact this.l, by rw [u3]; exact this.u⟩
      · simp only [List.mem_singleton] at hb; subst hb; exact s2 i hi)
    refine ⟨acc', ?_, t2⟩
    simp only [names, List.map_cons, List.foldlM_cons, s1, Option.bind_eq_bind, Option.bind_some]
    exact t1

end Verif.OpfModel
