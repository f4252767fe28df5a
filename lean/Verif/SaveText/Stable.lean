import Verif.SaveText.Props

/-!
# C115: saving and loading a loaded case again
-/

namespace Verif.SaveText

open CaseIO

theorem entry_toTable (a : Arr) (i j : ℕ) : entry a.toTable i j = (entry a.table i j).map Num.fin := by
  unfold entry Arr.toTable
  simp only [List.getElem?_map]
  cases a.table.rows[i]? with
  | none => rfl
  | some r => simp

theorem entry_of {R : Type} {t : Table R} {n : ℕ} (h : ∀ r ∈ t.rows, r.length = n) {i j : ℕ} (hi : i < t.rows.length) (hj : j < n) : ∃ x, entry t i j = some x := by
  have hl := h _ (List.getElem_mem hi)
  refine ⟨t.rows[i][j], ?_⟩
  rw [entry, List.getElem?_eq_getElem hi, Option.bind_some, List.getElem?_eq_getElem]

theorem entry_lt {R : Type} {t : Table R} {n : ℕ} (h : ∀ r ∈ t.rows, r.length = n) {i j : ℕ} {x : R} (hx : entry t i j = some x) : i < t.rows.length ∧ j < n := by
  obtain ⟨r, hi, hj⟩ := Option.bind_eq_some_iff.1 hx
  refine ⟨(List.getElem?_eq_some_iff.1 hi).1, ?_⟩
  have := (List.getElem?_eq_some_iff.1 hj).1
  rwa [h r (List.mem_of_getElem? hi)] at this

theorem rows_ext {R : Type} {t u : Table R} {n : ℕ} (ht : ∀ r ∈ t.rows, r.length = n) (hu : ∀ r ∈ u.rows, r.length = n) (hl : t.rows.length = u.rows.length)
    (h : ∀ i j, entry t i j = entry u i j) : t.rows = u.rows := by
  refine List.ext_getElem hl fun i h1 h2 => ?_
  refine List.ext_getElem ((ht _ (List.getElem_mem h1)).trans (hu _ (List.getElem_mem h2)).symm) fun j h3 h4 => ?_
  have := h i j
  rw [entry, entry, List.getElem?_eq_getElem h1, List.getElem?_eq_getElem h2, Option.bind_some, Option.bind_some, List.getElem?_eq_getElem h3, List.getElem?_eq_getElem h4] at this
  exact Option.some.inj this

section
variable {whole : List ℕ} {digits n : ℕ} {t : Table Num} {a b : Arr}

theorem same_toTable (h : SameTable whole digits n t a) (hne : t.rows ≠ []) : a.toTable.Rect ∧ a.toTable.cols = n ∧ AllFinite a.toTable ∧ a.toTable.rows ≠ [] := by
  refine ⟨?_, h.shape hne, ?_, ?_⟩
  · intro r hr
    obtain ⟨r', hr', rfl⟩ := List.mem_map.1 hr
    rw [List.length_map, h.width r' hr']
    exact (h.shape hne).symm
  · intro r hr x hx
    obtain ⟨r', hr', rfl⟩ := List.mem_map.1 hr
    obtain ⟨q, _, rfl⟩ := List.mem_map.1 hx
    exact ⟨q, rfl⟩
  · intro he
    have h1 := h.rows
    have h2 : a.toTable.rows.length = a.table.rows.length := by simp [Arr.toTable]
    rw [he, List.length_nil] at h2
    rw [← h2] at h1
    exact hne (List.length_eq_zero_iff.1 h1.symm)

theorem same_entries (h : SameTable whole digits n t a) (hr : t.Rect) (hc : n ≤ t.cols) (hf : AllFinite t) (h' : SameTable whole digits n a.toTable b) (i j : ℕ) :
    entry b.table i j = entry a.table i j := by
  have hlen : a.toTable.rows.length = a.table.rows.length := by simp [Arr.toTable]
  by_cases hij : i < a.table.rows.length ∧ j < n
  · obtain ⟨r, hr1⟩ := entry_of h.width hij.1 hij.2
    -- the number it came from
    obtain ⟨x, hx⟩ := entry_of (t := t) hr (i := i) (j := j) (by rw [← h.rows]; exact hij.1) (by omega)
    obtain ⟨row, hrow, hxr⟩ := Option.bind_eq_some_iff.1 hx
    obtain ⟨q, rfl⟩ := hf row (List.mem_of_getElem? hrow) x (List.mem_of_getElem? hxr)
    obtain ⟨r', h2, h3⟩ := h.kept i j q hij.2 hx
    have e : r' = r := by rw [hr1] at h2; exact (Option.some.inj h2).symm
    subst e
    obtain ⟨r'', h4, h5⟩ := h'.kept i j r' hij.2 (by rw [entry_toTable, hr1]; rfl)
    rw [h4, hr1]
    obtain ⟨k1, k2, k3⟩ := C115_kept h5
    unfold Kept at h3
    by_cases hw : j ∈ whole
    · rw [if_pos hw] at h3
      rw [k1 hw h3.1]
    · rw [if_neg hw] at h3
      by_cases hd : j < digits
      · rw [if_pos hd] at h3
        rw [(k2 hw hd).1 h3.1]
      · rw [if_neg hd] at h3
        rw [(k3 hw (by omega)).1 h3.1]
  · have n1 : entry a.table i j = none := by
      by_contra hne
      obtain ⟨x, hx⟩ := Option.ne_none_iff_exists'.1 hne
      exact hij (entry_lt h.width hx)
    have n2 : entry b.table i j = none := by
      by_contra hne
      obtain ⟨x, hx⟩ := Option.ne_none_iff_exists'.1 hne
      have := entry_lt h'.width hx
      rw [h'.rows, hlen] at this
      exact hij this
    rw [n1, n2]

theorem same_again (h : SameTable whole digits n t a) (hr : t.Rect) (hc : n ≤ t.cols) (hf : AllFinite t) (hne : t.rows ≠ []) (h' : SameTable whole digits n a.toTable b) :
    b = a := by
  have hlen : a.toTable.rows.length = a.table.rows.length := by simp [Arr.toTable]
  have hent := same_entries h hr hc hf h'
  have hrows := rows_ext h'.width h.width (by rw [h'.rows, hlen]) hent
  have hne' := (same_toTable h hne).2.2.2
  have hcols : b.table.cols = a.table.cols := (h'.shape hne').trans (h.shape hne).symm
  have helem : b.elem = .int ↔ a.elem = .int := by
    rw [h'.elem, h.elem]
    simp only [hent, hne, hne', ne_eq, not_false_eq_true, true_and]
  rcases a with ⟨ea, ca, ra⟩
  rcases b with ⟨eb, cb, rb⟩
  dsimp only at hrows hcols helem
  subst hrows hcols
  cases ea <;> cases eb <;> simp_all

end

theorem one_entry {x : Num} {a : Arr} (h : SameTable [] 1 1 ⟨1, [[x]]⟩ a) : ∃ e r, a = ⟨e, ⟨1, [[r]]⟩⟩ := by
  rcases a with ⟨e, cols, rows⟩
  have h1 := h.rows
  have h2 := h.shape (by simp)
  have h3 := h.width
  dsimp only at h1 h2 h3
  obtain ⟨r, rfl⟩ := List.length_eq_one_iff.1 h1
  obtain ⟨v, rfl⟩ := List.length_eq_one_iff.1 (h3 r (by simp))
  subst h2
  exact ⟨e, v, rfl⟩

theorem one_table (q : ℚ) : Table.Rect (⟨1, [[Num.fin q]]⟩ : Table Num) ∧ AllFinite ⟨1, [[.fin q]]⟩ := by
  constructor
  · intro r hr
    rw [List.mem_singleton.1 hr]
    rfl
  · intro r hr x hx
    rw [List.mem_singleton.1 hr] at hx
    exact ⟨q, List.mem_singleton.1 hx⟩

/-- A vector of user variables saved again. -/
theorem vec_again {z : Option (List Num)} {a : Option Arr} (h : SameVec z a) (hz : ∀ l, z = some l → l.length ≤ 1) (hf : ∀ l, z = some l → ∀ x ∈ l, ∃ q : ℚ, x = .fin q) :
    (∀ l, (a.map fun a => a.toTable.rows.flatten) = some l → l.length ≤ 1) ∧
    (∀ l, (a.map fun a => a.toTable.rows.flatten) = some l → ∀ x ∈ l, ∃ q : ℚ, x = .fin q) ∧
    ∀ b, SameVec (a.map fun a => a.toTable.rows.flatten) b → b = a := by
  rcases z with _ | ⟨_ | ⟨x, _ | ⟨y, l⟩⟩⟩
  · have h : a = none := h
    subst h
    exact ⟨by simp, by simp, fun b h' => h'⟩
  · have h : a = none := h
    subst h
    exact ⟨by simp, by simp, fun b h' => h'⟩
  · obtain ⟨q, rfl⟩ := hf _ rfl x List.mem_cons_self
    obtain ⟨a', rfl, h1⟩ := h
    obtain ⟨e, r, rfl⟩ := one_entry h1
    refine ⟨fun l hl => ?_, fun l hl x hx => ?_, ?_⟩
    · rw [← Option.some.inj hl]
      simp [Arr.toTable]
    · rw [← Option.some.inj hl] at hx
      exact ⟨r, by simpa [Arr.toTable] using hx⟩
    · intro b h'
      obtain ⟨b', rfl, h2⟩ : ∃ b', b = some b' ∧ SameTable [] 1 1 ⟨1, [[.fin r]]⟩ b' := h'
      rw [same_again h1 (one_table q).1 (le_refl _) (one_table q).2 (by simp) h2]
  · have := hz _ rfl
    simp at this

/-- A table that may be absent, saved again. -/
theorem opt_again {whole : List ℕ} {digits cols : Table Num → ℕ} {t : Option (Table Num)} {a b : Option Arr} (h : SameOpt whole digits cols t a)
    (hr : ∀ u, t = some u → u.Rect) (hc : ∀ u, t = some u → cols u ≤ u.cols) (hf : ∀ u, t = some u → AllFinite u)
    (hsame : ∀ u a', t = some u → a = some a' → digits a'.toTable = digits u ∧ cols a'.toTable = cols u)
    (h' : SameOpt whole digits cols (a.map Arr.toTable) b) : b = a := by
  cases t with
  | none =>
    have h : a = none := h
    subst h
    exact h'
  | some u =>
    unfold SameOpt at h
    dsimp only at h
    by_cases hne : u.rows = []
    · rw [if_pos hne] at h
      subst h
      exact h'
    · rw [if_neg hne] at h
      obtain ⟨a', rfl, h1⟩ := h
      unfold SameOpt at h'
      simp only [Option.map_some] at h'
      rw [if_neg (same_toTable h1 hne).2.2.2] at h'
      obtain ⟨b', rfl, h2⟩ := h'
      obtain ⟨e1, e2⟩ := hsame u a' rfl rfl
      rw [e1, e2] at h2
      rw [same_again h1 (hr u rfl) (hc u rfl) (hf u rfl) hne h2]

/-- Saving and loading the loaded case again, under any usable name, gives the same case: nothing is lost a second time.  The tables of buses and branches have rows: a table
without rows is read as an array of no columns. -/
theorem C115_stable (fs fs₂ : Files) (root root₂ : List Char) (c : SaveCase) (comment comment₂ : List (List Char)) (hn : GoodName root) (hn₂ : GoodName root₂)
    (hcom : ∀ l ∈ comment, '\n' ∉ l) (hcom₂ : ∀ l ∈ comment₂, '\n' ∉ l) (hs : Shaped c) (hf : Finite c) (hbus : c.bus.rows ≠ []) (hbranch : c.branch.rows ≠ []) :
    ∃ fs' l fs'', savecase fs root c comment = some (root ++ ".py".toList, fs') ∧ loadcase fs' (root ++ ".py".toList) = some l ∧
      savecase fs₂ root₂ l.toCase comment₂ = some (root₂ ++ ".py".toList, fs'') ∧ loadcase fs'' (root₂ ++ ".py".toList) = some l := by
  obtain ⟨fs', l, h1, _, _, h4, _, h6⟩ := C115_partial fs root c comment hn hcom hs hf
  obtain ⟨b1, b2, b3, b4⟩ := same_toTable h6.bus hbus
  obtain ⟨g1, g2, g3, g4⟩ := same_toTable h6.gen hs.genRows
  obtain ⟨r1, r2, r3, r4⟩ := same_toTable h6.branch hbranch
  obtain ⟨z1, z2, z3⟩ := vec_again h6.z0 hs.z0 hf.z0
  obtain ⟨y1, y2, y3⟩ := vec_again h6.zu hs.zu hf.zu
  have hb := hs.bus
  have hg := hs.gen
  obtain ⟨hr, hr', hr''⟩ := hs.branch
  have eb : busCols (busCols c.bus.cols) = busCols c.bus.cols := by unfold busCols; split <;> simp
  have eg : genCols (genCols c.gen.cols) = genCols c.gen.cols := by unfold genCols; split <;> simp
  have er : branchCols (branchCols c.branch.cols) = branchCols c.branch.cols := by
    unfold branchCols
    split
    · simp
    · split <;> simp
  -- the optional tables
  have hareas : ∀ u, l.toCase.areas = some u → u.Rect ∧ u.cols = 2 ∧ AllFinite u := by
    intro u hu
    obtain ⟨a, ha, rfl⟩ := Option.map_eq_some_iff.1 (show l.areas.map Arr.toTable = some u from hu)
    have h := h6.areas
    rw [ha] at h
    unfold SameOpt at h
    cases hc : c.areas with
    | none => rw [hc] at h; simp at h
    | some t =>
      rw [hc] at h
      dsimp only at h
      by_cases hne : t.rows = []
      · rw [if_pos hne] at h
        simp at h
      · rw [if_neg hne] at h
        obtain ⟨a', ha', h⟩ := h
        rw [← Option.some.inj ha'] at h
        obtain ⟨k1, k2, k3, _⟩ := same_toTable h hne
        exact ⟨k1, k2, k3⟩
  have hcost : ∀ a, l.gencost = some a → ∃ t, c.gencost = some t ∧ t.rows ≠ [] ∧ SameTable [0, 3] t.cols t.cols t a := by
    intro a ha
    have h := h6.gencost
    rw [ha] at h
    unfold SameOpt at h
    cases hc : c.gencost with
    | none => rw [hc] at h; simp at h
    | some t =>
      rw [hc] at h
      dsimp only at h
      by_cases hne : t.rows = []
      · rw [if_pos hne] at h
        simp at h
      · rw [if_neg hne] at h
        obtain ⟨a', ha', h⟩ := h
        rw [← Option.some.inj ha'] at h
        exact ⟨t, rfl, hne, h⟩
  have hgc : ∀ u, l.toCase.gencost = some u → (u.Rect ∧ (u.rows ≠ [] → CostShape u)) ∧ AllFinite u := by
    intro u hu
    obtain ⟨a, ha, rfl⟩ := Option.map_eq_some_iff.1 (show l.gencost.map Arr.toTable = some u from hu)
    obtain ⟨t, ht, hne, hsame⟩ := hcost a ha
    obtain ⟨k1, k2, k3, _⟩ := same_toTable hsame hne
    refine ⟨⟨k1, fun _ => ?_⟩, k3⟩
    obtain ⟨trect, tshape⟩ := hs.gencost t ht
    obtain ⟨s1, s2⟩ := tshape hne
    have hcols : 4 ≤ t.cols := by
      obtain ⟨r, hr, k, _, h⟩ := s2
      rcases h with ⟨_, h⟩ | ⟨_, h⟩ <;> omega
    -- a whole number in a column of whole numbers is read as it is
    have hkeep : ∀ (i j : ℕ) (z : ℤ), (j = 0 ∨ j = 3) → entry t i j = some (.fin z) → entry a.toTable i j = some (.fin z) := by
      intro i j z hj hz
      obtain ⟨v, hv, hk⟩ := hsame.kept i j z (by rcases hj with rfl | rfl <;> omega) hz
      rw [entry_toTable, hv]
      have := (C115_kept hk).1 (by rcases hj with rfl | rfl <;> simp) ⟨z, rfl⟩
      rw [this]
      rfl
    have hrow : ∀ (i : ℕ) (r : List Num) (r' : List Num), t.rows[i]? = some r → a.toTable.rows[i]? = some r' → ∀ (j : ℕ) (z : ℤ), (j = 0 ∨ j = 3) →
        r[j]? = some (.fin z) → r'[j]? = some (.fin z) := by
      intro i r r' hi hi' j z hj hz
      have := hkeep i j z hj (by rw [entry, hi]; exact hz)
      rw [entry, hi'] at this
      exact this
    have hlen : a.toTable.rows.length = t.rows.length := by rw [← hsame.rows]; simp [Arr.toTable]
    refine ⟨fun r' hr' => ?_, ?_⟩
    · obtain ⟨i, hi'⟩ := List.getElem?_of_mem hr'
      have hi : i < t.rows.length := by rw [← hlen]; exact (List.getElem?_eq_some_iff.1 hi').1
      obtain ⟨k, hk, hm⟩ := s1 _ (List.getElem_mem hi)
      have hg := hrow i _ r' (List.getElem?_eq_getElem hi) hi'
      refine ⟨k, by simpa using hg 3 k (Or.inr rfl) (by simpa using hk), ?_⟩
      rw [k2]
      rcases hm with ⟨hm, h⟩ | ⟨hm, h⟩
      · exact Or.inl ⟨by simpa using hg 0 1 (Or.inl rfl) (by simpa using hm), h⟩
      · exact Or.inr ⟨by simpa using hg 0 2 (Or.inl rfl) (by simpa using hm), h⟩
    · obtain ⟨r, hr, k, hk, hm⟩ := s2
      obtain ⟨i, hi⟩ := List.getElem?_of_mem hr
      have hi' : i < a.toTable.rows.length := by rw [hlen]; exact (List.getElem?_eq_some_iff.1 hi).1
      have hg := hrow i r _ hi (List.getElem?_eq_getElem hi')
      refine ⟨_, List.getElem_mem hi', k, by simpa using hg 3 k (Or.inr rfl) (by simpa using hk), ?_⟩
      rw [k2]
      rcases hm with ⟨hm, h⟩ | ⟨hm, h⟩
      · exact Or.inl ⟨by simpa using hg 0 1 (Or.inl rfl) (by simpa using hm), h⟩
      · exact Or.inr ⟨by simpa using hg 0 2 (Or.inl rfl) (by simpa using hm), h⟩
  have hzl : l.toCase.zl = none := by
    show l.zl.map _ = none
    rw [h6.zl]
    rfl
  have hs' : Shaped l.toCase := by
    refine ⟨b1, g1, r1, ?_, ?_, g4, ?_, fun u hu => ?_, fun u hu => (hgc u hu).1, Or.inl rfl, Or.inl rfl, z1, y1, ?_⟩
    · show 13 ≤ l.bus.toTable.cols
      rw [b2]
      unfold busCols
      split <;> omega
    · show 21 ≤ l.gen.toTable.cols
      rw [g2]
      unfold genCols
      split <;> omega
    · show 13 ≤ l.branch.toTable.cols ∧ l.branch.toTable.cols ≠ 19 ∧ l.branch.toTable.cols ≠ 20
      rw [r2]
      unfold branchCols
      split
      · omega
      · split <;> omega
    · obtain ⟨k1, k2, _⟩ := hareas u hu
      exact ⟨k1, k2.ge⟩
    · intro z hz
      rw [hzl] at hz
      simp at hz
  have hf' : Finite l.toCase := ⟨⟨_, rfl⟩, b3, g3, r3, fun u hu => (hareas u hu).2.2, fun u hu => (hgc u hu).2, z2, y2⟩
  obtain ⟨fs'', l', k1, _, _, k4, _, k6⟩ := C115_partial fs₂ root₂ l.toCase comment₂ hn₂ hcom₂ hs' hf'
  refine ⟨fs', l, fs'', h1, h4, k1, ?_⟩
  rw [k4]
  have q0 : l'.base = l.base := by
    obtain ⟨b, hbase⟩ := hf.base
    have := (k6.base l.base rfl).2 l.base (h6.base b hbase).1
    rw [sub_self, abs_zero] at this
    exact sub_eq_zero.1 (abs_nonpos_iff.1 this)
  have qb : l'.bus = l.bus := by
    have := k6.bus
    rw [show l.toCase.bus.cols = busCols c.bus.cols from b2, eb] at this
    exact same_again h6.bus hs.busRect (by unfold busCols; split <;> omega) hf.bus hbus this
  have qg : l'.gen = l.gen := by
    have := k6.gen
    rw [show l.toCase.gen.cols = genCols c.gen.cols from g2, eg] at this
    exact same_again h6.gen hs.genRect (by unfold genCols; split <;> omega) hf.gen hs.genRows this
  have qr : l'.branch = l.branch := by
    have := k6.branch
    rw [show l.toCase.branch.cols = branchCols c.branch.cols from r2, er] at this
    refine same_again h6.branch hs.branchRect ?_ hf.branch hbranch this
    unfold branchCols
    split
    · omega
    · split <;> omega
  have qa : l'.areas = l.areas := opt_again h6.areas (fun u hu => (hs.areas u hu).1) (fun u hu => (hs.areas u hu).2) hf.areas (fun _ _ _ _ => ⟨rfl, rfl⟩) k6.areas
  have qc : l'.gencost = l.gencost := by
    refine opt_again h6.gencost (fun u hu => (hs.gencost u hu).1) (fun u _ => le_refl _) hf.gencost (fun u a' hu ha' => ?_) k6.gencost
    obtain ⟨t, ht, hne, hsame⟩ := hcost a' ha'
    have e : t = u := by rw [hu] at ht; exact (Option.some.inj ht).symm
    subst e
    have := (same_toTable hsame hne).2.1
    exact ⟨this, this⟩
  have qz := z3 _ k6.z0
  have qy := y3 _ k6.zu
  have ql : l'.zl = l.zl := k6.zl.trans h6.zl.symm
  rcases l with ⟨⟩
  rcases l' with ⟨⟩
  dsimp only at q0 qb qg qr qa qc qz qy ql
  subst q0 qb qg qr qa qc qz qy ql
  rfl

/-- A generator table without multiplier columns whose numbers are whole and below 10⁹ comes back as a table of integers, even when it was one of floats: a power flow that
stores its results in it then drops their fractions (C113). -/
theorem C115_integer {c : SaveCase} {l : Loaded} (hs : Shaped c) (hf : Finite c) (h : SameCase c l) (hc : c.gen.cols < 25)
    (hw : ∀ (i j : ℕ) (x : ℚ), j < 21 → entry c.gen i j = some (.fin x) → (∃ z : ℤ, x = z) ∧ |x| < 10 ^ 9) : l.gen.elem = .int := by
  have hg := hs.gen
  have e : genCols c.gen.cols = 21 := by unfold genCols; rw [if_pos hc]
  have hgen := h.gen
  rw [e] at hgen
  rw [hgen.elem]
  refine ⟨hs.genRows, le_refl _, fun i j r hj hr => ?_⟩
  obtain ⟨h1, h2⟩ := entry_lt hgen.width hr
  obtain ⟨x, hx⟩ := entry_of (t := c.gen) hs.genRect (i := i) (j := j) (by rw [← hgen.rows]; exact h1) (by omega)
  obtain ⟨row, hrow, hxr⟩ := Option.bind_eq_some_iff.1 hx
  obtain ⟨q, rfl⟩ := hf.gen row (List.mem_of_getElem? hrow) x (List.mem_of_getElem? hxr)
  obtain ⟨⟨z, rfl⟩, hz⟩ := hw i j q h2 hx
  obtain ⟨r', h3, h4⟩ := hgen.kept i j z h2 hx
  have e : r' = r := by rw [hr] at h3; exact (Option.some.inj h3).symm
  subst e
  have hsig : Sig9 (z : ℚ) := ⟨z, 0, by exact_mod_cast hz, by simp⟩
  rw [((C115_kept h4).2.1 hj (by omega)).1 hsig]
  exact ⟨⟨z, rfl⟩, hz⟩

end Verif.SaveText
