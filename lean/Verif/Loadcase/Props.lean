import Verif.Loadcase.Lemmas

/-!
# C116: what `loadcase` returns, and what it says when it cannot
-/

namespace Verif.Loadcase

open CaseIO

/-! ### Ownership -/

theorem finish_own (e : Bool) (h : Heap) (s : ℕ) (asObj eg ea : Bool) {h' : Heap} {res : Exc Result} (hf : finish e h s asObj eg ea = (h', res)) :
    (∀ i < h.length, h'[i]? = h[i]?) ∧ (∀ p x, res = .ok (.obj p) → Reach h' p x → h.length ≤ x) ∧
      ∀ ps, res = .ok (.list ps) → ∀ p ∈ ps, ∀ x, Reach h' p x → h.length ≤ x := by
  unfold finish at hf
  split at hf
  · cases hf; exact ⟨fun _ _ => rfl, fun _ _ hr => (by cases hr), fun _ hr => (by cases hr)⟩
  · cases hf
    refine ⟨fun _ _ => rfl, fun p x hr => ?_, fun _ hr => ?_⟩ <;> cases e <;> cases hr
  · obtain ⟨c1, c2, c3⟩ := convert_sep (deepcopy_sep h s) (n := h.length) (p := (deepcopy h s).2) (by rw [deepcopy_length]; omega) (Nat.le_add_left _ _)
    have hold : ∀ i < h.length, (convert (deepcopy h s).1 (deepcopy h s).2).1[i]? = h[i]? := fun i hi => (c3 i hi).trans (deepcopy_old hi)
    split at hf
    · rename_i h2 x hx
      rw [hx] at hold
      cases hf
      exact ⟨hold, fun _ _ hr => (by cases hr), fun _ hr => (by cases hr)⟩
    · rename_i h2 hx
      rw [hx] at hold c1
      cases hf
      have hp : h.length ≤ (deepcopy h s).2 := Nat.le_add_left _ _
      refine ⟨hold, fun p x hr hx => ?_, fun ps hr p hps x hx => ?_⟩
      · unfold output at hr
        cases asObj
        · cases hq : fields h' (deepcopy h s).2 (listed eg ea) with
          | error y => rw [hq] at hr; cases hr
          | ok rs => rw [hq] at hr; cases hr
        · cases hr
          exact c1.reach hp hx
      · unfold output at hr
        cases asObj
        · cases hq : fields h' (deepcopy h s).2 (listed eg ea) with
          | error y => rw [hq] at hr; cases hr
          | ok rs =>
            rw [hq] at hr
            cases hr
            obtain ⟨k, -, hk⟩ := fields_reach hq p hps
            exact c1.reach hp (Reach.step hk hx)
        · cases hr

/-- **C116 (ownership).**  Loading a dictionary changes no object of the caller, whether it succeeds or raises, and nothing the caller had can be reached from what is returned. -/
theorem C116_own (w : World) (h : Heap) (r : ℕ) (asObj eg ea : Bool) {h' : Heap} {res : Exc Result} (hl : loadcase w h (.dict r) asObj eg ea = (h', res)) :
    (∀ i < h.length, h'[i]? = h[i]?) ∧ (∀ p x, res = .ok (.obj p) → Reach h' p x → h.length ≤ x) ∧
      ∀ ps, res = .ok (.list ps) → ∀ p ∈ ps, ∀ x, Reach h' p x → h.length ≤ x := by
  obtain ⟨f1, f2, f3⟩ := finish_own _ _ _ _ _ _ (hl : finish false (deepcopy h r).1 (deepcopy h r).2 asObj (!asObj && eg) (!asObj && ea) = (h', res))
  have hle : h.length ≤ (deepcopy h r).1.length := by rw [deepcopy_length]; omega
  exact ⟨fun i hi => (f1 i (by omega)).trans (deepcopy_old hi), fun p x hr hx => hle.trans (f2 p x hr hx), fun ps hr p hp x hx => hle.trans (f3 ps hr p hp x hx)⟩

/-- The same of a file whose function returns a dictionary that the file keeps: nothing of it is handed out. -/
theorem C116_file_own (w : World) (h : Heap) (name : List Char) (f : PyFile) (hf : w.py (name ++ ".py".toList) = some f) (hn : hasExt name = true) {r : ℕ}
    (he : f.exec h = (h, .ok ())) (hc : f.call h = (h, .ok (.dict r))) {h' : Heap} {p x : ℕ}
    (hl : loadcase w h (.str (name ++ ".py".toList)) = (h', .ok (.obj p))) (hx : Reach h' p x) : h.length ≤ x := by
  have hres : resolve w (name ++ ".py".toList) = some (name, .py) := by
    unfold resolve
    rw [if_pos (List.suffix_append _ _)]
    have : (name ++ ".py".toList).take ((name ++ ".py".toList).length - 3) = name := by simp
    rw [this]
    dsimp only
    rw [if_pos hn]
  have hread : readArg w h (.str (name ++ ".py".toList)) true false = (h, .ok (.case r)) := by
    unfold readArg
    dsimp only
    rw [hres]
    dsimp only
    rw [hf]
    unfold readPy readPy4
    dsimp only
    rw [he]
    dsimp only
    rw [hc]
  unfold loadcase at hl
  rw [show (!true && true) = false from rfl, hread] at hl
  exact (finish_own _ _ _ _ _ _ hl).2.1 p x rfl hx

/-! ### Contents -/

/-- Two copies in a row. -/
theorem twice_get (h : Heap) (r i : ℕ) : (deepcopy (deepcopy h r).1 (deepcopy h r).2).1[i + 3 * h.length]? = (h[i]?).map (Obj.shift (3 * h.length)) := by
  have e : i + 3 * h.length = i + h.length + (deepcopy h r).1.length := by rw [deepcopy_length]; omega
  rw [e, deepcopy_get, deepcopy_get, Option.map_map]
  congr 1
  funext o
  show (o.shift _).shift _ = _
  rw [shift_shift, deepcopy_length]
  congr 1
  omega

theorem twice_ref (h : Heap) (r : ℕ) : (deepcopy (deepcopy h r).1 (deepcopy h r).2).2 = r + 3 * h.length := by
  show r + h.length + (deepcopy h r).1.length = _
  rw [deepcopy_length]; omega

theorem copy_field {h H : Heap} {N a : ℕ} {d : List (String × ℕ)} (hd : entries h a = some d) (hH : H[a + N]? = (h[a]?).map (Obj.shift N)) (k : String) :
    field H (a + N) k = (field h a k).map (· + N) := by
  rw [entries_iff.1 hd] at hH
  have : entries H (a + N) = some (d.map fun p => (p.1, p.2 + N)) := entries_iff.2 hH
  unfold field
  rw [this, hd]
  exact lookup_shift N d k

theorem copy_value {h H : Heap} {N a : ℕ} (hH : H[a + N]? = (h[a]?).map (Obj.shift N)) : value H (a + N) = value h a := by
  unfold value
  rw [hH]
  cases h[a]? with
  | none => rfl
  | some o => cases o <;> rfl

/-- The tables the caller needs are there. -/
structure HasTables (h : Heap) (r : ℕ) (g b : Table ℚ) : Prop where
  good : Good h r
  base : ∃ x, field h r "baseMVA" = some x ∧ value h x ≠ some .none
  bus : ∃ x, field h r "bus" = some x ∧ value h x ≠ some .none
  gen : fieldVal h r "gen" = some (.tab g)
  branch : fieldVal h r "branch" = some (.tab b)

/-- The end of `loadcase` on a complete case. -/
theorem load_core (w : World) {h : Heap} {r : ℕ} {g b : Table ℚ} (ht : HasTables h r g b) :
    ∃ h', loadcase w h (.dict r) = (h', .ok (.obj (r + 3 * h.length))) ∧ Good h' (r + 3 * h.length) ∧
      fieldVal h' (r + 3 * h.length) "version" = some (.str "2") ∧
      fieldVal h' (r + 3 * h.length) "gen" = some (.tab (loadTables (-360) 360 none g b).1) ∧
      fieldVal h' (r + 3 * h.length) "branch" = some (.tab (loadTables (-360) 360 none g b).2) ∧
      (∀ k, k ≠ "version" → k ≠ "gen" → k ≠ "branch" → field h' (r + 3 * h.length) k = (field h r k).map (· + 3 * h.length)) ∧
      (∀ (i : ℕ) (o : Obj), i ≠ r → h[i]? = some o → h'[i + 3 * h.length]? = some (o.shift (3 * h.length))) := by
  obtain ⟨d, hd, hv⟩ := ht.good
  have hr : r < h.length := (List.getElem?_eq_some_iff.1 (entries_iff.1 hd)).1
  -- the first copy
  have f1 : ∀ k, field (deepcopy h r).1 (deepcopy h r).2 k = (field h r k).map (· + h.length) := fun k => copy_field hd (deepcopy_get r) k
  have v1 : ∀ x, value (deepcopy h r).1 (x + h.length) = value h x := fun x => copy_value (deepcopy_get x)
  have hmiss : missing (deepcopy h r).1 (deepcopy h r).2 (required false false) = .ok false := by
    apply missing_ok
    have key : ∀ k x, field h r k = some x → value h x ≠ some .none →
        ∃ y, field (deepcopy h r).1 (deepcopy h r).2 k = some y ∧ value (deepcopy h r).1 y ≠ some .none := by
      intro k x hx hne
      exact ⟨x + h.length, by rw [f1, hx]; rfl, by rw [v1]; exact hne⟩
    intro k hk
    simp only [required, List.mem_append, List.mem_cons, List.not_mem_nil, or_false, Bool.false_eq_true, if_false] at hk
    rcases hk with rfl | rfl | rfl | rfl
    · obtain ⟨x, hx, hne⟩ := ht.base; exact key _ x hx hne
    · obtain ⟨x, hx, hne⟩ := ht.bus; exact key _ x hx hne
    · obtain ⟨x, hx, hx'⟩ := Option.bind_eq_some_iff.1 ht.gen; exact key _ x hx (by rw [hx']; simp)
    · obtain ⟨x, hx, hx'⟩ := Option.bind_eq_some_iff.1 ht.branch; exact key _ x hx (by rw [hx']; simp)
  -- the second copy
  have f2 : ∀ k, field (deepcopy (deepcopy h r).1 (deepcopy h r).2).1 (r + 3 * h.length) k = (field h r k).map (· + 3 * h.length) :=
    fun k => copy_field hd (twice_get h r r) k
  have fv : ∀ k, fieldVal (deepcopy (deepcopy h r).1 (deepcopy h r).2).1 (r + 3 * h.length) k = fieldVal h r k := by
    intro k
    unfold fieldVal
    rw [f2]
    cases field h r k with
    | none => rfl
    | some x => exact copy_value (twice_get h r x)
  have hgood : Good (deepcopy (deepcopy h r).1 (deepcopy h r).2).1 (r + 3 * h.length) := by
    refine ⟨d.map fun p => (p.1, p.2 + 3 * h.length), entries_iff.2 ?_, ?_⟩
    · rw [twice_get, entries_iff.1 hd]; rfl
    · intro q hq
      obtain ⟨q', hq', rfl⟩ := List.mem_map.1 hq
      have := hv q' hq'
      rw [deepcopy_length, deepcopy_length]
      show q'.2 + 3 * h.length < _
      omega
  obtain ⟨c1, c2, c3, c4, c5, c6, c7⟩ := convert_spec hgood ((fv _).trans ht.gen) ((fv _).trans ht.branch)
  refine ⟨_, ?_, c7, c2, c3, c4, fun k k1 k2 k3 => (c5 k k1 k2 k3).trans (f2 k), fun i o hi ho => ?_⟩
  · have e : loadcase w h (.dict r) = finish false (deepcopy h r).1 (deepcopy h r).2 true false false := rfl
    rw [e]
    unfold finish
    rw [hmiss]
    dsimp only
    rw [twice_ref]
    have : convert (deepcopy (deepcopy h r).1 (deepcopy h r).2).1 (r + 3 * h.length) = ((convert (deepcopy (deepcopy h r).1 (deepcopy h r).2).1 (r + 3 * h.length)).1, .ok ()) := by
      rw [← c1]
    rw [this]
    rfl
  · have hlt : i < h.length := (List.getElem?_eq_some_iff.1 ho).1
    rw [c6 _ (by omega) (by rw [deepcopy_length, deepcopy_length]; omega), twice_get, ho]
    rfl

/-- **C116 (contents).**  A dictionary with the required tables is loaded: the result has the same entries with equal contents, however nested, except that the generator and
branch tables are those of version 2 (C49) and the version is `'2'`, whatever the dictionary said. -/
theorem C116_case (w : World) {h : Heap} {r : ℕ} {g b : Table ℚ} (hv : Valid h) (ht : HasTables h r g b) (hn : NotNested h r) :
    ∃ h' p, loadcase w h (.dict r) = (h', .ok (.obj p)) ∧
      fieldVal h' p "version" = some (.str "2") ∧
      fieldVal h' p "gen" = some (.tab (loadTables (-360) 360 none g b).1) ∧ fieldVal h' p "branch" = some (.tab (loadTables (-360) 360 none g b).2) ∧
      ∀ k, k ≠ "version" → k ≠ "gen" → k ≠ "branch" →
        (field h r k = none ∧ field h' p k = none) ∨ ∃ x x', field h r k = some x ∧ field h' p k = some x' ∧ DeepEq h h' x x' := by
  obtain ⟨h', hl, -, c2, c3, c4, c5, c6⟩ := load_core w ht
  refine ⟨h', _, hl, c2, c3, c4, fun k k1 k2 k3 => ?_⟩
  rw [c5 k k1 k2 k3]
  cases hk : field h r k with
  | none => exact Or.inl ⟨rfl, rfl⟩
  | some x =>
    refine Or.inr ⟨x, x + 3 * h.length, rfl, rfl, fun n => eq_copy hv c6 n x ?_ (hn k x hk)⟩
    obtain ⟨d, hd, hx⟩ := Option.bind_eq_some_iff.1 hk
    exact hv r d (entries_iff.1 hd) _ (mem_of_lookup hx)

/-- A generator table of at least ten columns (up to `PMIN`) is not converted a second time. -/
theorem loadTables_again (g b : Table ℚ) (hg : 10 ≤ g.cols) :
    loadTables (-360) 360 none (loadTables (-360) 360 none g b).1 (loadTables (-360) 360 none g b).2 = loadTables (-360) 360 none g b := by
  unfold loadTables ppc1to2
  by_cases c1 : g.cols < 21
  · rw [if_pos c1]
    by_cases c2 : 20 ≤ g.cols
    · rw [if_pos c2, if_pos c1, if_pos c2]
    · rw [if_neg c2]
      have : ¬ (gen1to2 g).cols < 21 := by
        unfold gen1to2
        split_ifs with c3
        · show ¬ (min g.cols 10 + 11 + (min g.cols 13 - 10) < 21); omega
        · show ¬ (min g.cols 10 + 11 < 21); omega
      rw [if_neg this]
  · rw [if_neg c1, if_neg c1]

/-- **C116 (again).**  Loading what was loaded gives the same values under every key. -/
theorem C116_again (w : World) {h : Heap} {r : ℕ} {g b : Table ℚ} (ht : HasTables h r g b) (hg : 10 ≤ g.cols) :
    ∃ h' p h'' p', loadcase w h (.dict r) = (h', .ok (.obj p)) ∧ loadcase w h' (.dict p) = (h'', .ok (.obj p')) ∧ ∀ k, fieldVal h'' p' k = fieldVal h' p k := by
  obtain ⟨h', hl, c1, c2, c3, c4, c5, c6⟩ := load_core w ht
  have other : ∀ k, k ≠ "version" → k ≠ "gen" → k ≠ "branch" → ∀ x, field h r k = some x → value h x ≠ some .none →
      ∃ y, field h' (r + 3 * h.length) k = some y ∧ value h' y ≠ some .none := by
    intro k k1 k2 k3 x hx hne
    refine ⟨x + 3 * h.length, by rw [c5 k k1 k2 k3, hx]; rfl, ?_⟩
    by_cases hxr : x = r
    · subst hxr
      obtain ⟨d, hd, -⟩ := c1
      unfold value
      rw [entries_iff.1 hd]
      simp
    · obtain ⟨d, hd, hv⟩ := ht.good
      have hlt : x < h.length := by
        unfold field at hx
        rw [hd] at hx
        exact hv _ (mem_of_lookup hx)
      have ho : h[x]? = some h[x] := List.getElem?_eq_getElem hlt
      rw [copy_value (h := h) (by rw [c6 x _ hxr ho, ho]; rfl)]
      exact hne
  have ht' : HasTables h' (r + 3 * h.length) (loadTables (-360) 360 none g b).1 (loadTables (-360) 360 none g b).2 := by
    obtain ⟨x, hx, hne⟩ := ht.base
    obtain ⟨y, hy, hne'⟩ := ht.bus
    exact ⟨c1, other _ (by decide) (by decide) (by decide) x hx hne, other _ (by decide) (by decide) (by decide) y hy hne', c3, c4⟩
  obtain ⟨h'', hl', e1, e2, e3, e4, e5, e6⟩ := load_core w ht'
  refine ⟨h', _, h'', _, hl, hl', fun k => ?_⟩
  by_cases k1 : k = "version"
  · rw [k1, e2, c2]
  by_cases k2 : k = "gen"
  · rw [k2, e3, c3, loadTables_again g b hg]
  by_cases k3 : k = "branch"
  · rw [k3, e4, c4, loadTables_again g b hg]
  unfold fieldVal
  rw [e5 k k1 k2 k3]
  cases hk : field h' (r + 3 * h.length) k with
  | none => rfl
  | some x =>
    show value h'' (x + 3 * h'.length) = value h' x
    by_cases hxr : x = r + 3 * h.length
    · subst hxr
      obtain ⟨d, hd, -⟩ := c1
      obtain ⟨d', hd', -⟩ := e1
      unfold value
      rw [entries_iff.1 hd, entries_iff.1 hd']
    · obtain ⟨d, hd, hv⟩ := c1
      have hlt : x < h'.length := by
        unfold field at hk
        rw [hd] at hk
        exact hv _ (mem_of_lookup hk)
      have ho : h'[x]? = some h'[x] := List.getElem?_eq_getElem hlt
      exact copy_value (h := h') (by rw [e6 x _ hxr ho, ho]; rfl)

end Verif.Loadcase
