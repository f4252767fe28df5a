import Verif.SaveMat.Round

/-!
# C118: what comes back from a MAT file
-/

namespace Verif.SaveMat

open CaseIO Loadcase

/-- `p` in memory `h3` is what `loadcase` returns, at some later time, for the file that `savecase` wrote of the case `r` in memory `h`. -/
structure Reloaded (h : Heap) (r : ℕ) (h1 h3 : Heap) (p : ℕ) where
  f : MatFile
  w : World
  h2 : Heap
  name : List Char
  root : List Char
  saved : savecase h r = (h1, .ok f)
  named : resolve w name = some (root, .mat)
  there : w.mat (root ++ ".mat".toList) = some f
  loaded : loadcase w h2 (.str name) = (h3, .ok (.obj p))

theorem Reloaded.round {h h1 h3 : Heap} {r p : ℕ} (hl : Reloaded h r h1 h3 p) {x : ℚ} {bus g b : Table ℚ} (hc : Complete h r x bus g b) :
    Good h3 p ∧ fieldVal h3 p "version" = some (.str "2") ∧ fieldVal h3 p "baseMVA" = some (.vec [x]) ∧ fieldVal h3 p "bus" = some (.tab bus) ∧
      fieldVal h3 p "gen" = some (.tab (loadTables (-360) 360 none g b).1) ∧ fieldVal h3 p "branch" = some (.tab (loadTables (-360) 360 none g b).2) ∧
      (∀ k, k ∉ ["version", "baseMVA", "gen", "branch"] → Written h1 r k →
        ∃ y o v, field h1 r k = some y ∧ h1[y]? = some o ∧ toMat o = .ok v ∧ fieldVal h3 p k = some v) ∧
      ∀ k, ¬ Written h1 r k → k ∉ extras.map (·.1) → field h3 p k = none := by
  obtain ⟨h3', p', e, rest⟩ := SaveMat.round hc hl.saved hl.w hl.name hl.root hl.named hl.there hl.h2
  rw [hl.loaded] at e
  cases e
  exact rest

theorem Reloaded.heap {h h1 h3 : Heap} {r p : ℕ} (hl : Reloaded h r h1 h3 p) : h1 = store h r "version" (.str "2") := (save_spec hl.saved).1

/-- The test of a value depends on the value. -/
theorem filled_tab {h : Heap} {r : ℕ} {k : String} {t : Table ℚ} (hv : fieldVal h r k = some (.tab t)) : filled h r k = .ok (!t.rows.isEmpty) := by
  obtain ⟨y, hy, hy'⟩ := Option.bind_eq_some_iff.1 hv
  unfold filled
  rw [hy]; dsimp only
  rw [value_iff.1 hy']

theorem filled_vec {h : Heap} {r : ℕ} {k : String} {xs : List ℚ} (hv : fieldVal h r k = some (.vec xs)) : filled h r k = .ok (!xs.isEmpty) := by
  obtain ⟨y, hy, hy'⟩ := Option.bind_eq_some_iff.1 hv
  unfold filled
  rw [hy]; dsimp only
  rw [value_iff.1 hy']

theorem field_of_val {h : Heap} {r : ℕ} {k : String} {v : Val} (hv : fieldVal h r k = some v) : (field h r k).isSome := by
  obtain ⟨y, hy, -⟩ := Option.bind_eq_some_iff.1 hv
  rw [hy]; rfl

/-- A written value comes back as the file has it. -/
theorem Reloaded.val {h h1 h3 : Heap} {r p : ℕ} (hl : Reloaded h r h1 h3 p) {x : ℚ} {bus g b : Table ℚ} (hc : Complete h r x bus g b) {k : String} {v m : Val}
    (hk : k ∉ ["version", "baseMVA", "gen", "branch"]) (hv : fieldVal h1 r k = some v) (hw : Written h1 r k) (hm : toMat (.leaf v) = .ok m) : fieldVal h3 p k = some m := by
  obtain ⟨-, -, -, -, -, -, c, -⟩ := hl.round hc
  obtain ⟨y, o, u, a1, a2, a3, a4⟩ := c k hk hw
  rw [toMat_leaf hv a1 a2, hm] at a3
  cases a3
  exact a4

theorem Reloaded.same {h h1 h3 : Heap} {r p : ℕ} (hl : Reloaded h r h1 h3 p) {x : ℚ} {bus g b : Table ℚ} (hc : Complete h r x bus g b) {k : String} (hk : k ≠ "version") :
    fieldVal h1 r k = fieldVal h r k := by
  rw [hl.heap, good_fieldVal hc.good, if_neg hk]

/-- **C118, partial.**  A complete case that was saved to a MAT file comes back with the same bus table, areas, costs and user constraint matrix; generator and branch tables are
those that loading the case itself gives; the base is an array of the same one number.  Missing for the full statement: vectors change their shape (`C118_vectors`), other keys
are lost (`C118_lost`), and solved cases cannot be used (`C118_order`). -/
theorem C118_case_partial {h h1 h3 : Heap} {r p : ℕ} (hl : Reloaded h r h1 h3 p) {x : ℚ} {bus g b : Table ℚ} (hc : Complete h r x bus g b) :
    fieldVal h3 p "baseMVA" = some (.vec [x]) ∧ fieldVal h3 p "bus" = some (.tab bus) ∧
      fieldVal h3 p "gen" = some (.tab (loadTables (-360) 360 none g b).1) ∧ fieldVal h3 p "branch" = some (.tab (loadTables (-360) 360 none g b).2) ∧
      fieldVal h3 p "version" = some (.str "2") ∧
      (∀ k ∈ ["areas", "gencost"], ∀ t, fieldVal h r k = some (.tab t) → fieldVal h3 p k = some (.tab t)) ∧
      (∀ k ∈ ["areas", "gencost"], field h r k = none → field h3 p k = none) ∧
      ∀ t, t.rows ≠ [] → fieldVal h r "A" = some (.tab t) → fieldVal h3 p "A" = some (.tab t) := by
  obtain ⟨-, c1, c2, c3, c4, c5, c6, c7⟩ := hl.round hc
  refine ⟨c2, c3, c4, c5, c1, fun k hk t ht => ?_, fun k hk hf => ?_, fun t ht hA => ?_⟩
  · have k1 : k ∉ ["version", "baseMVA", "gen", "branch"] := (by decide : ∀ j ∈ ["areas", "gencost"], j ∉ ["version", "baseMVA", "gen", "branch"]) k hk
    have hv : fieldVal h1 r k = some (.tab t) := (hl.same hc (by rintro rfl; exact k1 (by decide))).trans ht
    refine hl.val hc k1 hv (Or.inr (Or.inl ⟨?_, field_of_val hv⟩)) rfl
    exact (by decide : ∀ j ∈ ["areas", "gencost"], j ∈ ["areas", "gencost", "userfcn", "x", "f", "lin", "order", "nln", "var", "raw", "mu"]) k hk
  · have hf1 : field h1 r k = none := by
      rw [hl.heap, good_field hc.good (by rintro rfl; revert hk; decide), hf]
    refine c7 k ?_ ((by decide : ∀ j ∈ ["areas", "gencost"], j ∉ extras.map (·.1)) k hk)
    rintro (hw | ⟨-, hw⟩ | ⟨hw, -⟩ | ⟨hw, -⟩ | ⟨hw, -⟩ | ⟨hw, -⟩)
    · revert hw; exact (by decide : ∀ j ∈ ["areas", "gencost"], j ∉ ["baseMVA", "bus", "gen", "branch"]) k hk
    · rw [hf1] at hw; cases hw
    · revert hw; exact (by decide : ∀ j ∈ ["areas", "gencost"], j ∉ ["A", "l", "u"]) k hk
    · revert hw; exact (by decide : ∀ j ∈ ["areas", "gencost"], j ∉ ["N", "H", "fparm"]) k hk
    · subst hw; revert hk; decide
    · revert hw; exact (by decide : ∀ j ∈ ["areas", "gencost"], j ∉ ["z0", "zl", "zu"]) k hk
  · have hv : fieldVal h1 r "A" = some (.tab t) := (hl.same hc (by decide)).trans hA
    have hf : filled h1 r "A" = .ok true := by rw [filled_tab hv]; simp [ht]
    exact hl.val hc (by decide) hv (Or.inr (Or.inr (Or.inl ⟨by decide, hf, hf⟩))) rfl

/-- **C118 (plain cases).**  A complete case with tables for areas and costs, if it has any, and nothing else that is written can be saved. -/
theorem C118_saves {h : Heap} {r : ℕ} {x : ℚ} {bus g b : Table ℚ} (hc : Complete h r x bus g b) (hopt : ∀ k ∈ ["areas", "gencost"], field h r k = none ∨ ∃ t, fieldVal h r k = some (.tab t))
    (hno : ∀ k ∈ writable, k ∉ ["baseMVA", "bus", "gen", "branch", "areas", "gencost"] → field h r k = none) : ∃ f, savecase h r = (store h r "version" (.str "2"), .ok f) := by
  have hfv : ∀ k, k ≠ "version" → fieldVal (store h r "version" (.str "2")) r k = fieldVal h r k := fun k hk => by rw [good_fieldVal hc.good, if_neg hk]
  have hff : ∀ k, k ≠ "version" → field (store h r "version" (.str "2")) r k = field h r k := fun k hk => good_field hc.good hk
  have un : ∀ k ∈ ["A", "N", "z0", "zl", "zu"], filled (store h r "version" (.str "2")) r k = .ok false := by
    intro k hk
    unfold filled
    rw [hff k (by rintro rfl; revert hk; decide), hno k ((by decide : ∀ j ∈ ["A", "N", "z0", "zl", "zu"], j ∈ writable) k hk)
      ((by decide : ∀ j ∈ ["A", "N", "z0", "zl", "zu"], j ∉ ["baseMVA", "bus", "gen", "branch", "areas", "gencost"]) k hk)]
  have hkeys : ∃ ks, keys (store h r "version" (.str "2")) r = .ok ks := by
    have hA : keysA (store h r "version" (.str "2")) r = .ok [] := by unfold keysA; rw [un "A" (by decide)]
    have hN : keysN (store h r "version" (.str "2")) r = .ok [] := by unfold keysN; rw [un "N" (by decide)]
    have hZ : filledOf (store h r "version" (.str "2")) r ["z0", "zl", "zu"] = .ok [] := by
      unfold filledOf; rw [un "z0" (by decide)]; dsimp only
      unfold filledOf; rw [un "zl" (by decide)]; dsimp only
      unfold filledOf; rw [un "zu" (by decide)]; dsimp only
      rfl
    unfold keys
    rw [hA, hN, hZ]
    exact ⟨_, rfl⟩
  obtain ⟨ks, hks⟩ := hkeys
  have hval : ∃ es, values (store h r "version" (.str "2")) r ks = .ok es := by
    apply values_ok
    intro k hk
    have leaf : ∀ v m, k ≠ "version" → fieldVal h r k = some v → toMat (.leaf v) = .ok m →
        ∃ x o v, field (store h r "version" (.str "2")) r k = some x ∧ (store h r "version" (.str "2"))[x]? = some o ∧ toMat o = .ok v := by
      intro v m hkv hv hm
      obtain ⟨y, hy, hy'⟩ := Option.bind_eq_some_iff.1 ((hfv k hkv).trans hv)
      exact ⟨y, _, m, hy, value_iff.1 hy', hm⟩
    have hw := (keys_mem hks k).1 hk
    have hwr := written_writable hw
    by_cases hin : k ∈ ["baseMVA", "bus", "gen", "branch", "areas", "gencost"]
    · have hkv : k ≠ "version" := by rintro rfl; revert hin; decide
      have opt : k ∈ ["areas", "gencost"] → ∃ x o v, field (store h r "version" (.str "2")) r k = some x ∧ (store h r "version" (.str "2"))[x]? = some o ∧ toMat o = .ok v := by
        intro hm
        rcases hopt k hm with hn | ⟨t, ht⟩
        · exfalso
          rcases hw with hw | ⟨-, hw⟩ | ⟨hw, -⟩ | ⟨hw, -⟩ | ⟨hw, -⟩ | ⟨hw, -⟩
          · revert hw; exact (by decide : ∀ j ∈ ["areas", "gencost"], j ∉ ["baseMVA", "bus", "gen", "branch"]) k hm
          · rw [hff k hkv, hn] at hw; cases hw
          · revert hw; exact (by decide : ∀ j ∈ ["areas", "gencost"], j ∉ ["A", "l", "u"]) k hm
          · revert hw; exact (by decide : ∀ j ∈ ["areas", "gencost"], j ∉ ["N", "H", "fparm"]) k hm
          · subst hw; revert hm; decide
          · revert hw; exact (by decide : ∀ j ∈ ["areas", "gencost"], j ∉ ["z0", "zl", "zu"]) k hm
        · exact leaf _ _ hkv ht rfl
      simp only [List.mem_cons, List.not_mem_nil, or_false] at hin
      rcases hin with hk' | hk' | hk' | hk' | hk' | hk'
      · rcases hc.base with hb | hb
        · exact leaf _ _ hkv (hk' ▸ hb) rfl
        · exact leaf _ _ hkv (hk' ▸ hb) rfl
      · exact leaf _ _ hkv (hk' ▸ hc.bus) rfl
      · exact leaf _ _ hkv (hk' ▸ hc.gen) rfl
      · exact leaf _ _ hkv (hk' ▸ hc.branch) rfl
      · exact opt (by rw [hk']; decide)
      · exact opt (by rw [hk']; decide)
    · exfalso
      have hf := hno k hwr hin
      have hkv : k ≠ "version" := by rintro rfl; revert hwr; decide
      have hf1 : filled (store h r "version" (.str "2")) r k = .ok false := by unfold filled; rw [hff k hkv, hf]
      rcases hw with hw | ⟨-, hw⟩ | ⟨-, -, hw⟩ | ⟨-, -, hw⟩ | ⟨-, hw⟩ | ⟨-, hw⟩
      · exact hin ((by decide : ∀ j ∈ ["baseMVA", "bus", "gen", "branch"], j ∈ ["baseMVA", "bus", "gen", "branch", "areas", "gencost"]) k hw)
      · rw [hff k hkv, hf] at hw; cases hw
      · rw [hf1] at hw; cases hw
      · rw [hf1] at hw; cases hw
      · rw [un "N" (by decide)] at hw; cases hw
      · rw [hf1] at hw; cases hw
  obtain ⟨es, hes⟩ := hval
  obtain ⟨d, hd, -⟩ := hc.good
  refine ⟨file (extras ++ es), ?_⟩
  unfold savecase
  rw [hd]; dsimp only
  rw [hks]; dsimp only
  rw [hes]
  rfl

/-- **C118 (vectors).**  Vectors of user bounds and starting values come back as tables of one row: the shape is another one. -/
theorem C118_vectors {h h1 h3 : Heap} {r p : ℕ} (hl : Reloaded h r h1 h3 p) {x : ℚ} {bus g b : Table ℚ} (hc : Complete h r x bus g b) :
    (∀ k ∈ ["l", "u"], ∀ t ys, fieldVal h r "A" = some (.tab t) → t.rows ≠ [] → fieldVal h r k = some (.vec ys) → ys ≠ [] → fieldVal h3 p k = some (.tab ⟨ys.length, [ys]⟩)) ∧
      ∀ k ∈ ["z0", "zl", "zu"], ∀ ys, fieldVal h r k = some (.vec ys) → ys ≠ [] → fieldVal h3 p k = some (.tab ⟨ys.length, [ys]⟩) := by
  have row : ∀ ys : List ℚ, ys ≠ [] → toMat (.leaf (.vec ys)) = .ok (.tab ⟨ys.length, [ys]⟩) := by
    intro ys hne
    cases ys with
    | nil => exact absurd rfl hne
    | cons y ys => rfl
  refine ⟨fun k hk t ys hA ht hv hne => ?_, fun k hk ys hv hne => ?_⟩
  · have k1 : k ∉ ["version", "baseMVA", "gen", "branch"] := (by decide : ∀ j ∈ ["l", "u"], j ∉ ["version", "baseMVA", "gen", "branch"]) k hk
    have hv' := (hl.same hc (k := k) (by rintro rfl; exact k1 (by decide))).trans hv
    have hA' := (hl.same hc (k := "A") (by decide)).trans hA
    refine hl.val hc k1 hv' (Or.inr (Or.inr (Or.inl ⟨?_, ?_, ?_⟩))) (row ys hne)
    · exact List.mem_cons_of_mem _ hk
    · rw [filled_tab hA']; simp [ht]
    · rw [filled_vec hv']; simp [hne]
  · have k1 : k ∉ ["version", "baseMVA", "gen", "branch"] := (by decide : ∀ j ∈ ["z0", "zl", "zu"], j ∉ ["version", "baseMVA", "gen", "branch"]) k hk
    have hv' := (hl.same hc (k := k) (by rintro rfl; exact k1 (by decide))).trans hv
    refine hl.val hc k1 hv' (Or.inr (Or.inr (Or.inr (Or.inr (Or.inr ⟨hk, ?_⟩))))) (row ys hne)
    rw [filled_vec hv']; simp [hne]

/-- **C118 (lost keys).**  Whatever is under a key outside the list that is written (reserves, DC lines, interface limits, …) is not in the loaded case. -/
theorem C118_lost {h h1 h3 : Heap} {r p : ℕ} (hl : Reloaded h r h1 h3 p) {x : ℚ} {bus g b : Table ℚ} (hc : Complete h r x bus g b) {k : String}
    (hk : k ∉ writable) (hx : k ∉ ["version", "__header__", "__version__", "__globals__"]) : field h3 p k = none := by
  obtain ⟨-, -, -, -, -, -, -, c7⟩ := hl.round hc
  refine c7 k (fun hw => hk (written_writable hw)) fun hm => hx ?_
  exact (by decide : ∀ j ∈ extras.map (·.1), j ∈ ["version", "__header__", "__version__", "__globals__"]) k hm

/-- **C118 (lost bounds).**  Bounds are written with a user constraint matrix only: without one they are lost. -/
theorem C118_bounds {h h1 h3 : Heap} {r p : ℕ} (hl : Reloaded h r h1 h3 p) {x : ℚ} {bus g b : Table ℚ} (hc : Complete h r x bus g b) (hA : field h r "A" = none) :
    field h3 p "l" = none ∧ field h3 p "u" = none := by
  obtain ⟨-, -, -, -, -, -, -, c7⟩ := hl.round hc
  have hf : filled h1 r "A" = .ok false := by
    unfold filled
    rw [hl.heap, good_field hc.good (by decide), hA]
  have no : ∀ k ∈ ["l", "u"], ¬ Written h1 r k := by
    intro k hk
    rintro (hw | ⟨hw, -⟩ | ⟨-, hw, -⟩ | ⟨hw, -⟩ | ⟨hw, -⟩ | ⟨hw, -⟩)
    · revert hw; exact (by decide : ∀ j ∈ ["l", "u"], j ∉ ["baseMVA", "bus", "gen", "branch"]) k hk
    · revert hw; exact (by decide : ∀ j ∈ ["l", "u"], j ∉ ["areas", "gencost", "userfcn", "x", "f", "lin", "order", "nln", "var", "raw", "mu"]) k hk
    · rw [hf] at hw; cases hw
    · revert hw; exact (by decide : ∀ j ∈ ["l", "u"], j ∉ ["N", "H", "fparm"]) k hk
    · subst hw; revert hk; decide
    · revert hw; exact (by decide : ∀ j ∈ ["l", "u"], j ∉ ["z0", "zl", "zu"]) k hk
  exact ⟨c7 "l" (no "l" (by decide)) (by decide), c7 "u" (no "u" (by decide)) (by decide)⟩

/-- **C118 (solved cases).**  If the case has its numbering `order`, as every result of a run does, then the loaded case has it as an array, and the conversion with which every
run begins raises an exception: it cannot be run. -/
theorem C118_order {h h1 h3 : Heap} {r p : ℕ} (hl : Reloaded h r h1 h3 p) {x : ℚ} {bus g b : Table ℚ} (hc : Complete h r x bus g b) {o : ℕ} {d : List (String × ℕ)}
    (ho : field h r "order" = some o) (hd : entries h1 o = some d) : orderState h3 p = .error .other := by
  obtain ⟨-, -, -, -, -, -, c6, -⟩ := hl.round hc
  have hf : field h1 r "order" = some o := by rw [hl.heap, good_field hc.good (by decide), ho]
  obtain ⟨y, ob, v, a1, a2, a3, a4⟩ := c6 "order" (by decide) (Or.inr (Or.inl ⟨by decide, by rw [hf]; rfl⟩))
  obtain rfl : y = o := by rw [hf] at a1; exact (Option.some.inj a1).symm
  obtain ⟨z, z1, z2⟩ := Option.bind_eq_some_iff.1 a4
  unfold orderState
  rw [z1]; dsimp only
  have : entries h3 z = none := by
    unfold entries
    rw [value_iff.1 z2]
  rw [this]

/-- **C118 (unsolved cases).**  Without it, the loaded case is numbered as any other. -/
theorem C118_fresh {h h1 h3 : Heap} {r p : ℕ} (hl : Reloaded h r h1 h3 p) {x : ℚ} {bus g b : Table ℚ} (hc : Complete h r x bus g b) (ho : field h r "order" = none) :
    orderState h3 p = .ok none := by
  obtain ⟨-, -, -, -, -, -, -, c7⟩ := hl.round hc
  have hf : field h1 r "order" = none := by rw [hl.heap, good_field hc.good (by decide), ho]
  have : field h3 p "order" = none := by
    refine c7 "order" ?_ (by decide)
    rintro (hw | ⟨-, hw⟩ | ⟨hw, -⟩ | ⟨hw, -⟩ | ⟨hw, -⟩ | ⟨hw, -⟩)
    · revert hw; decide
    · rw [hf] at hw; cases hw
    · revert hw; decide
    · revert hw; decide
    · revert hw; decide
    · revert hw; decide
  unfold orderState
  rw [this]

/-- **C118 (sparse constraints).**  A case whose user constraint matrix is a sparse matrix, as `opf` wants it, cannot be saved. -/
theorem C118_sparse {h : Heap} {r n : ℕ} (hg : Good h r) (hA : fieldVal h r "A" = some (.other n)) : (savecase h r).2 = .error .type := by
  have hv : fieldVal (store h r "version" (.str "2")) r "A" = some (.other n) := by rw [good_fieldVal hg, if_neg (by decide), hA]
  obtain ⟨y, hy, hy'⟩ := Option.bind_eq_some_iff.1 hv
  have hf : filled (store h r "version" (.str "2")) r "A" = .error .type := by
    unfold filled
    rw [hy]; dsimp only
    rw [value_iff.1 hy']
  have hA' : keysA (store h r "version" (.str "2")) r = .error .type := by unfold keysA; rw [hf]
  have hk : keys (store h r "version" (.str "2")) r = .error .type := by
    unfold keys
    rw [hA']
  obtain ⟨d, hd, -⟩ := hg
  unfold savecase
  rw [hd]; dsimp only
  rw [hk]

/-- **C118 (the caller's case).**  Saving sets the version in the caller's dictionary, and changes nothing else. -/
theorem C118_caller {h h1 : Heap} {r : ℕ} {res : Exc MatFile} (hg : Good h r) (hs : savecase h r = (h1, res)) :
    fieldVal h1 r "version" = some (.str "2") ∧ (∀ k, k ≠ "version" → field h1 r k = field h r k) ∧ ∀ i, i ≠ r → i < h.length → h1[i]? = h[i]? := by
  have e : h1 = store h r "version" (.str "2") := by
    obtain ⟨d, hd, -⟩ := hg
    unfold savecase at hs
    rw [hd] at hs; dsimp only at hs
    split at hs <;> cases hs <;> rfl
  rw [e]
  refine ⟨?_, fun k hk => good_field hg hk, fun i hi hlt => store_other hi hlt⟩
  rw [good_fieldVal hg, if_pos rfl]

/-- **C118 (again).**  Saving and loading what was loaded changes none of the main entries any more. -/
theorem C118_again {h h1 h3 h4 h5 : Heap} {r p q : ℕ} (hl : Reloaded h r h1 h3 p) (hl' : Reloaded h3 p h4 h5 q) {x : ℚ} {bus g b : Table ℚ} (hc : Complete h r x bus g b)
    (hg : 10 ≤ g.cols) : ∀ k ∈ ["version", "baseMVA", "bus", "gen", "branch"], fieldVal h5 q k = fieldVal h3 p k := by
  obtain ⟨c0, c1, c2, c3, c4, c5, -, -⟩ := hl.round hc
  obtain ⟨-, d1, d2, d3, d4, d5, -, -⟩ := hl'.round (x := x) (bus := bus) ⟨c0, Or.inr c2, c3, c4, c5⟩
  rw [loadTables_again g b hg] at d4 d5
  intro k hk
  simp only [List.mem_cons, List.not_mem_nil, or_false] at hk
  rcases hk with rfl | rfl | rfl | rfl | rfl
  · rw [d1, c1]
  · rw [d2, c2]
  · rw [d3, c3]
  · rw [d4, c4]
  · rw [d5, c5]

end Verif.SaveMat
