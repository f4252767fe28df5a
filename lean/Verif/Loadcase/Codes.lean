import Verif.Loadcase.Props

/-!
# C116: the exit codes
-/

namespace Verif.Loadcase

open CaseIO

/-- What each code returned for the name `s` says about the files. -/
inductive Says (w : World) (h : Heap) (s : List Char) : ℕ → Prop
  | two : ¬ ".py".toList <:+ s → ¬ ".mat".toList <:+ s → w.mat (s ++ ".mat".toList) = none → w.py (s ++ ".py".toList) = none → Says w h s 2
  | noMat : ".mat".toList <:+ s → w.mat s = none → Says w h s 3
  | badMat (name : List Char) (f : MatFile) : (name = s ∨ name = s ++ ".mat".toList) → w.mat name = some f → (f.load h).2 = .error .io → Says w h s 3
  | four : ".py".toList <:+ s → w.py s = none → Says w h s 4
  | badPy (name : List Char) : (name = s ∨ name = s ++ ".py".toList) → (w.py name).isSome → Says w h s 5
  | fewMat (name : List Char) (f : MatFile) : (name = s ∨ name = s ++ ".mat".toList) → w.mat name = some f → (∀ e, (f.load h).2 ≠ .error e) → Says w h s 5

theorem firstRow_code {h : Heap} {d : List (String × ℕ)} {n : ℕ} : (firstRow h d).2.map Read.case ≠ .ok (.code n) := by
  cases (firstRow h d).2 <;> simp [Except.map]

theorem readMat_code {f : Option MatFile} {h h' : Heap} {n : ℕ} (hr : readMat f h = (h', .ok (.code n))) :
    n = 3 ∧ (f = none ∨ ∃ g, f = some g ∧ (g.load h).2 = .error .io) := by
  unfold readMat at hr
  split at hr
  · cases hr; exact ⟨rfl, Or.inl rfl⟩
  · rename_i f
    split at hr
    · rename_i h1 he
      cases hr
      exact ⟨rfl, Or.inr ⟨f, rfl, by rw [he]⟩⟩
    · cases hr
    · exact absurd (congrArg Prod.snd hr) firstRow_code
    · exact absurd (congrArg Prod.snd hr) firstRow_code

theorem readMat_case {f : Option MatFile} {h h' : Heap} {r : ℕ} (hr : readMat f h = (h', .ok (.case r))) :
    ∃ g, f = some g ∧ ∀ e, (g.load h).2 ≠ .error e := by
  unfold readMat at hr
  split at hr
  · cases hr
  · rename_i f
    refine ⟨f, rfl, fun e he => ?_⟩
    split at hr
    · cases hr
    · cases hr
    · rename_i h1 d hx; rw [hx] at he; cases he
    · rename_i h1 d hx; rw [hx] at he; cases he

theorem readPy_code {f : Option PyFile} {asObj eg : Bool} {h h' : Heap} {n : ℕ} (hr : readPy f asObj eg h = (h', .ok (.code n))) :
    n = 4 ∧ f = none ∨ n = 5 ∧ f.isSome := by
  unfold readPy at hr
  split at hr
  · cases hr; exact Or.inl ⟨rfl, rfl⟩
  · right
    split at hr
    · cases hr; exact ⟨rfl, rfl⟩
    · rename_i h2
      exact absurd hr (h2 h' n)

theorem readPy_case {f : Option PyFile} {asObj eg : Bool} {h h' : Heap} {r : ℕ} (hr : readPy f asObj eg h = (h', .ok (.case r))) : f.isSome := by
  unfold readPy at hr
  split at hr
  · cases hr
  · rfl

theorem take_ext {s e : List Char} {n : ℕ} (he : e <:+ s) (hn : e.length = n) : s.take (s.length - n) ++ e = s := by
  obtain ⟨t, rfl⟩ := he
  simp [← hn]

/-- The file that a name stands for. -/
theorem resolve_cases {w : World} {s root : List Char} {x : Ext} (hr : resolve w s = some (root, x)) :
    (x = .py ∧ (root ++ ".py".toList = s ∧ ".py".toList <:+ s ∨ root = s ∧ (w.py (s ++ ".py".toList)).isSome)) ∨
    (x = .mat ∧ (root ++ ".mat".toList = s ∧ ".mat".toList <:+ s ∨ root = s ∧ (w.mat (s ++ ".mat".toList)).isSome)) ∨ x = .nothing := by
  unfold resolve at hr
  dsimp only at hr
  split_ifs at hr with c1 c2 c3 c4 c5 c6
  · cases hr; exact Or.inl ⟨rfl, Or.inl ⟨take_ext c1 rfl, c1⟩⟩
  · cases hr; exact Or.inr (Or.inr rfl)
  · cases hr; exact Or.inr (Or.inl ⟨rfl, Or.inl ⟨take_ext c3 rfl, c3⟩⟩)
  · cases hr; exact Or.inr (Or.inr rfl)
  · cases hr; exact Or.inr (Or.inl ⟨rfl, Or.inr ⟨rfl, c5⟩⟩)
  · cases hr; exact Or.inl ⟨rfl, Or.inr ⟨rfl, c6⟩⟩

theorem resolve_none {w : World} {s : List Char} (hr : resolve w s = none) :
    ¬ ".py".toList <:+ s ∧ ¬ ".mat".toList <:+ s ∧ w.mat (s ++ ".mat".toList) = none ∧ w.py (s ++ ".py".toList) = none := by
  unfold resolve at hr
  dsimp only at hr
  split_ifs at hr with c1 c2 c3 c4 c5 c6
  exact ⟨c1, c3, Option.not_isSome_iff_eq_none.1 c5, Option.not_isSome_iff_eq_none.1 c6⟩

theorem finish_code {e : Bool} {h h' : Heap} {s n : ℕ} {asObj eg ea : Bool} (hf : finish e h s asObj eg ea = (h', .ok (.code n))) : n = 5 ∧ e = true := by
  unfold finish at hf
  split at hf
  · cases hf
  · cases e <;> cases hf
    exact ⟨rfl, rfl⟩
  · split at hf
    · cases hf
    · have := congrArg Prod.snd hf
      unfold output at this
      dsimp only at this
      rename_i h2 _
      cases hq : fields h2 (deepcopy h s).2 (listed eg ea) with
      | error y => rw [hq] at this; cases asObj <;> cases this
      | ok rs => rw [hq] at this; cases asObj <;> cases this

/-- **C116 (codes).**  A code is only returned for a name, and means what is said of the files: 2 that no file has the name, 3 that the MAT file is not there or cannot be read,
4 that the Python file is not there, 5 that there is a file. -/
theorem C116_codes_partial (w : World) (h : Heap) (arg : Arg) (asObj eg ea : Bool) {h' : Heap} {n : ℕ} (hl : loadcase w h arg asObj eg ea = (h', .ok (.code n))) :
    ∃ s, arg = .str s ∧ Says w h s n := by
  unfold loadcase at hl
  split at hl
  · cases hl
  · rename_i h1 m hm
    cases arg with
    | dict r => cases hm
    | other => cases hl
    | str s =>
      refine ⟨s, rfl, ?_⟩
      cases hl
      unfold readArg at hm
      dsimp only at hm
      split at hm
      · rename_i hr
        cases hm
        obtain ⟨a, b, c, d⟩ := resolve_none hr
        exact .two a b c d
      · rename_i root hr
        obtain ⟨rfl, hf⟩ := readMat_code hm
        rcases resolve_cases hr with ⟨hx, -⟩ | ⟨-, hc⟩ | hx
        · cases hx
        · rcases hc with ⟨e, hs⟩ | ⟨e, hs⟩
          · rw [e] at hf
            rcases hf with hf | ⟨g, hg, hio⟩
            · exact .noMat hs hf
            · exact .badMat s g (Or.inl rfl) hg hio
          · rw [e] at hf
            rcases hf with hf | ⟨g, hg, hio⟩
            · rw [hf] at hs; cases hs
            · exact .badMat _ g (Or.inr rfl) hg hio
        · cases hx
      · rename_i root hr
        rcases resolve_cases hr with ⟨-, hc⟩ | ⟨hx, -⟩ | hx
        · rcases readPy_code hm with ⟨rfl, hf⟩ | ⟨rfl, hf⟩
          · rcases hc with ⟨e, hs⟩ | ⟨e, hs⟩
            · rw [e] at hf; exact .four hs hf
            · rw [e] at hf; rw [hf] at hs; cases hs
          · rcases hc with ⟨e, hs⟩ | ⟨e, hs⟩
            · rw [e] at hf; exact .badPy s (Or.inl rfl) hf
            · rw [e] at hf; exact .badPy _ (Or.inr rfl) hf
        · cases hx
        · cases hx
      · cases hm
  · rename_i h1 s0 hm
    obtain ⟨rfl, he⟩ := finish_code hl
    cases arg with
    | dict r => cases he
    | other => cases he
    | str s =>
      refine ⟨s, rfl, ?_⟩
      unfold readArg at hm
      dsimp only at hm
      split at hm
      · cases hm
      · rename_i root hr
        obtain ⟨g, hg, hne⟩ := readMat_case hm
        rcases resolve_cases hr with ⟨hx, -⟩ | ⟨-, hc⟩ | hx
        · cases hx
        · rcases hc with ⟨e, -⟩ | ⟨e, -⟩
          · rw [e] at hg; exact .fewMat s g (Or.inl rfl) hg hne
          · rw [e] at hg; exact .fewMat _ g (Or.inr rfl) hg hne
        · cases hx
      · rename_i root hr
        have hf := readPy_case hm
        rcases resolve_cases hr with ⟨-, hc⟩ | ⟨hx, -⟩ | hx
        · rcases hc with ⟨e, -⟩ | ⟨e, -⟩
          · rw [e] at hf; exact .badPy s (Or.inl rfl) hf
          · rw [e] at hf; exact .badPy _ (Or.inr rfl) hf
        · cases hx
        · cases hx
      · cases hm

/-- **C116 (absent files).**  A name without extension for which there is no file gives 2, a MAT name without file 3, a Python name without file 4; nothing is changed. -/
theorem C116_absent (w : World) (h : Heap) (asObj eg ea : Bool) (name : List Char) :
    (¬ ".py".toList <:+ name → ¬ ".mat".toList <:+ name → w.mat (name ++ ".mat".toList) = none → w.py (name ++ ".py".toList) = none →
      loadcase w h (.str name) asObj eg ea = (h, .ok (.code 2))) ∧
    (hasExt name = true → w.mat (name ++ ".mat".toList) = none → loadcase w h (.str (name ++ ".mat".toList)) asObj eg ea = (h, .ok (.code 3))) ∧
    (hasExt name = true → w.py (name ++ ".py".toList) = none → loadcase w h (.str (name ++ ".py".toList)) asObj eg ea = (h, .ok (.code 4))) := by
  refine ⟨fun a b c d => ?_, fun he hm => ?_, fun he hm => ?_⟩
  · have : resolve w name = none := by
      unfold resolve
      rw [if_neg a, if_neg b, if_neg (by rw [c]; simp), if_neg (by rw [d]; simp)]
    unfold loadcase readArg
    dsimp only
    rw [this]
    rfl
  · have : resolve w (name ++ ".mat".toList) = some (name, .mat) := by
      unfold resolve
      have hn : ¬ ".py".toList <:+ name ++ ".mat".toList := by
        intro hc
        have := List.suffix_of_suffix_length_le hc (List.suffix_append name ".mat".toList) (by decide)
        exact absurd this (by decide)
      have ht : (name ++ ".mat".toList).take ((name ++ ".mat".toList).length - 4) = name := by simp
      rw [if_neg hn, if_pos (List.suffix_append _ _), ht]
      dsimp only
      rw [if_pos he]
    unfold loadcase readArg
    dsimp only
    rw [this]
    dsimp only
    rw [hm]
    rfl
  · have : resolve w (name ++ ".py".toList) = some (name, .py) := by
      unfold resolve
      have ht : (name ++ ".py".toList).take ((name ++ ".py".toList).length - 3) = name := by simp
      rw [if_pos (List.suffix_append _ _), ht]
      dsimp only
      rw [if_pos he]
    unfold loadcase readArg
    dsimp only
    rw [this]
    dsimp only
    rw [hm]
    rfl

/-- **C116 is false of the code (argument).**  For an argument that is neither a name nor a dictionary the documented code 1 is never returned: `lasterr` has no value. -/
theorem C116_argument (w : World) (h : Heap) (asObj eg ea : Bool) : loadcase w h .other asObj eg ea = (h, .error .unbound) := rfl

/-- The Python file that a name with or without its extension stands for. -/
def Stands (w : World) (s name : List Char) : Prop :=
  hasExt name = true ∧ s = name ++ ".py".toList ∨
    s = name ∧ ¬ ".py".toList <:+ s ∧ ¬ ".mat".toList <:+ s ∧ w.mat (s ++ ".mat".toList) = none ∧ (w.py (s ++ ".py".toList)).isSome

theorem Stands.resolve {w : World} {s name : List Char} (hs : Stands w s name) : resolve w s = some (name, .py) := by
  rcases hs with ⟨he, rfl⟩ | ⟨rfl, h1, h2, h3, h4⟩
  · unfold Loadcase.resolve
    have ht : (name ++ ".py".toList).take ((name ++ ".py".toList).length - 3) = name := by simp
    rw [if_pos (List.suffix_append _ _), ht]
    dsimp only
    rw [if_pos he]
  · unfold Loadcase.resolve
    rw [if_neg h1, if_neg h2, if_neg (by rw [h3]; simp), if_pos h4]

/-- **C116 is false of the code (syntax errors).**  A file that cannot be compiled, or that raises anything but an `IOError` when it is read, gives no code 5: the exception reaches the caller. -/
theorem C116_syntax (w : World) (h h1 : Heap) (asObj eg ea : Bool) {s name : List Char} (hs : Stands w s name) {f : PyFile} (hf : w.py (name ++ ".py".toList) = some f) {e : Exn}
    (he : f.exec h = (h1, .error e)) (hne : e ≠ .io) : loadcase w h (.str s) asObj eg ea = (h1, .error e) := by
  unfold loadcase readArg
  dsimp only
  rw [hs.resolve]
  dsimp only
  rw [hf]
  unfold readPy readPy4
  dsimp only
  rw [he]
  cases e with
  | io => exact absurd rfl hne
  | _ => rfl

/-- A check that meets a key that is not there, all before it being there. -/
theorem missing_key {h : Heap} {s : ℕ} {d : List (String × ℕ)} (hd : entries h s = some d) {k : String} (hk : lookup d k = none) :
    ∀ ks : List String, k ∈ ks → (∀ j ∈ ks, j ≠ k → ∃ x, field h s j = some x ∧ value h x ≠ some .none) → missing h s ks = .error .key := by
  intro ks
  induction ks with
  | nil => intro hm; cases hm
  | cons j ks ih =>
    intro hm hall
    by_cases hj : j = k
    · subst hj
      have : isNone h s j = .error .key := by
        unfold isNone
        rw [hd]
        dsimp only
        rw [hk]
      unfold missing
      rw [this]
    · obtain ⟨x, hx, hne⟩ := hall j (List.mem_cons_self ..) hj
      have : isNone h s j = .ok false := by
        unfold field at hx
        rw [hd] at hx
        unfold isNone
        rw [hd]
        dsimp only
        rw [show lookup d j = some x from hx]
        dsimp only
        split
        · rename_i hv; exact absurd hv hne
        · rfl
      unfold missing
      rw [this]
      refine ih ?_ fun i hi hik => hall i (List.mem_cons_of_mem _ hi) hik
      rcases List.mem_cons.1 hm with h' | h'
      · exact absurd h'.symm hj
      · exact h'

/-- **C116 is false of the code (missing tables).**  A file whose dictionary lacks one of the four tables gives no code 5 but a `KeyError`. -/
theorem C116_missing (w : World) (h h1 h2 : Heap) (ea eg : Bool) {s name : List Char} (hs : Stands w s name) {f : PyFile} (hf : w.py (name ++ ".py".toList) = some f)
    (he : f.exec h = (h1, .ok ())) {r : ℕ} (hc : f.call h1 = (h2, .ok (.dict r))) {d : List (String × ℕ)} (hd : entries h2 r = some d) {k : String}
    (hk : k ∈ ["baseMVA", "bus", "gen", "branch"]) (hl : lookup d k = none)
    (hall : ∀ j ∈ ["baseMVA", "bus", "gen", "branch"], j ≠ k → ∃ x, field h2 r j = some x ∧ value h2 x ≠ some .none) :
    loadcase w h (.str s) true eg ea = (h2, .error .key) := by
  unfold loadcase readArg
  dsimp only
  rw [hs.resolve]
  dsimp only
  rw [hf]
  unfold readPy readPy4
  dsimp only
  rw [he]
  dsimp only
  rw [hc]
  dsimp only
  unfold finish
  rw [show required (!true && eg) (!true && ea) = ["baseMVA", "bus", "gen", "branch"] from rfl, missing_key hd hl _ hk hall]

/-- The same of a dictionary given by the caller. -/
theorem C116_missing_dict (w : World) (h : Heap) (ea eg : Bool) {r : ℕ} {d : List (String × ℕ)} (hd : entries h r = some d) {k : String}
    (hk : k ∈ ["baseMVA", "bus", "gen", "branch"]) (hl : lookup d k = none)
    (hall : ∀ j ∈ ["baseMVA", "bus", "gen", "branch"], j ≠ k → ∃ x, field h r j = some x ∧ value h x ≠ some .none) :
    (loadcase w h (.dict r) true eg ea).2 = .error .key := by
  have hc : ∀ k, field (deepcopy h r).1 (deepcopy h r).2 k = (field h r k).map (· + h.length) := fun k => copy_field hd (deepcopy_get r) k
  have hd' : entries (deepcopy h r).1 (deepcopy h r).2 = some (d.map fun p => (p.1, p.2 + h.length)) := by
    refine entries_iff.2 ?_
    show (deepcopy h r).1[r + h.length]? = _
    rw [deepcopy_get, entries_iff.1 hd]; rfl
  have e : loadcase w h (.dict r) true eg ea = finish false (deepcopy h r).1 (deepcopy h r).2 true false false := rfl
  rw [e]
  unfold finish
  rw [show required false false = ["baseMVA", "bus", "gen", "branch"] from rfl, missing_key hd' (by rw [lookup_shift, hl]; rfl) _ hk ?_]
  intro j hj hjk
  obtain ⟨x, hx, hne⟩ := hall j hj hjk
  exact ⟨x + h.length, by rw [hc, hx]; rfl, by rw [copy_value (deepcopy_get x)]; exact hne⟩

theorem missing_append {h : Heap} {s : ℕ} : ∀ {ks js : List String}, missing h s (ks ++ js) = .ok false → missing h s ks = .ok false
  | [], _, _ => rfl
  | k :: ks, js, hm => by
    rw [List.cons_append] at hm
    unfold missing at hm ⊢
    cases hx : isNone h s k with
    | error e => rw [hx] at hm; cases hm
    | ok b =>
      cases b
      · rw [hx] at hm
        exact missing_append hm
      · rw [hx] at hm; cases hm

theorem fields_some {h : Heap} {p : ℕ} : ∀ {ks : List String} {rs : List ℕ}, fields h p ks = .ok rs → ks.map (field h p) = rs.map some
  | [], rs, hf => by cases hf; rfl
  | k :: ks, rs, hf => by
    unfold fields at hf
    cases hk : field h p k with
    | none => rw [hk] at hf; cases hf
    | some r =>
      rw [hk] at hf
      dsimp only at hf
      cases ht : fields h p ks with
      | error e => rw [ht] at hf; cases hf
      | ok ts =>
        rw [ht] at hf
        cases hf
        rw [List.map_cons, List.map_cons, fields_some ht, hk]

/-- **C116 (separate tables).**  Asked for the tables one by one, `loadcase` returns the entries of the case object it would have returned, in the documented order; the areas are only
among them together with the costs. -/
theorem C116_list (w : World) (h : Heap) (r : ℕ) (eg ea : Bool) {h' : Heap} {rs : List ℕ} (hl : loadcase w h (.dict r) false eg ea = (h', .ok (.list rs))) :
    ∃ p, loadcase w h (.dict r) = (h', .ok (.obj p)) ∧
      rs.map some = (["baseMVA", "bus", "gen", "branch"] ++
        if eg && ea then ["areas", "gencost"] else if eg then ["gencost"] else []).map (field h' p) := by
  have e : loadcase w h (.dict r) false eg ea = finish false (deepcopy h r).1 (deepcopy h r).2 false eg ea := by cases eg <;> cases ea <;> rfl
  have e2 : loadcase w h (.dict r) = finish false (deepcopy h r).1 (deepcopy h r).2 true false false := rfl
  rw [e] at hl
  rw [e2]
  unfold finish at hl ⊢
  split at hl
  · cases hl
  · cases hl
  · rename_i hm
    have hm' : missing (deepcopy h r).1 (deepcopy h r).2 (required false false) = .ok false := by
      refine missing_append (js := (if eg then ["gencost"] else []) ++ (if ea then ["areas"] else [])) ?_
      cases eg <;> cases ea <;> exact hm
    rw [hm']
    dsimp only
    split at hl
    · cases hl
    · rename_i h2 hc
      have h1 := congrArg Prod.fst hl
      have h3 := congrArg Prod.snd hl
      dsimp only at h1 h3
      subst h1
      refine ⟨_, rfl, ?_⟩
      unfold output at h3
      rw [if_neg (by decide)] at h3
      cases hq : fields h2 (deepcopy (deepcopy h r).1 (deepcopy h r).2).2 (listed eg ea) with
      | error y => rw [hq] at h3; cases h3
      | ok ts =>
        rw [hq] at h3
        cases h3
        rw [← fields_some hq]
        cases eg <;> cases ea <;> rfl

/-- **C116 (callers).**  No caller looks at the code: a power flow of a name for which a code is returned raises a `TypeError`. -/
theorem C116_run (w : World) (h : Heap) (arg : Arg) {h' : Heap} {n : ℕ} (hl : loadcase w h arg = (h', .ok (.code n))) : openCase w h arg = (h', .error .type) := by
  unfold openCase
  rw [hl]

end Verif.Loadcase
