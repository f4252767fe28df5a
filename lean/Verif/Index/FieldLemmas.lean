import Verif.Index.FieldModel
import Mathlib.Data.List.Basic
import Mathlib.Data.List.Infix

/-!
# Lemmas about nested dictionaries
-/

namespace Verif.Index

open Tree

variable {V : Type}

/-- A dictionary is at this path. -/
def IsNode (p : List String) (t : Tree V) : Prop := ∃ f, get? p t = some (.node f)

theorem get_append (p q : List String) (t : Tree V) : get? (p ++ q) t = (get? p t).bind (get? q) := by
  induction p generalizing t with
  | nil => rfl
  | cons k ks ih =>
    cases t with
    | leaf v => rfl
    | node f =>
      simp only [List.cons_append, get?]
      cases f k with
      | none => rfl
      | some c => exact ih c

theorem set_same : ∀ (p : List String) (v t t' : Tree V), Tree.set p v t = some t' → get? p t' = some v
  | [], _, _, _, h => by cases h
  | _ :: _, _, .leaf _, _, h => by simp [Tree.set] at h
  | [k], v, .node f, t', h => by
    simp only [Tree.set, Option.some.injEq] at h
    subst h
    simp [get?, upd]
  | k :: k' :: ks, v, .node f, t', h => by
    simp only [Tree.set, Option.bind_eq_bind, Option.bind_eq_some_iff] at h
    obtain ⟨c, h1, c', h2, h3⟩ := h
    injection h3 with h3
    subst h3
    simp only [get?, upd, if_true, Option.bind_some]
    exact set_same (k' :: ks) v c c' h2

theorem set_other : ∀ (p q : List String) (v t t' : Tree V), Tree.set p v t = some t' → ¬ p <+: q → ¬ q <+: p → get? q t' = get? q t
  | [], _, _, _, _, h, _, _ => by cases h
  | _ :: _, _, _, .leaf _, _, h, _, _ => by simp [Tree.set] at h
  | _ :: _, [], _, _, _, _, _, h2 => absurd List.nil_prefix h2
  | [k], j :: js, v, .node f, t', h, h1, _ => by
    simp only [Tree.set, Option.some.injEq] at h
    subst h
    have : j ≠ k := by
      rintro rfl
      exact h1 (by simp)
    simp [get?, upd, this]
  | k :: k' :: ks, j :: js, v, .node f, t', h, h1, h2 => by
    simp only [Tree.set, Option.bind_eq_bind, Option.bind_eq_some_iff] at h
    obtain ⟨c, g1, c', g2, g3⟩ := h
    injection g3 with g3
    subst g3
    by_cases hj : j = k
    · subst hj
      simp only [get?, upd, if_true, Option.bind_some, g1]
      refine set_other (k' :: ks) js v c c' g2 ?_ ?_
      · intro hp
        exact h1 (by simpa using hp)
      · intro hp
        exact h2 (by simpa using hp)
    · simp [get?, upd, hj]

/-- Dictionaries on the way stay dictionaries. -/
theorem set_above : ∀ (p q : List String) (v t t' : Tree V), Tree.set p v t = some t' → q <+: p → q ≠ p → IsNode q t'
  | [], _, _, _, _, h, _, _ => by cases h
  | _ :: _, _, _, .leaf _, _, h, _, _ => by simp [Tree.set] at h
  | [k], [], v, .node f, t', h, _, _ => by
    simp only [Tree.set, Option.some.injEq] at h
    subst h
    exact ⟨_, rfl⟩
  | k :: k' :: ks, [], v, .node f, t', h, _, _ => by
    simp only [Tree.set, Option.bind_eq_bind, Option.bind_eq_some_iff] at h
    obtain ⟨c, g1, c', g2, g3⟩ := h
    injection g3 with g3
    subst g3
    exact ⟨_, rfl⟩
  | [k], j :: js, v, .node f, t', h, h1, h2 => by
    exfalso
    obtain ⟨r, hr⟩ := h1
    simp only [List.cons_append, List.cons.injEq, List.append_eq_nil_iff] at hr
    exact h2 (by simp [hr.1, hr.2.1])
  | k :: k' :: ks, j :: js, v, .node f, t', h, h1, h2 => by
    simp only [Tree.set, Option.bind_eq_bind, Option.bind_eq_some_iff] at h
    obtain ⟨c, g1, c', g2, g3⟩ := h
    injection g3 with g3
    subst g3
    obtain ⟨r, hr⟩ := h1
    simp only [List.cons_append, List.cons.injEq] at hr
    obtain ⟨rfl, hr⟩ := hr
    obtain ⟨u, hu⟩ := set_above (k' :: ks) js v c c' g2 ⟨r, hr⟩ (fun e => h2 (by rw [e]))
    exact ⟨u, by simpa only [get?, upd, if_true, Option.bind_some] using hu⟩

/-- Assignment succeeds exactly if the dictionary to put the value into exists. -/
theorem set_iff : ∀ (p : List String) (k : String) (v t : Tree V), (Tree.set (p ++ [k]) v t).isSome ↔ IsNode p t
  | [], k, v, .leaf _ => by simp [Tree.set, IsNode, get?]
  | [], k, v, .node f => by simp [Tree.set, IsNode, get?]
  | j :: js, k, v, .leaf _ => by simp [Tree.set, IsNode, get?]
  | [j], k, v, .node f => by
    simp only [List.cons_append, List.nil_append, Tree.set, Option.bind_eq_bind]
    cases hj : f j with
    | none => simp [IsNode, get?, hj]
    | some c =>
      have := set_iff [] k v c
      simp only [List.nil_append] at this
      simp only [Option.bind_some, IsNode, get?, hj]
      cases hs : Tree.set [k] v c with
      | none => rw [hs] at this; simpa [IsNode, get?] using this
      | some d => rw [hs] at this; simpa [IsNode, get?] using this
  | j :: j' :: js, k, v, .node f => by
    simp only [List.cons_append, Tree.set, Option.bind_eq_bind]
    cases hj : f j with
    | none => simp [IsNode, get?, hj]
    | some c =>
      have := set_iff (j' :: js) k v c
      simp only [List.cons_append] at this
      have e : IsNode (j :: j' :: js) (.node f) ↔ IsNode (j' :: js) c := by
        unfold IsNode
        rw [show get? (j :: j' :: js) (.node f) = get? (j' :: js) c by rw [get?, hj]; rfl]
      rw [e, ← this]
      cases hs : Tree.set (j' :: (js ++ [k])) v c with
      | none => simp [hs]
      | some d => simp [hs]

/-- A path whose last value exists can be assigned. -/
theorem set_exists {p : List String} (hp : p ≠ []) {t x : Tree V} (h : get? p t = some x) (v : Tree V) : (Tree.set p v t).isSome := by
  obtain ⟨q, k, rfl⟩ : ∃ q k, p = q ++ [k] := ⟨p.dropLast, p.getLast hp, (List.dropLast_append_getLast hp).symm⟩
  rw [set_iff]
  rw [get_append] at h
  cases hq : get? q t with
  | none => rw [hq] at h; cases h
  | some y =>
    rw [hq] at h
    cases y with
    | leaf u => cases h
    | node f => exact ⟨f, hq⟩

/-! ### The loop -/

/-- What exists keeps existing, as an array with the same value or as a dictionary. -/
def Kept (t t' : Tree V) : Prop := (∀ q v, get? q t = some (.leaf v) → get? q t' = some (.leaf v)) ∧ ∀ q, IsNode q t → IsNode q t'

theorem Kept.refl (t : Tree V) : Kept t t := ⟨fun _ _ h => h, fun _ h => h⟩

theorem Kept.trans {a b c : Tree V} (h1 : Kept a b) (h2 : Kept b c) : Kept a c := ⟨fun q v h => h2.1 q v (h1.1 q v h), fun q h => h2.2 q (h1.2 q h)⟩

/-- Assigning at a path that did not exist keeps everything. -/
theorem set_kept {p : List String} {t t' v : Tree V} (h : Tree.set p v t = some t') (hn : get? p t = none) : Kept t t' := by
  have noext : ∀ q x, get? q t = some x → ¬ p <+: q := by
    rintro q x hq ⟨r, rfl⟩
    rw [get_append, hn] at hq
    cases hq
  refine ⟨fun q u hq => ?_, fun q hq => ?_⟩
  · by_cases hp : q <+: p
    · exfalso
      obtain ⟨r, rfl⟩ := hp
      have h' : (Tree.set (q ++ r) v t).isSome := by rw [h]; rfl
      have hr : r ≠ [] := by
        rintro rfl
        rw [List.append_nil, hq] at hn
        cases hn
      obtain ⟨s, k, rfl⟩ : ∃ s k, r = s ++ [k] := ⟨r.dropLast, r.getLast hr, (List.dropLast_append_getLast hr).symm⟩
      rw [← List.append_assoc, set_iff] at h'
      obtain ⟨f, hf⟩ := h'
      rw [get_append, hq] at hf
      cases s with
      | nil => cases hf
      | cons a b => cases hf
    · rw [set_other p q v t t' h (noext q _ hq) hp]
      exact hq
  · obtain ⟨f, hq⟩ := hq
    by_cases hp : q <+: p
    · refine set_above p q v t t' h hp ?_
      rintro rfl
      rw [hq] at hn
      cases hn
    · exact ⟨f, by rw [set_other p q v t t' h (noext q _ hq) hp]; exact hq⟩

theorem walk_spec : ∀ (ks cur : List String) (t : Tree V), IsNode cur t → ∃ t', walk t cur ks = some t' ∧ Kept t t'
  | [], _, t, _ => ⟨t, rfl, Kept.refl t⟩
  | k :: ks, cur, t, hc => by
    obtain ⟨f, hf⟩ := hc
    unfold walk
    rw [hf]
    dsimp only
    by_cases hk : (f k).isNone
    · rw [if_pos hk]
      have hs := (set_iff cur k Tree.empty t).2 ⟨f, hf⟩
      obtain ⟨t1, h1⟩ := Option.isSome_iff_exists.1 hs
      have hn : get? (cur ++ [k]) t = none := by
        rw [get_append, hf]
        simp only [Option.bind_some, get?]
        rw [Option.isNone_iff_eq_none.1 hk]
        rfl
      obtain ⟨t', h2, h3⟩ := walk_spec ks (cur ++ [k]) t1 ⟨_, set_same _ _ _ _ h1⟩
      exact ⟨t', by rw [h1]; exact h2, (set_kept h1 hn).trans h3⟩
    · rw [if_neg hk]
      exact walk_spec ks cur t ⟨f, hf⟩

/-- Below a new dictionary everything is created. -/
theorem walk_fresh : ∀ (ks cur : List String) (t t' : Tree V), get? cur t = some Tree.empty → walk t cur ks = some t' → IsNode (cur ++ ks) t'
  | [], cur, t, t', h, hw => by
    injection hw with hw
    subst hw
    exact ⟨_, by rw [List.append_nil]; exact h⟩
  | k :: ks, cur, t, t', h, hw => by
    unfold walk at hw
    rw [h] at hw
    simp only [Tree.empty, Option.isNone_none, if_true, Option.bind_eq_some_iff] at hw
    obtain ⟨t1, h1, h2⟩ := hw
    have := walk_fresh ks (cur ++ [k]) t1 t' (set_same _ _ _ _ h1) h2
    simpa using this

/-- A path whose first key is new is created as a whole. -/
theorem walk_new {k : String} {ks : List String} {t t' : Tree V} (hn : get? [k] t = none) (hw : walk t [] (k :: ks) = some t') : IsNode (k :: ks) t' := by
  unfold walk at hw
  cases t with
  | leaf v => simp [get?] at hw
  | node f =>
    simp only [get?] at hw hn
    have hk : f k = none := by
      cases hf : f k with
      | none => rfl
      | some c => rw [hf] at hn; simp [get?] at hn
    simp only [hk, Option.isNone_none, if_true, Option.bind_eq_some_iff, List.nil_append] at hw
    obtain ⟨t1, h1, h2⟩ := hw
    have := walk_fresh ks [k] t1 t' (set_same _ _ _ _ h1) h2
    simpa using this

/-- Otherwise nothing is created below the first key. -/
theorem walk_old : ∀ (ks : List String) (t t' : Tree V) (k : String) (f : String → Option (Tree V)), get? [] t = some (.node f) → get? [k] t ≠ none → walk t [] ks = some t' →
    ∀ q, get? (k :: q) t' = get? (k :: q) t
  | [], t, t', k, f, _, _, hw => by
    injection hw with hw
    subst hw
    exact fun q => rfl
  | j :: ks, t, t', k, f, hf, hk, hw => by
    intro q
    unfold walk at hw
    rw [hf] at hw
    dsimp only at hw
    by_cases hj : (f j).isNone
    · rw [if_pos hj] at hw
      simp only [List.nil_append, Option.bind_eq_some_iff] at hw
      obtain ⟨t1, h1, h2⟩ := hw
      have hjk : j ≠ k := by
        rintro rfl
        injection hf with hf
        subst hf
        exact hk (by simp only [get?]; rw [Option.isNone_iff_eq_none.1 hj]; rfl)
      -- everything below `j`
      have below : ∀ (ls cur : List String) (s s' : Tree V), cur.head? = some j → walk s cur ls = some s' → get? (k :: q) s' = get? (k :: q) s := by
        intro ls
        induction ls with
        | nil =>
          intro cur s s' _ h
          injection h with h
          rw [h]
        | cons l ls ih =>
          intro cur s s' hc h
          unfold walk at h
          split at h
          · split_ifs at h with hl
            · simp only [Option.bind_eq_some_iff] at h
              obtain ⟨s1, g1, g2⟩ := h
              have hc' : (cur ++ [l]).head? = some j := by
                cases cur with
                | nil => cases hc
                | cons a b => simpa using hc
              rw [ih _ _ _ hc' g2]
              refine set_other _ _ _ _ _ g1 ?_ ?_
              · rintro ⟨r, hr⟩
                cases cur with
                | nil => cases hc
                | cons a b =>
                  simp only [List.head?_cons, Option.some.injEq] at hc
                  simp only [List.cons_append, List.cons.injEq] at hr
                  exact hjk (hc ▸ hr.1)
              · rintro ⟨r, hr⟩
                cases cur with
                | nil => cases hc
                | cons a b =>
                  simp only [List.head?_cons, Option.some.injEq] at hc
                  simp only [List.cons_append, List.cons.injEq] at hr
                  exact hjk (hc ▸ hr.1.symm)
            · exact ih _ _ _ hc h
          · cases h
      rw [below ks [j] t1 t' rfl h2]
      refine set_other _ _ _ _ _ h1 ?_ ?_
      · rintro ⟨r, hr⟩
        simp only [List.cons_append, List.cons.injEq] at hr
        exact hjk hr.1
      · rintro ⟨r, hr⟩
        simp only [List.cons_append, List.cons.injEq] at hr
        exact hjk hr.1.symm
    · rw [if_neg hj] at hw
      exact walk_old ks t t' k f hf hk hw q

end Verif.Index
