import Verif.Userfcn.Model

/-!
# C46, C47: the callback registry and the extension switches
-/

namespace Verif.Userfcn

set_option linter.unusedSectionVars false

variable {F A : Type} [DecidableEq F]

/-! ## Specification -/

/-- The callbacks registered at a stage, in order, each with its arguments (none registered: the empty list). -/
def callbacks (r : Reg F A) (stage : String) : List (F × List A) :=
  ((r.bind fun d => d stage).getD []).map fun e => (e.fcn, e.args.getD [])

/-- A registration or removal request. -/
inductive Op (F A : Type) where
  | add (stage : String) (f : F) (args : List A)
  | remove (stage : String) (f : F)

/-- Perform a request. -/
def Op.exec (r : Reg F A) : Op F A → Option (Reg F A)
  | .add s f a => Userfcn.add r s f a
  | .remove s f => Userfcn.remove r s f

/-- Perform a history of requests, stopping at the first exception. -/
def history (r : Reg F A) : List (Op F A) → Option (Reg F A)
  | [] => some r
  | o :: os => (o.exec r).bind fun r' => history r' os

/-- `l'` is `l` without its last entry for `f` (and is `l` when there is none). -/
def WithoutLast (f : F) (l l' : List (F × List A)) : Prop :=
  (∃ l₁ a l₂, l = l₁ ++ (f, a) :: l₂ ∧ (∀ p ∈ l₂, p.1 ≠ f) ∧ l' = l₁ ++ l₂) ∨ ((∀ p ∈ l, p.1 ≠ f) ∧ l' = l)

/-- What a request may do to the callbacks of the stages. -/
def Op.Effect (before after : String → List (F × List A)) : Op F A → Prop
  | .add s f a => after s = before s ++ [(f, a)] ∧ ∀ t, t ≠ s → after t = before t
  | .remove s f => WithoutLast f (before s) (after s) ∧ ∀ t, t ≠ s → after t = before t

/-- Left-to-right chaining of callbacks. -/
def chain {S : Type} (call : F → S → List A → Option S) : List (F × List A) → S → Option S
  | [], s => some s
  | p :: ps, s => (call p.1 s p.2).bind (chain call ps)

/-! ## Lemmas -/

theorem callbacks_none (s : String) : callbacks (none : Reg F A) s = [] := rfl

theorem callbacks_put (d : Dict F A) (s t : String) (l : List (Entry F A)) :
    callbacks (some (put d s l)) t = if t = s then l.map (fun e => (e.fcn, e.args.getD [])) else callbacks (some d) t := by
  unfold callbacks put
  by_cases h : t = s <;> simp [h]

theorem prepared_spec (r : Reg F A) (s : String) :
    ∃ l, (prepared r s).1 s = some l ∧ (prepared r s).2 = l.length
      ∧ ∀ t, callbacks (some (prepared r s).1) t = callbacks r t := by
  unfold prepared
  cases r with
  | none =>
    refine ⟨[], by simp [put], rfl, fun t => ?_⟩
    rw [callbacks_put, callbacks_none]
    split <;> simp [callbacks]
  | some d =>
    cases hd : d s with
    | none =>
      simp only [hd]
      refine ⟨[], by simp [put], by simp, fun t => ?_⟩
      rw [callbacks_put]
      split
      · next h => subst h; simp [callbacks, hd]
      · rfl
    | some l => simp only [hd]; exact ⟨l, rfl, rfl, fun t => trivial⟩

theorem setArgs_append (l : List (Entry F A)) (f : F) (a : List A) :
    setArgs (l ++ [⟨f, none⟩]) l.length a = some (l ++ [⟨f, some a⟩]) := by
  simp [setArgs]

theorem add_spec (r : Reg F A) (s : String) (f : F) (a : List A) :
    ∃ r', add r s f a = some r' ∧ callbacks r' s = callbacks r s ++ [(f, a)]
      ∧ (∀ t, t ≠ s → callbacks r' t = callbacks r t) ∧ ∃ d, r' = some d ∧ (d s).isSome := by
  obtain ⟨l, hl, hn, hc⟩ := prepared_spec r s
  have hcs : callbacks r s = l.map (fun e => (e.fcn, e.args.getD [])) := by
    rw [← hc s]; simp [callbacks, hl]
  unfold add
  simp only [hl, hn]
  by_cases ha : 0 < a.length
  · rw [if_pos ha, setArgs_append]
    refine ⟨_, rfl, ?_, ?_, _, rfl, ?_⟩
    · rw [callbacks_put, hcs]; simp
    · intro t ht; rw [callbacks_put, if_neg ht, hc t]
    · simp [put]
  · rw [if_neg ha]
    have : a = [] := by cases a <;> simp_all
    subst this
    refine ⟨_, rfl, ?_, ?_, _, rfl, ?_⟩
    · rw [callbacks_put, hcs]; simp
    · intro t ht; rw [callbacks_put, if_neg ht, hc t]
    · simp [put]

/-- The loop removes the last hit among the first `k` entries. -/
theorem removeLoop_spec (f : F) (l : List (Entry F A)) (k : Nat) (hk : k ≤ l.length)
    (h : ∀ e ∈ l.drop k, e.fcn ≠ f) :
    (∃ l₁ e l₂, l = l₁ ++ e :: l₂ ∧ e.fcn = f ∧ (∀ e ∈ l₂, e.fcn ≠ f) ∧ removeLoop f l k = l₁ ++ l₂)
      ∨ ((∀ e ∈ l, e.fcn ≠ f) ∧ removeLoop f l k = l) := by
  induction k with
  | zero => right; exact ⟨by simpa using h, rfl⟩
  | succ k ih =>
    have hk' : k < l.length := hk
    unfold removeLoop
    rw [List.getElem?_eq_getElem hk']
    simp only
    by_cases he : l[k].fcn = f
    · left
      rw [if_pos he]
      refine ⟨l.take k, l[k], l.drop (k + 1), ?_, he, h, ?_⟩
      · rw [← List.drop_eq_getElem_cons hk', List.take_append_drop]
      · rw [List.eraseIdx_eq_take_drop_succ]
    · rw [if_neg he]
      refine ih (by omega) ?_
      intro e hmem
      rw [List.drop_eq_getElem_cons hk'] at hmem
      rcases List.mem_cons.1 hmem with h1 | h1
      · subst h1; exact he
      · exact h e h1

theorem remove_spec (d : Dict F A) (s : String) (f : F) (l : List (Entry F A)) (hl : d s = some l) :
    ∃ r', remove (some d) s f = some r' ∧ WithoutLast f (callbacks (some d) s) (callbacks r' s)
      ∧ (∀ t, t ≠ s → callbacks r' t = callbacks (some d) t)
      ∧ ∃ d', r' = some d' ∧ ∀ t, (d' t).isSome = (d t).isSome := by
  unfold remove
  simp only [hl]
  refine ⟨_, rfl, ?_, ?_, _, rfl, ?_⟩
  · have hb : callbacks (some d) s = l.map (fun e => (e.fcn, e.args.getD [])) := by simp [callbacks, hl]
    rw [callbacks_put, if_pos rfl, hb]
    rcases removeLoop_spec f l l.length (Nat.le_refl _) (by simp) with ⟨l₁, e, l₂, h1, h2, h3, h4⟩ | ⟨h1, h2⟩
    · left
      refine ⟨l₁.map (fun e => (e.fcn, e.args.getD [])), e.args.getD [], l₂.map (fun e => (e.fcn, e.args.getD [])),
        ?_, ?_, ?_⟩
      · rw [h1]; simp [h2]
      · intro p hp
        obtain ⟨e', he', rfl⟩ := List.mem_map.1 hp
        exact h3 e' he'
      · rw [h4]; simp
    · right
      refine ⟨?_, by rw [h2]⟩
      intro p hp
      obtain ⟨e', he', rfl⟩ := List.mem_map.1 hp
      exact h1 e' he'
  · intro t ht; rw [callbacks_put, if_neg ht]
  · intro t
    unfold put
    by_cases h : t = s
    · subst h; simp [hl]
    · simp [h]

theorem exec_effect (r r' : Reg F A) (o : Op F A) (h : o.exec r = some r') :
    o.Effect (callbacks r) (callbacks r') := by
  cases o with
  | add s f a =>
    obtain ⟨r'', h1, h2, h3, -⟩ := add_spec r s f a
    have : r'' = r' := Option.some.inj (h1.symm.trans h)
    subst this
    exact ⟨h2, h3⟩
  | remove s f =>
    cases r with
    | none => simp [Op.exec, remove] at h
    | some d =>
      cases hl : d s with
      | none => simp [Op.exec, remove, hl] at h
      | some l =>
        obtain ⟨r'', h1, h2, h3, -⟩ := remove_spec d s f l hl
        have : r'' = r' := Option.some.inj (h1.symm.trans h)
        subst this
        exact ⟨h2, h3⟩

theorem withoutLast_append (f : F) (l l' : List (F × List A)) (a : List A) (h : WithoutLast f (l ++ [(f, a)]) l') :
    l' = l := by
  rcases h with ⟨l₁, b, l₂, h1, h2, h3⟩ | ⟨h1, -⟩
  · rcases List.eq_nil_or_concat l₂ with h4 | ⟨l₃, p, h4⟩
    · subst h4
      have := List.append_inj' h1 rfl
      simp [h3, this.1]
    · exfalso
      subst h4
      have h5 : l ++ [(f, a)] = (l₁ ++ (f, b) :: l₃) ++ [p] := by simpa using h1
      have h6 := (List.append_inj' h5 rfl).2
      have h7 : (f, a) = p := by simpa using h6
      exact h2 p (by simp) (by rw [← h7])
  · exact absurd rfl (h1 (f, a) (by simp))

/-! ## C46 -/

/-- **C46, registration and removal.** Whatever was registered before, each request of a history has exactly its
documented effect on the callbacks of all the stages: a registration appends the function with its arguments to its own
stage, a removal deletes the last registered instance of that function at its own stage, and no other stage changes. -/
theorem C46_registry (r r' r'' : Reg F A) (os : List (Op F A)) (o : Op F A)
    (_h : history r os = some r') (h' : history r (os ++ [o]) = some r'') :
    o.Effect (callbacks r') (callbacks r'') := by
  have key : ∀ (os : List (Op F A)) (r r' r'' : Reg F A), history r os = some r' → history r (os ++ [o]) = some r'' →
      o.exec r' = some r'' := by
    intro os
    induction os with
    | nil =>
      intro r r' r'' h h'
      have : r = r' := Option.some.inj h
      subst this
      simp only [List.nil_append, history] at h'
      cases he : o.exec r with
      | none => simp [he] at h'
      | some q => simp [he] at h'; rw [h']
    | cons o' os ih =>
      intro r r' r'' h h'
      simp only [List.cons_append, history] at h h'
      cases he : o'.exec r with
      | none => simp [he] at h
      | some q =>
        simp only [he, Option.bind_some] at h h'
        exact ih q r' r'' h h'
  exact exec_effect r' r'' o (key os r r' r'' _h h')

/-- **C46, registration always succeeds**, and the arguments given are those of the new entry even when the same
function is already registered. -/
theorem C46_add (r : Reg F A) (s : String) (f : F) (a : List A) :
    ∃ r', add r s f a = some r' ∧ callbacks r' s = callbacks r s ++ [(f, a)]
      ∧ ∀ t, t ≠ s → callbacks r' t = callbacks r t := by
  obtain ⟨r', h1, h2, h3, -⟩ := add_spec r s f a
  exact ⟨r', h1, h2, h3⟩

variable {S D O : Type}

/-- **C46, running.** At the stages `ext2int`, `formulation` and `int2ext` the callbacks run in registration order,
each with its own arguments on the result of the previous one, and the result of the last is returned. -/
theorem C46_run (c : Calls F A S D O) (d : Dict F A) (stage : String)
    (hs : stage ∈ ["ext2int", "formulation", "int2ext"]) (rv : S) (extra : Option (D × O)) :
    run c d stage rv extra = chain c.call2 (callbacks (some d) stage) rv := by
  have hs' : stage = "ext2int" ∨ stage = "formulation" ∨ stage = "int2ext" := by simpa using hs
  unfold run callbacks
  simp only [Option.bind_some]
  cases d stage with
  | none => rfl
  | some l =>
    simp only [Option.getD_some]
    induction l generalizing rv with
    | nil => rfl
    | cons e es ih =>
      simp only [runList, List.map_cons, chain, runOne, if_pos hs']
      have he : e.given = e.args.getD [] := by unfold Entry.given; cases e.args <;> rfl
      rw [he]
      cases c.call2 e.fcn rv (e.args.getD []) with
      | none => rfl
      | some q => exact ih q

/-- **C46, running at the printing stages.** The same with the file and the options passed along. -/
theorem C46_run_print (c : Calls F A S D O) (d : Dict F A) (stage : String)
    (hs : stage ∈ ["printpf", "savecase"]) (rv : S) (fd : D) (opt : O) :
    run c d stage rv (some (fd, opt)) = chain (fun f s a => c.call4 f s fd opt a) (callbacks (some d) stage) rv := by
  have hs' : stage = "printpf" ∨ stage = "savecase" := by simpa using hs
  have hs'' : ¬ (stage = "ext2int" ∨ stage = "formulation" ∨ stage = "int2ext") := by
    rcases hs' with rfl | rfl <;> decide
  unfold run callbacks
  simp only [Option.bind_some]
  cases d stage with
  | none => rfl
  | some l =>
    simp only [Option.getD_some]
    induction l generalizing rv with
    | nil => rfl
    | cons e es ih =>
      simp only [runList, List.map_cons, chain, runOne, if_pos hs', if_neg hs'']
      have he : e.given = e.args.getD [] := by unfold Entry.given; cases e.args <;> rfl
      rw [he]
      cases c.call4 e.fcn rv fd opt (e.args.getD []) with
      | none => rfl
      | some q => exact ih q

/-! ## C47 -/

/-- The function an extension registers at each of the five stages. -/
def Ext.at (x : Ext F) (stage : String) : List F :=
  if stage = "ext2int" then [x.ext2int] else if stage = "formulation" then [x.formulation]
  else if stage = "int2ext" then [x.int2ext] else if stage = "printpf" then [x.printpf]
  else if stage = "savecase" then [x.savecase] else []

/-- **C47, switching on.** When the data checks pass, each of the five stages gets the extension's callback appended,
without arguments, and nothing else changes. -/
theorem C47_on (k : Checks) (hk : k.pass = true) (x : Ext F) (r : Reg F A) :
    ∃ r', turnOn k x r = some r' ∧
      ∀ t, callbacks r' t = callbacks r t ++ (x.at t).map (fun f => (f, [])) := by
  obtain ⟨r1, h1, a1, b1, -⟩ := add_spec r "ext2int" x.ext2int ([] : List A)
  obtain ⟨r2, h2, a2, b2, -⟩ := add_spec r1 "formulation" x.formulation ([] : List A)
  obtain ⟨r3, h3, a3, b3, -⟩ := add_spec r2 "int2ext" x.int2ext ([] : List A)
  obtain ⟨r4, h4, a4, b4, -⟩ := add_spec r3 "printpf" x.printpf ([] : List A)
  obtain ⟨r5, h5, a5, b5, -⟩ := add_spec r4 "savecase" x.savecase ([] : List A)
  refine ⟨r5, by simp [turnOn, hk, h1, h2, h3, h4, h5], fun t => ?_⟩
  by_cases e1 : t = "ext2int"
  · subst e1
    rw [b5 _ (by decide), b4 _ (by decide), b3 _ (by decide), b2 _ (by decide), a1]; simp [Ext.at]
  by_cases e2 : t = "formulation"
  · subst e2
    rw [b5 _ (by decide), b4 _ (by decide), b3 _ (by decide), a2, b1 _ (by decide)]; simp [Ext.at]
  by_cases e3 : t = "int2ext"
  · subst e3
    rw [b5 _ (by decide), b4 _ (by decide), a3, b2 _ (by decide), b1 _ (by decide)]; simp [Ext.at]
  by_cases e4 : t = "printpf"
  · subst e4
    rw [b5 _ (by decide), a4, b3 _ (by decide), b2 _ (by decide), b1 _ (by decide)]; simp [Ext.at]
  by_cases e5 : t = "savecase"
  · subst e5
    rw [a5, b4 _ (by decide), b3 _ (by decide), b2 _ (by decide), b1 _ (by decide)]; simp [Ext.at]
  rw [b5 _ e5, b4 _ e4, b3 _ e3, b2 _ e2, b1 _ e1]; simp [Ext.at, e1, e2, e3, e4, e5]

/-- Every stage of `x` has a list in the dictionary. -/
def Present (d : Dict F A) : Prop :=
  ∀ s ∈ ["ext2int", "formulation", "int2ext", "printpf", "savecase"], (d s).isSome = true

theorem turnOn_present (k : Checks) (x : Ext F) (r r' : Reg F A) (h : turnOn k x r = some r') :
    ∃ d, r' = some d ∧ Present d := by
  have keep : ∀ (r r' : Reg F A) (s : String) (f : F) (a : List A), add r s f a = some r' →
      ∃ d', r' = some d' ∧ (d' s).isSome ∧ ∀ d, r = some d → ∀ t, (d t).isSome → (d' t).isSome := by
    intro r r' s f a h
    have aux : ∀ (d0 : Dict F A) (l : List (Entry F A)), (∀ d, r = some d → ∀ t, (d t).isSome → (d0 t).isSome) →
        ∀ d, r = some d → ∀ t, (d t).isSome → (put d0 s l t).isSome := by
      intro d0 l h0 d hd t ht
      unfold put
      split
      · rfl
      · exact h0 d hd t ht
    have hp : ∀ d, r = some d → ∀ t, (d t).isSome → ((prepared r s).1 t).isSome := by
      intro d hd t ht
      subst hd
      unfold prepared
      cases hds : d s with
      | none =>
        simp only [hds]
        unfold put
        split
        · rfl
        · exact ht
      | some l => simp only [hds]; exact ht
    unfold add at h
    simp only at h
    split at h
    · exact absurd h (by simp)
    · next l hl =>
      split at h
      · split at h
        · next l'' _ =>
          simp only [Option.some.injEq] at h
          exact ⟨_, h.symm, by simp [put], aux _ _ hp⟩
        · exact absurd h (by simp)
      · simp only [Option.some.injEq] at h
        exact ⟨_, h.symm, by simp [put], aux _ _ hp⟩
  unfold turnOn at h
  split at h
  · simp only [Option.bind_eq_bind, Option.bind_eq_some_iff] at h
    obtain ⟨r1, h1, r2, h2, r3, h3, r4, h4, h5⟩ := h
    obtain ⟨d1, e1, s1, -⟩ := keep _ _ _ _ _ h1
    obtain ⟨d2, e2, s2, m2⟩ := keep _ _ _ _ _ h2
    obtain ⟨d3, e3, s3, m3⟩ := keep _ _ _ _ _ h3
    obtain ⟨d4, e4, s4, m4⟩ := keep _ _ _ _ _ h4
    obtain ⟨d5, e5, s5, m5⟩ := keep _ _ _ _ _ h5
    refine ⟨d5, e5, ?_⟩
    have p4 := m5 d4 e4
    have p3 := fun t ht => p4 t (m4 d3 e3 t ht)
    have p2 := fun t ht => p3 t (m3 d2 e2 t ht)
    have p1 := fun t ht => p2 t (m2 d1 e1 t ht)
    intro s hs
    simp only [List.mem_cons, List.not_mem_nil, or_false] at hs
    rcases hs with rfl | rfl | rfl | rfl | rfl
    · exact p1 _ s1
    · exact p2 _ s2
    · exact p3 _ s3
    · exact p4 _ s4
    · exact s5
  · exact absurd h (by simp)

theorem remove_present (d : Dict F A) (hd : Present d) (s : String) (f : F)
    (hs : s ∈ ["ext2int", "formulation", "int2ext", "printpf", "savecase"]) :
    ∃ d', remove (some d) s f = some (some d') ∧ Present d'
      ∧ WithoutLast f (callbacks (some d) s) (callbacks (some d') s)
      ∧ ∀ t, t ≠ s → callbacks (some d') t = callbacks (some d) t := by
  obtain ⟨l, hl⟩ := Option.isSome_iff_exists.1 (hd s hs)
  obtain ⟨r', h1, h2, h3, d', h4, h5⟩ := remove_spec d s f l hl
  subst h4
  refine ⟨d', h1, ?_, h2, h3⟩
  intro t ht
  rw [h5 t]; exact hd t ht

/-- **C47, on then off.** Switching an extension on and then off succeeds and leaves the callbacks of every stage
exactly as they were, whatever was registered before (including earlier instances of the same extension). -/
theorem C47 (k : Checks) (hk : k.pass = true) (x : Ext F) (r : Reg F A) :
    ∃ r₁ r₂, turnOn k x r = some r₁ ∧ turnOff x r₁ = some r₂ ∧ callbacks r₂ = callbacks r := by
  obtain ⟨r1, h1, hc⟩ := C47_on k hk x r
  obtain ⟨d1, rfl, p1⟩ := turnOn_present k x r r1 h1
  obtain ⟨d2, e2, p2, w2, o2⟩ := remove_present d1 p1 "savecase" x.savecase (by simp)
  obtain ⟨d3, e3, p3, w3, o3⟩ := remove_present d2 p2 "printpf" x.printpf (by simp)
  obtain ⟨d4, e4, p4, w4, o4⟩ := remove_present d3 p3 "int2ext" x.int2ext (by simp)
  obtain ⟨d5, e5, p5, w5, o5⟩ := remove_present d4 p4 "formulation" x.formulation (by simp)
  obtain ⟨d6, e6, p6, w6, o6⟩ := remove_present d5 p5 "ext2int" x.ext2int (by simp)
  refine ⟨_, some d6, h1, by simp [turnOff, e2, e3, e4, e5, e6], funext fun t => ?_⟩
  by_cases t1 : t = "savecase"
  · subst t1
    rw [o6 _ (by decide), o5 _ (by decide), o4 _ (by decide), o3 _ (by decide)]
    rw [hc] at w2
    exact withoutLast_append _ _ _ [] (by simpa [Ext.at] using w2)
  by_cases t2 : t = "printpf"
  · subst t2
    rw [o6 _ (by decide), o5 _ (by decide), o4 _ (by decide)]
    rw [o2 _ (by decide), hc] at w3
    exact withoutLast_append _ _ _ [] (by simpa [Ext.at] using w3)
  by_cases t3 : t = "int2ext"
  · subst t3
    rw [o6 _ (by decide), o5 _ (by decide)]
    rw [o3 _ (by decide), o2 _ (by decide), hc] at w4
    exact withoutLast_append _ _ _ [] (by simpa [Ext.at] using w4)
  by_cases t4 : t = "formulation"
  · subst t4
    rw [o6 _ (by decide)]
    rw [o4 _ (by decide), o3 _ (by decide), o2 _ (by decide), hc] at w5
    exact withoutLast_append _ _ _ [] (by simpa [Ext.at] using w5)
  by_cases t5 : t = "ext2int"
  · subst t5
    rw [o5 _ (by decide), o4 _ (by decide), o3 _ (by decide), o2 _ (by decide), hc] at w6
    exact withoutLast_append _ _ _ [] (by simpa [Ext.at] using w6)
  rw [o6 _ t5, o5 _ t4, o4 _ t3, o3 _ t2, o2 _ t1, hc]
  simp [Ext.at, t1, t2, t3, t4, t5]

/-- Non-vacuity: two extensions can be nested, a callback added twice is removed once. -/
example : ∃ r, history (none : Reg Nat Nat) [.add "ext2int" 1 [7], .add "ext2int" 2 [], .add "ext2int" 1 [8],
    .remove "ext2int" 1] = some r ∧ callbacks r "ext2int" = [(1, [7]), (2, [])] := by
  refine ⟨_, rfl, by decide⟩

/-- Non-vacuity of the running theorems: the second callback sees the result of the first. -/
example : run (F := Nat) (A := Nat) (S := List Nat) (D := Unit) (O := Unit)
    ⟨fun f s a => some (s ++ [f] ++ a), fun _ s _ _ _ => some s⟩
    (put (fun _ => none) "int2ext" [⟨1, some [10]⟩, ⟨2, none⟩]) "int2ext" [0] none = some [0, 1, 10, 2] := by decide

/-- Non-vacuity of the data checks. -/
example : (Checks.dcline (some (17, [0, 1])) (some 2)).pass = true := by decide

end Verif.Userfcn
