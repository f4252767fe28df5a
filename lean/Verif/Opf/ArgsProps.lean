import Verif.Opf.ArgsModel
import Mathlib.Tactic.SplitIfs

/-!
# C100: the ways to call `opf` mean the same problem

`opfArgs` is what the arguments are understood to mean, `opfArgs2` the dictionary that `opf` works on.
-/

namespace Verif.Opf.Args

variable {V : Type} (e : Env V)

/-- Given: not `None` and not empty. -/
def Given (v : Option V) : Prop := ∃ x, v = some x ∧ e.len x ≠ 0

theorem blank_iff (v : Option V) : blank e v = false ↔ Given e v := by
  cases v with
  | none => simp [blank, Given]
  | some x => simp [blank, Given]

theorem blank_not {v : Option V} (h : ¬ Given e v) : blank e v = true := by
  rw [← blank_iff] at h
  simpa using h

theorem fromCase_spec {d : Dict V} {o : Opts V} {p : Parsed V} (h : fromCase e d o = some p) : ∃ base bus gen branch gencost cons cost,
    d "baseMVA" = some base ∧ d "bus" = some bus ∧ d "gen" = some gen ∧ d "branch" = some branch ∧ d "gencost" = some gencost ∧
    caseCons d o = some cons ∧ caseCost d o = some cost ∧
    p = ⟨⟨cons.1, cons.2.1, cons.2.2, o.ppopt, cost.1, if blank e o.fparm then (d "fparm").getD o.fparm else o.fparm, if o.H.isNone then (d "H").getD o.H else o.H, cost.2,
      if blank e o.z0 then (d "z0").getD o.z0 else o.z0, if blank e o.zl then (d "zl").getD o.zl else o.zl, if blank e o.zu then (d "zu").getD o.zu else o.zu,
      if blank e o.userfcn then (d "userfcn").getD o.userfcn else o.userfcn⟩, base, bus, gen, branch, (d "areas").getD (some e.empty), gencost⟩ := by
  simp only [fromCase, Option.bind_eq_bind, Option.bind_eq_some_iff] at h
  obtain ⟨b1, h1, b2, h2, b3, h3, b4, h4, b5, h5, cons, h6, cost, h7, h⟩ := h
  injection h with h
  exact ⟨b1, b2, b3, b4, b5, cons, cost, h1, h2, h3, h4, h5, h6, h7, h.symm⟩

theorem finish_spec {p q : Parsed V} (h : finish e p = some q) : ¬ (nwOf e p ≠ 0 ∧ (p.Cw.isNone ∨ p.fparm.isNone)) ∧
    q = { p with ppopt := if blank e p.ppopt then some e.ppoption else p.ppopt } := by
  unfold finish at h
  by_cases hn : nwOf e p ≠ 0 ∧ (p.Cw.isNone ∨ p.fparm.isNone)
  · rw [if_pos hn] at h
    cases h
  · rw [if_neg hn] at h
    injection h with h
    exact ⟨hn, h.symm⟩

/-- The keys `opf` handles itself. -/
def tableKeys : List String := ["baseMVA", "bus", "gen", "branch", "gencost"]
def userKeys : List String := ["A", "l", "u", "N", "Cw", "fparm", "H", "z0", "zl", "zu", "userfcn"]

/-- **C100 (short forms, case).**  Every documented short form with a case is the full form with the defaults spelled out: no options, no user function, no constraints,
no generalized cost, no user variables. -/
theorem C100_case_forms (f : First V) (hf : ∀ v, f ≠ .val v) (A l u po N fp H Cw uf : Option V) :
    opfArgs2 e f [] = opfArgs2 e f [some e.ppoption] ∧
    opfArgs2 e f [po] = opfArgs2 e f [some e.empty, po] ∧
    opfArgs2 e f [po] = opfArgs2 e f [none, some e.empty, some e.empty, po] ∧
    opfArgs2 e f [A, l, u] = opfArgs2 e f [A, l, u, some e.ppoption] ∧
    opfArgs2 e f [A, l, u, po] = opfArgs2 e f [A, l, u, po, none, some e.empty, none, some e.empty] ∧
    opfArgs2 e f [A, l, u, po, N, fp, H, Cw] = opfArgs2 e f [A, l, u, po, N, fp, H, Cw, some e.empty, some e.empty, some e.empty] ∧
    (Given e uf → ∀ p, opfArgs e f [uf, po] = some p → p.userfcn = uf) := by
  cases f with
  | val v => exact absurd rfl (hf v)
  | file s =>
    refine ⟨rfl, rfl, rfl, rfl, rfl, rfl, fun hu p hp => ?_⟩
    simp only [opfArgs, caseForm, Option.bind_eq_bind, Option.bind_some, Option.bind_eq_some_iff] at hp
    obtain ⟨d, -, d', -, q, hq, hp⟩ := hp
    obtain ⟨_, _, _, _, _, cons, cost, -, -, -, -, -, -, -, rfl⟩ := fromCase_spec e hq
    obtain ⟨-, rfl⟩ := finish_spec e hp
    simp only [(blank_iff e uf).2 hu]
    rfl
  | dict d =>
    refine ⟨rfl, rfl, rfl, rfl, rfl, rfl, fun hu p hp => ?_⟩
    simp only [opfArgs, caseForm, Option.bind_eq_bind, Option.bind_some, Option.bind_eq_some_iff] at hp
    obtain ⟨d', -, q, hq, hp⟩ := hp
    obtain ⟨_, _, _, _, _, cons, cost, -, -, -, -, -, -, -, rfl⟩ := fromCase_spec e hq
    obtain ⟨-, rfl⟩ := finish_spec e hp
    simp only [(blank_iff e uf).2 hu]
    rfl

/-- **C100 (short forms, tables).**  The same with the tables in place of a case. -/
theorem C100_table_forms (base bus gen branch areas gencost A l u po N fp H Cw uf : Option V) :
    let f := fun rest => opfArgs2 e (.val base) (bus :: gen :: branch :: areas :: gencost :: rest)
    f [] = f [some e.ppoption] ∧ f [po] = f [some e.empty, po] ∧ f [po] = f [none, some e.empty, some e.empty, po] ∧
    f [A, l, u] = f [A, l, u, some e.ppoption] ∧ f [A, l, u, po] = f [A, l, u, po, none, some e.empty, none, some e.empty] ∧
    f [A, l, u, po, N, fp, H, Cw] = f [A, l, u, po, N, fp, H, Cw, some e.empty, some e.empty, some e.empty] ∧
    (∀ p, opfArgs e (.val base) (bus :: gen :: branch :: areas :: gencost :: [uf, po]) = some p → p.userfcn = uf) := by
  refine ⟨rfl, rfl, rfl, rfl, rfl, rfl, fun p hp => ?_⟩
  simp only [opfArgs, tableForm, Option.bind_eq_bind, Option.bind_some] at hp
  obtain ⟨-, rfl⟩ := finish_spec e hp
  rfl

/-- **C100 (tables or case).**  A call with the tables means the same as one with a case that holds these tables and no user data. -/
theorem C100_tables_case (d L : Dict V) (hL : e.load d = some L) (base bus gen branch areas gencost : Option V) (rest : List (Option V))
    (h1 : L "baseMVA" = some base) (h2 : L "bus" = some bus) (h3 : L "gen" = some gen) (h4 : L "branch" = some branch) (h5 : L "areas" = some areas)
    (h6 : L "gencost" = some gencost) (hu : ∀ k ∈ userKeys, L k = none) :
    opfArgs e (.val base) (bus :: gen :: branch :: areas :: gencost :: rest) = opfArgs e (.dict d) rest := by
  have u := fun k hk => hu k hk
  have hform : tableForm e rest = caseForm e rest := rfl
  simp only [opfArgs, hform, hL, Option.bind_eq_bind, Option.bind_some]
  cases caseForm e rest with
  | none => rfl
  | some o =>
    simp only [Option.bind_some, fromCase, caseCons, caseCost, h1, h2, h3, h4, h5, h6, u "A" (by simp [userKeys]), u "N" (by simp [userKeys]), u "H" (by simp [userKeys]),
      u "fparm" (by simp [userKeys]), u "z0" (by simp [userKeys]), u "zl" (by simp [userKeys]), u "zu" (by simp [userKeys]), u "userfcn" (by simp [userKeys]),
      Option.isSome_none, Bool.false_eq_true, and_false, if_false, Option.getD_none, Option.getD_some, ite_self, Option.bind_eq_bind, Option.pure_def]

/-- **C100 (file or case).**  A case given by the name of its file is understood like the case itself ... -/
theorem C100_file_partial (s : String) (d : Dict V) (hd : e.file s = some d) (rest : List (Option V)) : opfArgs e (.file s) rest = opfArgs e (.dict d) rest := by
  simp only [opfArgs, hd, Option.bind_eq_bind, Option.bind_some]

/-- **C100 (number of arguments).**  Only the documented numbers of arguments are accepted. -/
theorem C100_counts (f : First V) (rest : List (Option V)) (h : (opfArgs2 e f rest).isSome) :
    match f with
    | .val _ => rest.length + 1 ∈ [6, 7, 8, 9, 10, 14, 17]
    | _ => rest.length + 1 ∈ [1, 2, 3, 4, 5, 9, 12] := by
  have key : (opfArgs e f rest).isSome := by
    unfold opfArgs2 at h
    cases hq : opfArgs e f rest with
    | none => rw [hq] at h; simp at h
    | some p => rfl
  have hlen : ∀ r : List (Option V), (caseForm e r).isSome → r.length + 1 ∈ [1, 2, 3, 4, 5, 9, 12] := by
    intro r hr
    unfold caseForm at hr
    split at hr <;> simp_all
  have hlen' : ∀ r : List (Option V), (tableForm e r).isSome → r.length + 6 ∈ [6, 7, 8, 9, 10, 14, 17] := by
    intro r hr
    unfold tableForm at hr
    split at hr <;> simp_all
  cases f with
  | file s =>
    refine hlen _ ?_
    simp only [opfArgs, Option.bind_eq_bind] at key
    cases hc : caseForm e rest with
    | none => rw [hc] at key; simp at key
    | some o => rfl
  | dict d =>
    refine hlen _ ?_
    simp only [opfArgs, Option.bind_eq_bind] at key
    cases hc : caseForm e rest with
    | none => rw [hc] at key; simp at key
    | some o => rfl
  | val v =>
    unfold opfArgs at key
    split at key
    · cases ‹First.val v = _›
    · cases ‹First.val v = _›
    · rename_i b g br a gc r _
      have : (tableForm e r).isSome := by
        cases hc : tableForm e r with
        | none => rw [hc] at key; simp at key
        | some o => rfl
      simpa using hlen' _ this
    · cases key

/-- What a call with a case amounts to. -/
theorem case_spec {d : Dict V} {rest : List (Option V)} {p : Parsed V} (hp : opfArgs e (.dict d) rest = some p) : ∃ o L q, caseForm e rest = some o ∧ e.load d = some L ∧
    fromCase e L o = some q ∧ finish e q = some p := by
  simp only [opfArgs, Option.bind_eq_bind, Option.bind_eq_some_iff] at hp
  obtain ⟨o, h1, L, h2, q, h3, h4⟩ := hp
  exact ⟨o, L, q, h1, h2, h3, h4⟩

/-- **C100 (arguments win).**  What is given as an argument is used, whatever the case says; the tables are those of the case. -/
theorem C100_arguments (d L : Dict V) (hL : e.load d = some L) (A l u po N fp H Cw z0 zl zu : Option V) (p : Parsed V)
    (hp : opfArgs e (.dict d) [A, l, u, po, N, fp, H, Cw, z0, zl, zu] = some p) :
    (A.isSome → p.Au = A ∧ p.lbu = l ∧ p.ubu = u) ∧ (N.isSome → p.N = N ∧ p.Cw = Cw) ∧ (H.isSome → p.H = H) ∧ (Given e fp → p.fparm = fp) ∧
    (Given e z0 → p.z0 = z0) ∧ (Given e zl → p.zl = zl) ∧ (Given e zu → p.zu = zu) ∧ (Given e po → p.ppopt = po) ∧ (¬ Given e po → p.ppopt = some e.ppoption) ∧
    L "baseMVA" = some p.baseMVA ∧ L "bus" = some p.bus ∧ L "gen" = some p.gen ∧ L "branch" = some p.branch ∧ L "gencost" = some p.gencost := by
  obtain ⟨o, L', q, h1, h2, h3, h4⟩ := case_spec e hp
  rw [hL] at h2; cases h2
  injection h1 with h1
  obtain ⟨b1, b2, b3, b4, b5, cons, cost, t1, t2, t3, t4, t5, k1, k2, rfl⟩ := fromCase_spec e h3
  obtain ⟨-, rfl⟩ := finish_spec e h4
  subst h1
  refine ⟨fun h => ?_, fun h => ?_, fun h => ?_, fun h => ?_, fun h => ?_, fun h => ?_, fun h => ?_, fun h => ?_, fun h => ?_, t1, t2, t3, t4, t5⟩
  · obtain ⟨v, rfl⟩ := Option.isSome_iff_exists.1 h
    simp only [caseCons, Option.isNone_some, Bool.false_eq_true, false_and, if_false, Option.pure_def, Option.some.injEq] at k1
    rw [← k1]
    exact ⟨rfl, rfl, rfl⟩
  · obtain ⟨v, rfl⟩ := Option.isSome_iff_exists.1 h
    simp only [caseCost, Option.isNone_some, Bool.false_eq_true, false_and, if_false, Option.pure_def, Option.some.injEq] at k2
    rw [← k2]
    exact ⟨rfl, rfl⟩
  · obtain ⟨v, rfl⟩ := Option.isSome_iff_exists.1 h
    rfl
  all_goals first
    | simp only [(blank_iff e _).2 h]; rfl
    | simp only [blank_not e h]; rfl

/-- **C100 (the case fills in).**  What is not given as an argument is taken from the case. -/
theorem C100_case_fills (d L : Dict V) (hL : e.load d = some L) (A l u po N fp H Cw z0 zl zu : Option V) (p : Parsed V)
    (hp : opfArgs e (.dict d) [A, l, u, po, N, fp, H, Cw, z0, zl, zu] = some p) :
    (A = none → (L "A").isSome → L "A" = some p.Au ∧ L "l" = some p.lbu ∧ L "u" = some p.ubu) ∧
    (N = none → (L "N").isSome → L "N" = some p.N ∧ L "Cw" = some p.Cw) ∧ (H = none → (L "H").isSome → L "H" = some p.H) ∧
    (¬ Given e fp → (L "fparm").isSome → L "fparm" = some p.fparm) ∧ (¬ Given e z0 → (L "z0").isSome → L "z0" = some p.z0) ∧
    (¬ Given e zl → (L "zl").isSome → L "zl" = some p.zl) ∧ (¬ Given e zu → (L "zu").isSome → L "zu" = some p.zu) ∧
    ((L "userfcn").isSome → e.len e.empty = 0 → L "userfcn" = some p.userfcn) := by
  obtain ⟨o, L', q, h1, h2, h3, h4⟩ := case_spec e hp
  rw [hL] at h2; cases h2
  injection h1 with h1
  obtain ⟨b1, b2, b3, b4, b5, cons, cost, -, -, -, -, -, k1, k2, rfl⟩ := fromCase_spec e h3
  obtain ⟨-, rfl⟩ := finish_spec e h4
  subst h1
  refine ⟨fun h hs => ?_, fun h hs => ?_, fun h hs => ?_, fun h hs => ?_, fun h hs => ?_, fun h hs => ?_, fun h hs => ?_, fun hs h => ?_⟩
  · subst h
    simp only [caseCons, Option.isNone_none, hs, and_self, if_true, Option.bind_eq_bind, Option.bind_eq_some_iff] at k1
    obtain ⟨a1, e1, a2, e2, a3, e3, k1⟩ := k1
    injection k1 with k1
    rw [← k1]
    exact ⟨e1, e2, e3⟩
  · subst h
    simp only [caseCost, Option.isNone_none, hs, and_self, if_true, Option.bind_eq_bind, Option.bind_eq_some_iff] at k2
    obtain ⟨a1, e1, a2, e2, k2⟩ := k2
    injection k2 with k2
    rw [← k2]
    exact ⟨e1, e2⟩
  · subst h
    obtain ⟨v, hv⟩ := Option.isSome_iff_exists.1 hs
    rw [hv]
    rfl
  · obtain ⟨v, hv⟩ := Option.isSome_iff_exists.1 hs
    simp only [blank_not e h, hv, if_true, Option.getD_some]
  · obtain ⟨v, hv⟩ := Option.isSome_iff_exists.1 hs
    simp only [blank_not e h, hv, if_true, Option.getD_some]
  · obtain ⟨v, hv⟩ := Option.isSome_iff_exists.1 hs
    simp only [blank_not e h, hv, if_true, Option.getD_some]
  · obtain ⟨v, hv⟩ := Option.isSome_iff_exists.1 hs
    simp only [blank_not e h, hv, if_true, Option.getD_some]
  · obtain ⟨v, hv⟩ := Option.isSome_iff_exists.1 hs
    have : blank e (some e.empty) = true := by simp [blank, h]
    simp only [this, hv, if_true, Option.getD_some]

/-! ### The dictionary `opf` works on -/

theorem set_apply (d : Dict V) (k k' : String) (v : Option V) : set d k v k' = if k' = k then some v else d k' := rfl

theorem put_apply (d : Dict V) (k k' : String) (v : Option V) : put e d k v k' = if k' = k then (if blank e v then d k else some v) else d k' := by
  unfold put
  split_ifs with h1 h2 h2
  · rw [h2]
  · rfl
  · rw [h2, set_apply, if_pos rfl]
  · rw [set_apply, if_neg h2]

/-- The dictionary, key by key. -/
theorem dict_spec {f : First V} {rest : List (Option V)} {d2 : Dict V} {po : Option V} (h : opfArgs2 e f rest = some (d2, po)) : ∃ p, opfArgs e f rest = some p ∧
    po = p.ppopt ∧
    d2 "baseMVA" = some p.baseMVA ∧ d2 "bus" = some p.bus ∧ d2 "gen" = some p.gen ∧ d2 "branch" = some p.branch ∧ d2 "gencost" = some p.gencost ∧
    d2 "A" = (if blank e p.lbu then startDict f "A" else some p.Au) ∧ d2 "l" = (if blank e p.lbu then startDict f "l" else some p.lbu) ∧
    d2 "u" = (if blank e p.lbu then startDict f "u" else some p.ubu) ∧
    d2 "N" = (if blank e p.Cw then startDict f "N" else some p.N) ∧ d2 "Cw" = (if blank e p.Cw then startDict f "Cw" else some p.Cw) ∧
    d2 "fparm" = (if blank e p.Cw then startDict f "fparm" else if blank e p.fparm then startDict f "fparm" else some p.fparm) ∧
    d2 "H" = (if blank e p.Cw then startDict f "H" else some p.H) ∧
    d2 "z0" = (if blank e p.z0 then startDict f "z0" else some p.z0) ∧ d2 "zl" = (if blank e p.zl then startDict f "zl" else some p.zl) ∧
    d2 "zu" = (if blank e p.zu then startDict f "zu" else some p.zu) ∧ d2 "userfcn" = (if blank e p.userfcn then startDict f "userfcn" else some p.userfcn) ∧
    ∀ k, k ∉ tableKeys → k ∉ userKeys → k ≠ "areas" → d2 k = startDict f k := by
  simp only [opfArgs2, Option.bind_eq_bind, Option.bind_eq_some_iff] at h
  obtain ⟨p, hp, d1, h1, h2⟩ := h
  simp only [Option.pure_def, Option.some.injEq, Prod.mk.injEq] at h2
  obtain ⟨rfl, h3⟩ := h2
  have key : ∀ k, k ≠ "N" → k ≠ "Cw" → k ≠ "fparm" → k ≠ "H" → d1 k = putCons e p (put e (putTables p (startDict f)) "areas" p.areas) k := by
    intro k k1 k2 k3 k4
    unfold putCost at h1
    split_ifs at h1
    · injection h1 with h1
      rw [h1]
    · injection h1 with h1
      rw [← h1, set_apply, if_neg k4, put_apply, if_neg k3, set_apply, if_neg k2, set_apply, if_neg k1]
  have lin : ∀ k, k ≠ "A" → k ≠ "l" → k ≠ "u" → k ≠ "areas" → putCons e p (put e (putTables p (startDict f)) "areas" p.areas) k = putTables p (startDict f) k := by
    intro k k1 k2 k3 k4
    unfold putCons
    split_ifs
    · rw [put_apply, if_neg k4]
    · rw [set_apply, if_neg k3, set_apply, if_neg k2, set_apply, if_neg k1, put_apply, if_neg k4]
  have other : ∀ k, k ∉ tableKeys → putTables p (startDict f) k = startDict f k := by
    intro k hk
    simp only [tableKeys, List.mem_cons, List.not_mem_nil, or_false, not_or] at hk
    obtain ⟨k1, k2, k3, k4, k5⟩ := hk
    unfold putTables
    rw [set_apply, if_neg k5, set_apply, if_neg k4, set_apply, if_neg k3, set_apply, if_neg k2, set_apply, if_neg k1]
  refine ⟨p, hp, h3.symm, ?_, ?_, ?_, ?_, ?_, ?_, ?_, ?_, ?_, ?_, ?_, ?_, ?_, ?_, ?_, ?_, fun k hk1 hk2 hk3 => ?_⟩
  iterate 5
    simp only [put_apply, String.reduceEq, if_false]
    rw [key _ (by decide) (by decide) (by decide) (by decide), lin _ (by decide) (by decide) (by decide) (by decide)]
    simp [putTables, set_apply]
  iterate 3
    simp only [put_apply]
    simp only [key, putCons, ne_eq, String.reduceEq, not_false_eq_true, if_false]
    split_ifs <;> simp [set_apply, put_apply, putTables]
  iterate 4
    simp only [put_apply, String.reduceEq, if_false]
    unfold putCost at h1
    split_ifs at h1 with hc hf
    · injection h1 with h1
      rw [← h1, lin _ (by decide) (by decide) (by decide) (by decide), other _ (by decide), if_pos hc]
    · injection h1 with h1
      rw [← h1, if_neg hc]
      simp only [set_apply, put_apply, String.reduceEq, if_false, if_true]
      try rw [lin _ (by decide) (by decide) (by decide) (by decide), other _ (by decide)]
  iterate 4
    simp only [put_apply, String.reduceEq, if_false, if_true]
    rw [key _ (by decide) (by decide) (by decide) (by decide), lin _ (by decide) (by decide) (by decide) (by decide), other _ (by decide)]
  · simp only [userKeys, List.mem_cons, List.not_mem_nil, or_false, not_or] at hk2
    obtain ⟨k1, k2, k3, k4, k5, k6, k7, k8, k9, k10, k11⟩ := hk2
    rw [put_apply, if_neg k11, put_apply, if_neg k10, put_apply, if_neg k9, put_apply, if_neg k8, key k k4 k5 k6 k7, lin k k1 k2 k3 hk3, other k hk1]

/-- A value that was filled in from the case is not put back differently. -/
theorem fill (x : Option (Option V)) (v : Option V) :
    (if blank e (if blank e v then x.getD v else v) then x else some (if blank e v then x.getD v else v)) = if blank e v then x else some v := by
  by_cases hv : blank e v = true
  · simp only [hv, if_true]
    cases x with
    | none => simp [hv]
    | some w => simp
  · have hv' : blank e v = false := by simpa using hv
    simp [hv']

/-- **C100 (the problem that is solved, case).**  Whatever is given as an argument is in the dictionary `opf` works on; what is not given is there as in the case; so is
everything `opf` does not know about.  Assumes that `loadcase` leaves user data alone.  The full claim would be that a given, empty list of constraints replaces that
of the case; it does not (`C100_empty_negation`). -/
theorem C100_dictionary_partial (d L : Dict V) (hL : e.load d = some L) (hu : ∀ k ∈ userKeys, L k = d k) (A l u po N fp H Cw z0 zl zu : Option V)
    (d2 : Dict V) (po' : Option V) (h : opfArgs2 e (.dict d) [A, l, u, po, N, fp, H, Cw, z0, zl, zu] = some (d2, po')) :
    (∀ k ∈ tableKeys, d2 k = L k) ∧ (∀ k, k ∉ tableKeys → k ∉ userKeys → k ≠ "areas" → d2 k = d k) ∧
    (A.isSome → Given e l → d2 "A" = some A ∧ d2 "l" = some l ∧ d2 "u" = some u) ∧
    (A = none → ¬ Given e l → d2 "A" = d "A" ∧ d2 "l" = d "l" ∧ d2 "u" = d "u") ∧
    (N.isSome → Given e Cw → d2 "N" = some N ∧ d2 "Cw" = some Cw ∧ (H.isSome → d2 "H" = some H) ∧ (Given e fp → d2 "fparm" = some fp)) ∧
    (N = none → ¬ Given e Cw → d2 "N" = d "N" ∧ d2 "Cw" = d "Cw") ∧ (¬ Given e fp → d2 "fparm" = d "fparm") ∧
    (Given e z0 → d2 "z0" = some z0) ∧ (¬ Given e z0 → d2 "z0" = d "z0") ∧
    (Given e zl → d2 "zl" = some zl) ∧ (¬ Given e zl → d2 "zl" = d "zl") ∧ (Given e zu → d2 "zu" = some zu) ∧ (¬ Given e zu → d2 "zu" = d "zu") ∧
    (Given e po → po' = po) ∧ (¬ Given e po → po' = some e.ppoption) := by
  obtain ⟨p, hp, hpo, t1, t2, t3, t4, t5, kA, kl, ku, kN, kC, kf, kH, k0, k1, k2, ko⟩ := dict_spec e h
  obtain ⟨o, L', q, h1, h2, h3, h4⟩ := case_spec e hp
  rw [hL] at h2; cases h2
  injection h1 with h1
  obtain ⟨b1, b2, b3, b4, b5, cons, cost, e1, e2, e3, e4, e5, f1, f2, rfl⟩ := fromCase_spec e h3
  obtain ⟨-, rfl⟩ := finish_spec e h4
  subst h1
  have hu' : ∀ k ∈ userKeys, d k = L k := fun k hk => (hu k hk).symm
  simp only [startDict, hu' "A" (by decide), hu' "l" (by decide), hu' "u" (by decide), hu' "N" (by decide), hu' "Cw" (by decide), hu' "fparm" (by decide),
    hu' "H" (by decide), hu' "z0" (by decide), hu' "zl" (by decide), hu' "zu" (by decide)] at kA kl ku kN kC kf kH k0 k1 k2 ⊢
  rw [fill] at k0 k1 k2
  refine ⟨?_, ko.2, fun hA hl => ?_, fun hA hl => ?_, fun hN hC => ?_, fun hN hC => ?_, fun hf => ?_, fun hg => ?_, fun hg => ?_, fun hg => ?_, fun hg => ?_, fun hg => ?_,
    fun hg => ?_, fun hg => ?_, fun hg => ?_⟩
  · intro k hk
    simp only [tableKeys, List.mem_cons, List.not_mem_nil, or_false] at hk
    rcases hk with rfl | rfl | rfl | rfl | rfl
    · exact t1.trans e1.symm
    · exact t2.trans e2.symm
    · exact t3.trans e3.symm
    · exact t4.trans e4.symm
    · exact t5.trans e5.symm
  · obtain ⟨v, rfl⟩ := Option.isSome_iff_exists.1 hA
    simp only [caseCons, Option.isNone_some, Bool.false_eq_true, false_and, if_false, Option.pure_def, Option.some.injEq] at f1
    subst f1
    simp only [(blank_iff e l).2 hl, Bool.false_eq_true, if_false] at kA kl ku
    exact ⟨kA, kl, ku⟩
  · subst hA
    by_cases hs : (L "A").isSome
    · simp only [caseCons, Option.isNone_none, hs, and_self, if_true, Option.bind_eq_bind, Option.bind_eq_some_iff] at f1
      obtain ⟨x1, g1, x2, g2, x3, g3, f1⟩ := f1
      injection f1 with f1
      subst f1
      rw [g1, g2, g3]
      rw [g1] at kA
      rw [g2] at kl
      rw [g3] at ku
      simp only [ite_self] at kA kl ku
      exact ⟨kA, kl, ku⟩
    · simp only [caseCons, hs, Bool.false_eq_true, and_false, if_false, Option.pure_def, Option.some.injEq] at f1
      subst f1
      simp only [blank_not e hl, if_true] at kA kl ku
      exact ⟨kA, kl, ku⟩
  · obtain ⟨v, rfl⟩ := Option.isSome_iff_exists.1 hN
    simp only [caseCost, Option.isNone_some, Bool.false_eq_true, false_and, if_false, Option.pure_def, Option.some.injEq] at f2
    subst f2
    simp only [(blank_iff e Cw).2 hC, Bool.false_eq_true, if_false] at kN kC kf kH
    refine ⟨kN, kC, fun hH => ?_, fun hf => ?_⟩
    · obtain ⟨w, rfl⟩ := Option.isSome_iff_exists.1 hH
      exact kH
    · rw [fill] at kf
      simpa only [(blank_iff e fp).2 hf, Bool.false_eq_true, if_false] using kf
  · subst hN
    by_cases hs : (L "N").isSome
    · simp only [caseCost, Option.isNone_none, hs, and_self, if_true, Option.bind_eq_bind, Option.bind_eq_some_iff] at f2
      obtain ⟨x1, g1, x2, g2, f2⟩ := f2
      injection f2 with f2
      subst f2
      rw [g1, g2]
      rw [g1] at kN
      rw [g2] at kC
      simp only [ite_self] at kN kC
      exact ⟨kN, kC⟩
    · simp only [caseCost, hs, Bool.false_eq_true, and_false, if_false, Option.pure_def, Option.some.injEq] at f2
      subst f2
      simp only [blank_not e hC, if_true] at kN kC
      exact ⟨kN, kC⟩
  · rw [fill] at kf
    simpa only [blank_not e hf, if_true, ite_self] using kf
  · simpa only [(blank_iff e z0).2 hg, Bool.false_eq_true, if_false] using k0
  · simpa only [blank_not e hg, if_true] using k0
  · simpa only [(blank_iff e zl).2 hg, Bool.false_eq_true, if_false] using k1
  · simpa only [blank_not e hg, if_true] using k1
  · simpa only [(blank_iff e zu).2 hg, Bool.false_eq_true, if_false] using k2
  · simpa only [blank_not e hg, if_true] using k2
  · rw [hpo]
    simp only [(blank_iff e po).2 hg, Bool.false_eq_true, if_false]
  · rw [hpo]
    simp only [blank_not e hg, if_true]

/-- ... but everything `opf` does not know about -- the data of user functions, for instance -- is lost. -/
theorem C100_file_loses (s : String) (rest : List (Option V)) (d2 : Dict V) (po : Option V) (h : opfArgs2 e (.file s) rest = some (d2, po)) (k : String)
    (h1 : k ∉ tableKeys) (h2 : k ∉ userKeys) (h3 : k ≠ "areas") : d2 k = none := by
  obtain ⟨p, -, -, -, -, -, -, -, -, -, -, -, -, -, -, -, -, -, -, ko⟩ := dict_spec e h
  exact ko k h1 h2 h3

/-! ### The examples and where the claim fails -/

/-- Values are lists. -/
def exEnv (D : Dict (List ℕ)) : Env (List ℕ) where
  len := List.length
  rows := List.length
  empty := []
  ppoption := [1]
  file := fun s => if s = "case9" then some D else none
  load := some

/-- A case with constraints, reserves, and user variables. -/
def exDict : Dict (List ℕ)
  | "baseMVA" => some (some [100])
  | "bus" => some (some [1, 2])
  | "gen" => some (some [1])
  | "branch" => some (some [12])
  | "gencost" => some (some [5])
  | "A" => some (some [7, 7])
  | "l" => some (some [3])
  | "u" => some (some [4])
  | "z0" => some (some [9])
  | "reserves" => some (some [50])
  | _ => none

example : ∃ d2 po, (∀ k ∈ userKeys, exDict k = exDict k) ∧ (exEnv exDict).load exDict = some exDict ∧
    opfArgs2 (exEnv exDict) (.dict exDict) [none, some [], some [], none, some [6], some [1], none, some [2], some [8], some [], some []] = some (d2, po) ∧
    d2 "A" = some (some [7, 7]) ∧ d2 "N" = some (some [6]) ∧ d2 "z0" = some (some [8]) ∧ d2 "reserves" = some (some [50]) ∧ po = some [1] :=
  ⟨_, _, fun _ _ => rfl, rfl, rfl, rfl, rfl, rfl, rfl, rfl⟩

/-- **C100 fails** for a case given by name: the same case as a dictionary still has its reserve data. -/
theorem C100_file_negation : ∃ (e : Env (List ℕ)) (s : String) (d d1 d2 : Dict (List ℕ)) (po : Option (List ℕ)), e.file s = some d ∧ opfArgs2 e (.dict d) [] = some (d1, po) ∧
    opfArgs2 e (.file s) [] = some (d2, po) ∧ d1 "reserves" = some (some [50]) ∧ d2 "reserves" = none :=
  ⟨exEnv exDict, "case9", exDict, _, _, _, rfl, rfl, rfl, rfl, rfl⟩

/-- **C100 fails** for constraints given as empty: the arguments say there are none, the dictionary `opf` works on still holds those of the case. -/
theorem C100_empty_negation : ∃ (e : Env (List ℕ)) (d d2 : Dict (List ℕ)) (po : Option (List ℕ)) (p : Parsed (List ℕ)),
    opfArgs e (.dict d) [some [], some [], some []] = some p ∧ p.Au = some [] ∧ p.lbu = some [] ∧
    opfArgs2 e (.dict d) [some [], some [], some []] = some (d2, po) ∧ d2 "A" = some (some [7, 7]) :=
  ⟨exEnv exDict, exDict, _, _, _, rfl, rfl, rfl, rfl, rfl⟩

end Verif.Opf.Args
