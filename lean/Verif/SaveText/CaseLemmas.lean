import Verif.SaveText.FileLemmas

/-!
# From a case to its file and back
-/

namespace Verif.SaveText

open CaseIO

/-! ### Rows -/

theorem formatRows_eq {fs : List Fmt} {cut : List Num → List Num} {rows : List (List Num)} {t : Prs} :
    formatRows fs cut rows = some t ↔ (∀ r ∈ rows, (cut r).length = fs.length) ∧ t = rows.map fun r => fs.zip (cut r) := by
  induction rows generalizing t with
  | nil => simp [formatRows, eq_comm]
  | cons r rows ih =>
    rw [formatRows, format]
    by_cases h : fs.length = (cut r).length
    · rw [if_pos h]
      cases hr : formatRows fs cut rows with
      | none =>
        simp only [List.mem_cons, forall_eq_or_imp, reduceCtorEq, List.map_cons, false_iff]
        rintro ⟨⟨_, h1⟩, _⟩
        have := (ih (t := rows.map fun r => fs.zip (cut r))).2 ⟨h1, rfl⟩
        rw [hr] at this
        exact absurd this (by simp)
      | some x =>
        obtain ⟨h1, h2⟩ := ih.1 hr
        subst h2
        simp only [List.mem_cons, forall_eq_or_imp, List.map_cons, Option.some.injEq]
        constructor
        · rintro rfl
          exact ⟨⟨h.symm, h1⟩, rfl⟩
        · rintro ⟨_, rfl⟩
          rfl
    · rw [if_neg h]
      simp only [List.mem_cons, forall_eq_or_imp, reduceCtorEq, false_iff]
      rintro ⟨⟨h1, _⟩, _⟩
      exact h h1.symm

theorem rect_of_lengths {t : Prs} {n : ℕ} (h : ∀ r ∈ t, r.length = n) : RectP t := by
  intro r hr
  cases t with
  | nil => simp at hr
  | cons a t =>
    rw [h r hr]
    exact (h a List.mem_cons_self).symm

theorem rect_format {fs : List Fmt} {cut : List Num → List Num} {rows : List (List Num)} {t : Prs} (h : formatRows fs cut rows = some t) :
    (∀ r ∈ t, r.length = fs.length) ∧ RectP t := by
  obtain ⟨h1, rfl⟩ := formatRows_eq.1 h
  have : ∀ r ∈ rows.map fun r => fs.zip (cut r), r.length = fs.length := by
    intro r hr
    obtain ⟨a, ha, rfl⟩ := List.mem_map.1 hr
    simp [h1 a ha]
  exact ⟨this, rect_of_lengths this⟩

theorem rect_bus {t : Table Num} {p : Prs} (h : saveBus t = some p) : RectP p := by
  unfold saveBus at h
  split at h <;> exact (rect_format h).2

theorem rect_gen {t : Table Num} {p : Prs} (h : saveGen t = some p) : RectP p ∧ ∀ r ∈ p, 21 ≤ r.length := by
  unfold saveGen at h
  split at h
  · exact ⟨(rect_format h).2, fun r hr => by rw [(rect_format h).1 r hr]; decide⟩
  · exact ⟨(rect_format h).2, fun r hr => by rw [(rect_format h).1 r hr]; decide⟩

theorem rect_branch {t : Table Num} {p : Prs} (h : saveBranch t = some p) : RectP p := by
  unfold saveBranch at h
  split at h
  · exact (rect_format h).2
  · split at h <;> exact (rect_format h).2

theorem rect_cost {t : Table Num} {p : Prs} (h : costRows t = some p) : RectP p := by
  obtain ⟨rs, _, h⟩ := Option.bind_eq_some_iff.1 h
  exact (rect_format h).2

/-! ### Which tables are printed -/

/-- What is printed in the tables of a file. -/
structure Prints where
  bus : Prs
  gen : Prs
  branch : Prs
  areas : Option Prs
  cost : Option Prs
  z0 : Option Prs
  zl : Option Prs
  zu : Option Prs

def areasPrs : Option (Table Num) → Option (Option Prs)
  | some t => if t.rows = [] then some none else (formatRows [.d, .d] (List.take 2) t.rows).map some
  | none => some none

def costPrs : Option (Table Num) → Option (Option Prs)
  | some t => if t.rows = [] then some none else (costRows t).map some
  | none => some none

def zPrs : Option (List Num) → Option (Option Prs)
  | none => some none
  | some [] => some none
  | some [x] => some (some [[(.g9, x)]])
  | some _ => none

/-- The tables a case prints, with their formats; `none` when a row does not fit its format. -/
def prints (c : SaveCase) : Option Prints := do
  let bus ← saveBus c.bus
  let gen ← saveGen c.gen
  let branch ← saveBranch c.branch
  let areas ← areasPrs c.areas
  let cost ← costPrs c.gencost
  userText c.A
  userText c.N
  let z0 ← zPrs c.z0
  let zl ← zPrs c.zl
  let zu ← zPrs c.zu
  some ⟨bus, gen, branch, areas, cost, z0, zl, zu⟩

def opt (n : ℕ) (key : List Char) : Option Prs → Ps
  | some p => [(n, key, p)]
  | none => []

/-- The assignments in the order of the file. -/
def Prints.list (P : Prints) : Ps :=
  [(4, "bus".toList, P.bus)] ++ ([(4, "gen".toList, P.gen)] ++ ([(4, "branch".toList, P.branch)] ++ ((opt 4 "areas".toList P.areas ++ opt 4 "gencost".toList P.cost) ++
    (opt 4 "z0".toList P.z0 ++ (opt 8 "zl".toList P.zl ++ opt 4 "zu".toList P.zu)))))

/-- The values printed with `%d` are finite. -/
def dFin (t : Prs) : Bool := t.all fun r => r.all fun p => p.1 != .d || p.2.isFin

theorem cellText_some (p : Fmt × Num) : (cellText p).isSome = (p.1 != .d || p.2.isFin) := by
  rcases p with ⟨_ | _ | _, _ | _ | _⟩ <;> rfl

theorem mapAll_isSome {α β : Type} (f : α → Option β) (l : List α) : (mapAll f l).isSome = l.all fun a => (f a).isSome := by
  induction l with
  | nil => rfl
  | cons a l ih =>
    rw [mapAll_cons, List.all_cons, ← ih]
    cases f a with
    | none => rfl
    | some b => cases mapAll f l <;> rfl

theorem cells_isSome (t : Prs) : (mapAll (mapAll cellText) t).isSome = dFin t := by
  rw [mapAll_isSome, dFin]
  congr 1
  funext r
  rw [mapAll_isSome]
  congr 1
  funext p
  exact cellText_some p

theorem table_some {head ind : List Char} {q : Char} {key : List Char} {t : Prs} (h : dFin t = true) : ∃ x, tableText head ind q key (some t) = some x := by
  rw [← cells_isSome] at h
  obtain ⟨y, hy⟩ := Option.isSome_iff_exists.1 h
  exact ⟨_, by unfold tableText; rw [Option.bind_some, hy]; rfl⟩

theorem table_fin {head ind : List Char} {q : Char} {key x : List Char} {o : Option Prs} (h : tableText head ind q key o = some x) : ∃ t, o = some t ∧ dFin t = true := by
  obtain ⟨y, hy, _⟩ := Option.map_eq_some_iff.1 h
  obtain ⟨t, ht, hy⟩ := Option.bind_eq_some_iff.1 hy
  exact ⟨t, ht, by rw [← cells_isSome, hy]; rfl⟩

/-! ### Comments -/

theorem run_ind1 (out : List Tok) : run ⟨.bol 0, 0, out⟩ indent1 = some ⟨.bol 4, 0, out⟩ := rfl
theorem run_ind2 (out : List Tok) : run ⟨.bol 0, 0, out⟩ indent2 = some ⟨.bol 8, 0, out⟩ := rfl

theorem chunk_const {t : List Char} (h : ∀ out, run ⟨.bol 0, 0, out⟩ t = some ⟨.bol 0, 0, out⟩) : Chunk t [] := ⟨fun out r => run_of (h out) r, by simp⟩

set_option maxRecDepth 20000 in
theorem chunk_busHead (n : ℕ) : Chunk (busHead n) [] := by
  unfold busHead
  split
  · exact chunk_const fun _ => rfl
  · exact chunk_const fun _ => rfl

set_option maxRecDepth 20000 in
theorem chunk_genHead (n : ℕ) : Chunk (genHead n) [] := by
  unfold genHead
  split
  · exact chunk_const fun _ => rfl
  · exact chunk_const fun _ => rfl

set_option maxRecDepth 20000 in
theorem chunk_branchHead (n : ℕ) : Chunk (branchHead n) [] := by
  unfold branchHead
  split
  · split
    · exact chunk_const fun _ => rfl
    · exact chunk_const fun _ => rfl
  · split
    · exact chunk_const fun _ => rfl
    · exact chunk_const fun _ => rfl

/-! ### The parts of the file -/

theorem goodKey {key : List Char} {q : Char} (h1 : q = '\'' ∨ q = '"') (h2 : key.all fun c => c != '\'' && c != '"' && c != '\n' && c != '\\') : GoodKey q key := by
  refine ⟨h1, fun c hc => ?_⟩
  have := List.all_eq_true.1 h2 c hc
  simp only [Bool.and_eq_true, bne_iff_ne, ne_eq] at this
  obtain ⟨⟨⟨a, b⟩, d⟩, e⟩ := this
  exact ⟨by rcases h1 with rfl | rfl <;> assumption, d, e⟩

theorem areas_pieces {t : Option (Table Num)} {x : List Char} (h : areasText t = some x) :
    ∃ o, areasPrs t = some o ∧ Pieces x (opt 4 "areas".toList o) ∧ (nonEmpty t = true → ∃ y, x = '\n' :: y) ∧ (nonEmpty t = false → x = []) := by
  cases t with
  | none =>
    have : x = [] := by simpa [areasText] using h.symm
    subst this
    exact ⟨none, rfl, Pieces.nil, by simp [nonEmpty], by simp⟩
  | some t =>
    unfold areasText at h
    unfold areasPrs
    dsimp only at h ⊢
    by_cases hr : t.rows = []
    · rw [if_pos hr] at h ⊢
      have : x = [] := by simpa using h.symm
      subst this
      exact ⟨none, rfl, Pieces.nil, by simp [nonEmpty, hr], by simp⟩
    · rw [if_neg hr] at h ⊢
      obtain ⟨p, hp, _⟩ := table_fin h
      rw [hp] at h
      refine ⟨some p, by rw [hp]; rfl, pieces_table (n := 4) (chunk_const fun _ => rfl) run_ind1 (goodKey (Or.inl rfl) rfl) (rect_format hp).2 h, fun _ => ?_, by simp [nonEmpty, hr]⟩
      obtain ⟨y, hy, rfl⟩ := Option.map_eq_some_iff.1 h
      exact ⟨_, rfl⟩

set_option maxRecDepth 20000 in
theorem cost_pieces {t : Option (Table Num)} {x : List Char} (h : costText t = some x) :
    ∃ o, costPrs t = some o ∧ Pieces x (opt 4 "gencost".toList o) ∧ (nonEmpty t = true → ∃ y, x = '\n' :: y) ∧ (nonEmpty t = false → x = []) := by
  cases t with
  | none =>
    have : x = [] := by simpa [costText] using h.symm
    subst this
    exact ⟨none, rfl, Pieces.nil, by simp [nonEmpty], by simp⟩
  | some t =>
    unfold costText at h
    unfold costPrs
    dsimp only at h ⊢
    by_cases hr : t.rows = []
    · rw [if_pos hr] at h ⊢
      have : x = [] := by simpa using h.symm
      subst this
      exact ⟨none, rfl, Pieces.nil, by simp [nonEmpty, hr], by simp⟩
    · rw [if_neg hr] at h ⊢
      obtain ⟨p, hp, _⟩ := table_fin h
      rw [hp] at h
      refine ⟨some p, by rw [hp]; rfl, pieces_table (n := 4) (chunk_const fun _ => rfl) run_ind1 (goodKey (Or.inl rfl) rfl) (rect_cost hp) h, fun _ => ?_, by simp [nonEmpty, hr]⟩
      obtain ⟨y, hy, rfl⟩ := Option.map_eq_some_iff.1 h
      exact ⟨_, rfl⟩

theorem opf_pieces {c : SaveCase} {x : List Char} {ps : Ps} (h : Pieces x ps) (hx : (nonEmpty c.areas || nonEmpty c.gencost) = true → ∃ y, x = '\n' :: y) :
    Pieces (opfHead c ++ x) ps := by
  unfold opfHead
  split
  · rename_i hc
    obtain ⟨y, rfl⟩ := hx hc
    obtain ⟨ls, ⟨h1, h2⟩, h3⟩ := h
    refine ⟨ls, ⟨fun out r => ?_, h2⟩, h3⟩
    have r1 : run ⟨.bol 0, 0, out⟩ "\n    ##-----  OPF Data  -----##".toList = some ⟨.com, 0, out⟩ := rfl
    rw [List.append_assoc, run_of r1, ← h1, List.cons_append, run_cons (s' := ⟨.bol 0, 0, out⟩) rfl, run_cons (s' := ⟨.bol 0, 0, out⟩) rfl]
  · exact h

theorem z_pieces {n : ℕ} {ind key : List Char} (hi : ∀ out, run ⟨.bol 0, 0, out⟩ ind = some ⟨.bol n, 0, out⟩) (hk : GoodKey '"' key) {z : Option (List Num)} {x : List Char}
    (h : zText ind key z = some x) : ∃ o, zPrs z = some o ∧ Pieces x (opt n key o) := by
  rcases z with _ | ⟨_ | ⟨a, _ | ⟨b, l⟩⟩⟩
  · have : x = [] := by simpa [zText] using h.symm
    subst this
    exact ⟨none, rfl, Pieces.nil⟩
  · have : x = [] := by simpa [zText] using h.symm
    subst this
    exact ⟨none, rfl, Pieces.nil⟩
  · refine ⟨_, rfl, pieces_table (n := n) Chunk.nil hi hk (rect_of_lengths (n := 1) ?_) h⟩
    simp
  · simp [zText] at h

theorem zs_pieces {c : SaveCase} {x : List Char} (h : zsText c = some x) :
    ∃ a b d, zPrs c.z0 = some a ∧ zPrs c.zl = some b ∧ zPrs c.zu = some d ∧
      Pieces x (opt 4 "z0".toList a ++ (opt 8 "zl".toList b ++ opt 4 "zu".toList d)) := by
  unfold zsText at h
  split at h
  · obtain ⟨xa, ha, h⟩ := Option.bind_eq_some_iff.1 h
    obtain ⟨xb, hb, h⟩ := Option.bind_eq_some_iff.1 h
    obtain ⟨xd, hd, h⟩ := Option.bind_eq_some_iff.1 h
    obtain ⟨a, ha1, ha2⟩ := z_pieces run_ind1 (goodKey (Or.inr rfl) rfl) ha
    obtain ⟨b, hb1, hb2⟩ := z_pieces run_ind2 (goodKey (Or.inr rfl) rfl) hb
    obtain ⟨d, hd1, hd2⟩ := z_pieces run_ind1 (goodKey (Or.inr rfl) rfl) hd
    refine ⟨a, b, d, ha1, hb1, hd1, ?_⟩
    have hh : Pieces "\n    ## user vars\n".toList [] := ⟨[], chunk_const fun _ => rfl, .nil⟩
    have := hh.append (ha2.append (hb2.append hd2))
    rw [List.nil_append] at this
    rw [← Option.some.inj h]
    simpa only [List.append_assoc] using this
  · rename_i hz
    have : x = [] := by simpa using h.symm
    subst this
    simp only [Bool.or_eq_true, not_or, Option.isSome_iff_ne_none, ne_eq, not_not] at hz
    obtain ⟨⟨h1, h2⟩, h3⟩ := hz
    rw [h1, h2, h3]
    exact ⟨none, none, none, rfl, rfl, rfl, Pieces.nil⟩

/-- The text of a case that is saved. -/
theorem save_pieces {name : List Char} {comment : List (List Char)} {c : SaveCase} {text : List Char} (h : saveText name comment c = some text) :
    ∃ P t, prints c = some P ∧ Pieces t P.list ∧ text = headText name comment ++ (baseText c.base ++ (t ++ "\n    return ppc\n".toList)) := by
  unfold saveText at h
  obtain ⟨xb, hb, h⟩ := Option.bind_eq_some_iff.1 h
  obtain ⟨xg, hg, h⟩ := Option.bind_eq_some_iff.1 h
  obtain ⟨xr, hr, h⟩ := Option.bind_eq_some_iff.1 h
  obtain ⟨xa, ha, h⟩ := Option.bind_eq_some_iff.1 h
  obtain ⟨xc, hc, h⟩ := Option.bind_eq_some_iff.1 h
  obtain ⟨⟨⟩, hA, h⟩ := Option.bind_eq_some_iff.1 h
  obtain ⟨⟨⟩, hN, h⟩ := Option.bind_eq_some_iff.1 h
  obtain ⟨xz, hz, h⟩ := Option.bind_eq_some_iff.1 h
  obtain ⟨pb, hpb, _⟩ := table_fin hb
  obtain ⟨pg, hpg, _⟩ := table_fin hg
  obtain ⟨pr, hpr, _⟩ := table_fin hr
  rw [hpb] at hb
  rw [hpg] at hg
  rw [hpr] at hr
  obtain ⟨oa, ha1, ha2, ha3, ha4⟩ := areas_pieces ha
  obtain ⟨oc, hc1, hc2, hc3, hc4⟩ := cost_pieces hc
  obtain ⟨z0, zl, zu, hz1, hz2, hz3, hz4⟩ := zs_pieces hz
  have kb := pieces_table (n := 4) (chunk_busHead _) run_ind1 (goodKey (Or.inl rfl) rfl) (rect_bus hpb) hb
  have kg := pieces_table (n := 4) (chunk_genHead _) run_ind1 (goodKey (Or.inl rfl) rfl) (rect_gen hpg).1 hg
  have kr := pieces_table (n := 4) (chunk_branchHead _) run_ind1 (goodKey (Or.inl rfl) rfl) (rect_branch hpr) hr
  have ko := opf_pieces (c := c) (ha2.append hc2) (by
    intro hne
    by_cases h1 : nonEmpty c.areas = true
    · obtain ⟨y, rfl⟩ := ha3 h1
      exact ⟨_, rfl⟩
    · rw [ha4 (by simpa using h1)]
      obtain ⟨y, rfl⟩ := hc3 (by simpa [h1] using hne)
      exact ⟨_, rfl⟩)
  refine ⟨⟨pb, pg, pr, oa, oc, z0, zl, zu⟩, _, ?_, kb.append (kg.append (kr.append (ko.append hz4))), ?_⟩
  · unfold prints
    rw [hpb, hpg, hpr, ha1, hc1, hA, hN, hz1, hz2, hz3]
    rfl
  · rw [← Option.some.inj h]
    simp only [List.append_assoc]

/-- All values printed with `%d` are finite. -/
def Prints.dOk (P : Prints) : Prop :=
  dFin P.bus = true ∧ dFin P.gen = true ∧ dFin P.branch = true ∧ (∀ p, P.areas = some p → dFin p = true) ∧ (∀ p, P.cost = some p → dFin p = true)

theorem save_some {c : SaveCase} {P : Prints} (h : prints c = some P) (hd : P.dOk) (name : List Char) (comment : List (List Char)) : ∃ text, saveText name comment c = some text := by
  unfold prints at h
  obtain ⟨pb, hpb, h⟩ := Option.bind_eq_some_iff.1 h
  obtain ⟨pg, hpg, h⟩ := Option.bind_eq_some_iff.1 h
  obtain ⟨pr, hpr, h⟩ := Option.bind_eq_some_iff.1 h
  obtain ⟨oa, hoa, h⟩ := Option.bind_eq_some_iff.1 h
  obtain ⟨oc, hoc, h⟩ := Option.bind_eq_some_iff.1 h
  obtain ⟨⟨⟩, hA, h⟩ := Option.bind_eq_some_iff.1 h
  obtain ⟨⟨⟩, hN, h⟩ := Option.bind_eq_some_iff.1 h
  obtain ⟨z0, hz0, h⟩ := Option.bind_eq_some_iff.1 h
  obtain ⟨zl, hzl, h⟩ := Option.bind_eq_some_iff.1 h
  obtain ⟨zu, hzu, h⟩ := Option.bind_eq_some_iff.1 h
  have hP := Option.some.inj h
  subst hP
  obtain ⟨d1, d2, d3, d4, d5⟩ := hd
  obtain ⟨xb, hb⟩ := table_some (head := busHead c.bus.cols) (ind := indent1) (q := '\'') (key := "bus".toList) d1
  obtain ⟨xg, hg⟩ := table_some (head := genHead c.gen.cols) (ind := indent1) (q := '\'') (key := "gen".toList) d2
  obtain ⟨xr, hr⟩ := table_some (head := branchHead c.branch.cols) (ind := indent1) (q := '\'') (key := "branch".toList) d3
  have ha : ∃ x, areasText c.areas = some x := by
    unfold areasText
    unfold areasPrs at hoa
    split
    · rename_i t ht
      rw [ht] at hoa
      dsimp only at hoa
      split
      · exact ⟨_, rfl⟩
      · rename_i hne
        rw [if_neg hne] at hoa
        obtain ⟨p, hp, rfl⟩ := Option.map_eq_some_iff.1 hoa
        rw [hp]
        exact table_some (d4 p rfl)
    · exact ⟨_, rfl⟩
  have hc : ∃ x, costText c.gencost = some x := by
    unfold costText
    unfold costPrs at hoc
    split
    · rename_i t ht
      rw [ht] at hoc
      dsimp only at hoc
      split
      · exact ⟨_, rfl⟩
      · rename_i hne
        rw [if_neg hne] at hoc
        obtain ⟨p, hp, rfl⟩ := Option.map_eq_some_iff.1 hoc
        rw [hp]
        exact table_some (d5 p rfl)
    · exact ⟨_, rfl⟩
  have hz : ∀ (ind key : List Char) (z : Option (List Num)) (o : Option Prs), zPrs z = some o → ∃ x, zText ind key z = some x := by
    intro ind key z o hzo
    rcases z with _ | ⟨_ | ⟨a, _ | ⟨b, l⟩⟩⟩
    · exact ⟨_, rfl⟩
    · exact ⟨_, rfl⟩
    · exact table_some rfl
    · simp [zPrs] at hzo
  have hzs : ∃ x, zsText c = some x := by
    unfold zsText
    obtain ⟨x1, h1⟩ := hz indent1 "z0".toList c.z0 z0 hz0
    obtain ⟨x2, h2⟩ := hz indent2 "zl".toList c.zl zl hzl
    obtain ⟨x3, h3⟩ := hz indent1 "zu".toList c.zu zu hzu
    rw [h1, h2, h3]
    split
    · exact ⟨_, rfl⟩
    · exact ⟨_, rfl⟩
  obtain ⟨xa, ha⟩ := ha
  obtain ⟨xc, hc⟩ := hc
  obtain ⟨xz, hzs⟩ := hzs
  unfold saveText
  rw [hpb, hpg, hpr, hb, hg, hr, ha, hc, hA, hN, hzs]
  exact ⟨_, rfl⟩

/-! ### Loading -/

theorem look_append (a b : Ps) (k : List Char) : look (a ++ b) k = (look b k).or (look a k) := by
  unfold look
  rw [List.reverse_append, List.find?_append]
  cases List.find? (fun p => decide (p.2.1 = k)) b.reverse <;> rfl

theorem look_one (n : ℕ) (key : List Char) (p : Prs) (k : List Char) : look [(n, key, p)] k = if key = k then some (arrOf p) else none := by
  unfold look
  by_cases h : key = k
  · rw [if_pos h]
    simp [h]
  · rw [if_neg h]
    simp [h]

theorem look_opt (n : ℕ) (key : List Char) (o : Option Prs) (k : List Char) : look (opt n key o) k = if key = k then o.map arrOf else none := by
  cases o with
  | none => by_cases h : key = k <;> simp [opt, look]
  | some p => rw [opt, look_one]; rfl

/-- The case that is read from the file. -/
def loadedOf (b : ℚ) (P : Prints) : Loaded :=
  ⟨round9 b, arrOf P.bus, arrOf P.gen, arrOf P.branch, P.areas.map arrOf, P.cost.map arrOf, P.z0.map arrOf, P.zl.map arrOf, P.zu.map arrOf⟩

theorem keys_list (P : Prints) : ∀ p ∈ P.list, p.2.1 ≠ "baseMVA".toList := by
  have ho : ∀ (n : ℕ) (key : List Char) (o : Option Prs), key ≠ "baseMVA".toList → ∀ p ∈ opt n key o, p.2.1 ≠ "baseMVA".toList := by
    intro n key o hk p hp
    cases o with
    | none => simp [opt] at hp
    | some x =>
      rw [opt, List.mem_singleton] at hp
      rw [hp]
      exact hk
  intro p hp
  unfold Prints.list at hp
  simp only [List.mem_append, List.mem_singleton] at hp
  rcases hp with rfl | rfl | rfl | (hp | hp) | hp | hp | hp
  · show "bus".toList ≠ "baseMVA".toList
    decide
  · show "gen".toList ≠ "baseMVA".toList
    decide
  · show "branch".toList ≠ "baseMVA".toList
    decide
  · exact ho _ _ _ (by decide) p hp
  · exact ho _ _ _ (by decide) p hp
  · exact ho _ _ _ (by decide) p hp
  · exact ho _ _ _ (by decide) p hp
  · exact ho _ _ _ (by decide) p hp

theorem check_dict {b : ℚ} {P : Prints} {d : Dict} (h : DictOf b P.list d) (hg : ∀ r ∈ P.gen, 21 ≤ r.length) :
    checkDict d = if P.gen = [] then none else some (loadedOf b P) := by
  have lk : ∀ k, look P.list k = (if "zu".toList = k then P.zu.map arrOf else none).or ((if "zl".toList = k then P.zl.map arrOf else none).or
      ((if "z0".toList = k then P.z0.map arrOf else none).or ((if "gencost".toList = k then P.cost.map arrOf else none).or
      ((if "areas".toList = k then P.areas.map arrOf else none).or ((if "branch".toList = k then some (arrOf P.branch) else none).or
      ((if "gen".toList = k then some (arrOf P.gen) else none).or (if "bus".toList = k then some (arrOf P.bus) else none))))))) := by
    intro k
    unfold Prints.list
    simp only [look_append, look_one, look_opt, Option.or_assoc]
  obtain ⟨s, hs, hv⟩ := dict_base h (keys_list P)
  have a1 : d.arr "bus".toList = some (arrOf P.bus) := by rw [dict_arr h (by decide) (by decide), lk]; rfl
  have a2 : d.arr "gen".toList = some (arrOf P.gen) := by rw [dict_arr h (by decide) (by decide), lk]; rfl
  have a3 : d.arr "branch".toList = some (arrOf P.branch) := by rw [dict_arr h (by decide) (by decide), lk]; rfl
  have a4 : d.arr "areas".toList = P.areas.map arrOf := by
    rw [dict_arr h (by decide) (by decide), lk]
    cases P.areas <;> rfl
  have a5 : d.arr "gencost".toList = P.cost.map arrOf := by
    rw [dict_arr h (by decide) (by decide), lk]
    cases P.cost <;> rfl
  have a6 : d.arr "z0".toList = P.z0.map arrOf := by
    rw [dict_arr h (by decide) (by decide), lk]
    cases P.z0 <;> rfl
  have a7 : d.arr "zl".toList = P.zl.map arrOf := by
    rw [dict_arr h (by decide) (by decide), lk]
    cases P.zl <;> rfl
  have a8 : d.arr "zu".toList = P.zu.map arrOf := by
    rw [dict_arr h (by decide) (by decide), lk]
    cases P.zu <;> rfl
  unfold checkDict
  rw [hs, a1, a2, a3, a4, a5, a6, a7, a8]
  show (if (arrOf P.gen).table.rows = [] then none else _) = _
  by_cases hn : P.gen = []
  · rw [if_pos hn, if_pos (by rw [hn]; rfl)]
  · rw [if_neg hn, if_neg (by simpa [arrOf] using hn)]
    have hc : 21 ≤ (arrOf P.gen).table.cols := by
      obtain ⟨r, rs, hr⟩ := List.exists_cons_of_ne_nil hn
      have := hg r (by rw [hr]; exact List.mem_cons_self)
      simpa [arrOf, hr] using this
    have hl : ∀ br, loadTables (-360) 360 none (arrOf P.gen).table br = ((arrOf P.gen).table, br) := by
      intro br
      rw [loadTables, if_neg (by omega)]
    rw [hl]
    simp only [if_neg (show ¬(arrOf P.gen).table.cols < 20 by omega), hv]
    rfl

/-- What `loadcase` makes of the file of a case that is saved. -/
theorem load_saved {root : List Char} {comment : List (List Char)} {c : SaveCase} {text : List Char} {P : Prints} (hf : IsIdent (basename root))
    (hl : basename root ∉ localNames) (hc : ∀ l ∈ comment, '\n' ∉ l) (h : saveText (basename root) comment c = some text) (hP : prints c = some P) :
    loadText root text = match c.base with
      | .fin b => if GoodLines P.list = true ∧ P.gen ≠ [] then some (loadedOf b P) else none
      | _ => none := by
  obtain ⟨P', t, h1, h2, rfl⟩ := save_pieces h
  have : P' = P := by rw [hP] at h1; exact (Option.some.inj h1).symm
  subst this
  have hg : ∀ r ∈ P'.gen, 21 ≤ r.length := by
    unfold prints at hP
    obtain ⟨pb, hpb, hP⟩ := Option.bind_eq_some_iff.1 hP
    obtain ⟨pg, hpg, hP⟩ := Option.bind_eq_some_iff.1 hP
    obtain ⟨pr, hpr, hP⟩ := Option.bind_eq_some_iff.1 hP
    obtain ⟨oa, hoa, hP⟩ := Option.bind_eq_some_iff.1 hP
    obtain ⟨oc, hoc, hP⟩ := Option.bind_eq_some_iff.1 hP
    obtain ⟨⟨⟩, hA, hP⟩ := Option.bind_eq_some_iff.1 hP
    obtain ⟨⟨⟩, hN, hP⟩ := Option.bind_eq_some_iff.1 hP
    obtain ⟨z0, hz0, hP⟩ := Option.bind_eq_some_iff.1 hP
    obtain ⟨zl, hzl, hP⟩ := Option.bind_eq_some_iff.1 hP
    obtain ⟨zu, hzu, hP⟩ := Option.bind_eq_some_iff.1 hP
    rw [← Option.some.inj hP]
    exact (rect_gen hpg).2
  have := eval_file hf hc c.base h2
  unfold loadText
  rw [if_neg hl]
  generalize hb : c.base = base at this ⊢
  rcases base with b | n | _
  · dsimp only at this ⊢
    by_cases hgl : GoodLines P'.list = true
    · rw [if_pos hgl] at this
      obtain ⟨d, hd1, hd2⟩ := this
      rw [hd1, Option.bind_some, check_dict hd2 hg]
      by_cases hn : P'.gen = []
      · rw [if_pos hn, if_neg (by simp [hn])]
      · rw [if_neg hn, if_pos ⟨hgl, hn⟩]
    · rw [if_neg hgl] at this
      rw [this, if_neg (by simp [hgl])]
      rfl
  · dsimp only at this ⊢
    rw [this]
    rfl
  · dsimp only at this ⊢
    rw [this]
    rfl

end Verif.SaveText
