import Verif.SaveText.LexLemmas

/-!
# Statements and execution of the text `savecase` writes
-/

namespace Verif.SaveText

open CaseIO

/-! ### Logical lines -/

theorem splitLines_cons (n : ℕ) {ts : List Tok} (h : NoLine ts) (rest : List Tok) :
    splitLines (.line n :: (ts ++ rest)) = ([], (n, ts ++ (splitLines rest).1) :: (splitLines rest).2) := by
  have key : splitLines (ts ++ rest) = (ts ++ (splitLines rest).1, (splitLines rest).2) := by
    induction ts with
    | nil => rfl
    | cons t ts ih =>
      have := ih fun n hn => h n (List.mem_cons_of_mem _ hn)
      have ht : ∀ n, t ≠ .line n := fun n e => h n (e ▸ List.mem_cons_self)
      have e : splitLines (t :: (ts ++ rest)) = (t :: (splitLines (ts ++ rest)).1, (splitLines (ts ++ rest)).2) := by
        cases t with
        | line n => exact absurd rfl (ht n)
        | _ => rfl
      rw [List.cons_append, e, this]
      rfl
  have e : splitLines (.line n :: (ts ++ rest)) = ([], (n, (splitLines (ts ++ rest)).1) :: (splitLines (ts ++ rest)).2) := rfl
  rw [e, key]

theorem splitLines_flat {ls : List (ℕ × List Tok)} (h : ∀ l ∈ ls, NoLine l.2) : splitLines (flat ls) = ([], ls) := by
  induction ls with
  | nil => rfl
  | cons l ls ih =>
    have e : flat (l :: ls) = .line l.1 :: (l.2 ++ flat ls) := rfl
    rw [e, splitLines_cons l.1 (h l List.mem_cons_self), ih fun l hl => h l (List.mem_cons_of_mem _ hl)]
    simp

theorem lex_chunk {t : List Char} {ls : List (ℕ × List Tok)} (h : Chunk t ls) : lex t = some (flat ls) := by
  have := h.1 [] []
  rw [List.append_nil] at this
  rw [lex, this]
  simp [run]

/-! ### Array literals -/

def Item.asLit : Item → Option SLit
  | .lit x => some x
  | .word _ _ => none

theorem mapAll_cons {α β : Type} (f : α → Option β) (a : α) (l : List α) : mapAll f (a :: l) = (f a).bind fun b => (mapAll f l).map (b :: ·) := rfl

theorem pArr_items (xs : List Item) : ∀ (rs : List (List SLit)) (r : List SLit) (ts : List Tok),
    pArr .item rs r (itemToks xs ++ .sym ']' :: ts) = (mapAll Item.asLit xs).bind fun l => pArr .after ((r.reverse ++ l) :: rs) [] ts := by
  induction xs with
  | nil =>
    intro rs r ts
    show pArr .item rs r (.sym ']' :: ts) = pArr .after ((r.reverse ++ []) :: rs) [] ts
    rw [List.append_nil]
    simp [pArr]
  | cons x xs ih =>
    intro rs r ts
    have hx : ∀ t : Tok, ∀ ts, pArr .item rs r (x.toks ++ t :: ts) = x.asLit.bind fun l => pArr .sep rs (l :: r) (t :: ts) := by
      intro t ts
      rcases x with ⟨⟨⟩ | ⟨⟩, l⟩ | ⟨⟨⟩ | ⟨⟩, s⟩ <;> simp [Item.toks, Item.asLit, pArr]
    cases xs with
    | nil =>
      rw [show itemToks [x] = x.toks from rfl, hx]
      cases x with
      | word => rfl
      | lit l => simp [Item.asLit, mapAll, pArr]
    | cons y ys =>
      rw [show itemToks (x :: y :: ys) ++ .sym ']' :: ts = x.toks ++ .sym ',' :: (itemToks (y :: ys) ++ .sym ']' :: ts) from by
        show (x.toks ++ (.sym ',' :: itemToks (y :: ys))) ++ _ = _
        simp, hx, mapAll_cons]
      cases x with
      | word => rfl
      | lit l =>
        have e : pArr .sep rs (l :: r) (.sym ',' :: (itemToks (y :: ys) ++ .sym ']' :: ts)) = pArr .item rs (l :: r) (itemToks (y :: ys) ++ .sym ']' :: ts) := by
          simp [pArr]
        show pArr .sep rs (l :: r) _ = _
        rw [e, ih]
        simp only [Item.asLit, Option.bind_some]
        cases mapAll Item.asLit (y :: ys) with
        | none => rfl
        | some l' => simp

theorem pArr_rows (xs : List (List Item)) : ∀ (rs : List (List SLit)),
    pArr .rows rs [] ((xs.map rowToks).flatten ++ [.sym ']', .sym ')']) = (mapAll (mapAll Item.asLit) xs).map fun l => (rs.reverse ++ l, [.sym ')']) := by
  induction xs with
  | nil =>
    intro rs
    simp [mapAll, pArr]
  | cons x xs ih =>
    intro rs
    have e : (List.map rowToks (x :: xs)).flatten ++ [.sym ']', .sym ')'] =
        .sym '[' :: (itemToks x ++ .sym ']' :: (.sym ',' :: ((xs.map rowToks).flatten ++ [.sym ']', .sym ')']))) := by
      simp [rowToks]
    have e1 : ∀ ts, pArr .rows rs [] (.sym '[' :: ts) = pArr .item rs [] ts := fun ts => by simp [pArr]
    rw [e, e1, pArr_items, mapAll_cons]
    cases mapAll Item.asLit x with
    | none => rfl
    | some l =>
      have e2 : ∀ ts, pArr .after (([].reverse ++ l) :: rs) [] (.sym ',' :: ts) = pArr .rows (l :: rs) [] ts := fun ts => by simp [pArr]
      simp only [Option.bind_some]
      rw [e2, ih]
      cases mapAll (mapAll Item.asLit) xs with
      | none => rfl
      | some l' => simp

theorem pStmt_assign (key : List Char) (xs : List (List Item)) :
    pStmt (assignToks key xs) = (mapAll (mapAll Item.asLit) xs).map fun rows => .set "ppc".toList key (.arr rows) := by
  have h := pArr_rows xs []
  show (pExpr (.name "array".toList :: .sym '(' :: .sym '[' :: ((xs.map rowToks).flatten ++ [.sym ']', .sym ')']))).map _ = _
  have e : pExpr (.name "array".toList :: .sym '(' :: .sym '[' :: ((xs.map rowToks).flatten ++ [.sym ']', .sym ')'])) =
      (mapAll (mapAll Item.asLit) xs).map .arr := by
    simp only [pExpr, if_true, h]
    cases mapAll (mapAll Item.asLit) xs with
    | none => rfl
    | some l => simp
  rw [e]
  cases mapAll (mapAll Item.asLit) xs <;> rfl

/-! ### What a printed value reads as -/

/-- The value a finite number has after printing and reading. -/
def cellVal : Fmt → ℚ → ℚ
  | .d, x => truncQ x
  | .g9, x => round9 x
  | .f4, x => round4 x

/-- A finite number is printed as an integer literal. -/
def litInt : Fmt → ℚ → Bool
  | .d, _ => true
  | .g9, x => decide ((round9 x).den = 1 ∧ |round9 x| < 10 ^ 9)
  | .f4, _ => false

def Shows : Fmt × Num → Item → Prop
  | (f, .fin q), i => ∃ s, i = .lit s ∧ s.val = cellVal f q ∧ s.lit.isInt = litInt f q
  | _, i => ∃ b s, i = .word b s

theorem lit_val (s : SLit) : s.val = if s.neg then -s.lit.val else s.lit.val := by
  rcases s with ⟨b, ⟨n⟩ | ⟨q⟩⟩ <;> rfl

theorem whole_iff (r : ℚ) : (∃ z : ℤ, r = z) ↔ r.den = 1 := by
  constructor
  · rintro ⟨z, rfl⟩
    exact Rat.den_intCast z
  · intro h
    exact ⟨r.num, ((Rat.den_eq_one_iff r).1 h).symm⟩

theorem cell_g (q : ℚ) : ∃ s, Cell (fmtG (.fin q)) (.lit s) ∧ s.val = round9 q ∧ s.lit.isInt = litInt .g9 q := by
  rcases lt_or_ge q 0 with h | h
  · obtain ⟨l, h1, h2, h3, h4⟩ := read_gPos (x := -q) (by linarith)
    refine ⟨⟨true, l⟩, ?_, ?_, ?_⟩
    · show Cell (signed gPos q) _
      rw [signed, if_pos h]
      exact cell_neg h3 h1
    · rw [lit_val, if_pos rfl, h2, round9, if_pos h]
    · have e : round9 q = -round9Pos (-q) := by rw [round9, if_pos h]
      rw [Bool.eq_iff_iff, h4]
      simp only [litInt, e, decide_eq_true_eq, Rat.den_neg_eq_den, abs_neg, abs_of_nonneg (round9Pos_nonneg _), whole_iff]
  · obtain ⟨l, h1, h2, h3, h4⟩ := read_gPos h
    refine ⟨⟨false, l⟩, ?_, ?_, ?_⟩
    · show Cell (signed gPos q) _
      rw [signed, if_neg (not_lt.2 h)]
      exact cell_num h3 h1
    · rw [lit_val, if_neg (by simp), h2, round9, if_neg (not_lt.2 h)]
    · have e : round9 q = round9Pos q := by rw [round9, if_neg (not_lt.2 h)]
      rw [Bool.eq_iff_iff, h4]
      simp only [litInt, e, decide_eq_true_eq, abs_of_nonneg (round9Pos_nonneg _), whole_iff]

theorem cell_f (q : ℚ) : ∃ s, Cell (fmtF (.fin q)) (.lit s) ∧ s.val = round4 q ∧ s.lit.isInt = false := by
  rcases lt_or_ge q 0 with h | h
  · obtain ⟨h1, h2⟩ := read_fPos (x := -q) (by linarith)
    refine ⟨⟨true, .flt (round4Pos (-q))⟩, ?_, ?_, ?_⟩
    · show Cell (signed fPos q) _
      rw [signed, if_pos h]
      exact cell_neg h2 h1
    · rw [lit_val, if_pos rfl, round4, if_pos h]
      rfl
    · rfl
  · obtain ⟨h1, h2⟩ := read_fPos h
    refine ⟨⟨false, .flt (round4Pos q)⟩, ?_, ?_, ?_⟩
    · show Cell (signed fPos q) _
      rw [signed, if_neg (not_lt.2 h)]
      exact cell_num h2 h1
    · rw [lit_val, if_neg (by simp), round4, if_neg (not_lt.2 h)]
      rfl
    · rfl

theorem cell_d (q : ℚ) : ∃ t s, fmtD (.fin q) = some t ∧ Cell t (.lit s) ∧ s.val = truncQ q ∧ s.lit.isInt = true := by
  obtain ⟨h1, h2⟩ := read_dec (truncQ q).natAbs
  by_cases h : truncQ q < 0
  · refine ⟨_, ⟨true, .int (truncQ q).natAbs⟩, by rw [fmtD, if_pos h], cell_neg h2 h1, ?_, rfl⟩
    rw [lit_val, if_pos rfl]
    have : ((truncQ q).natAbs : ℤ) = -truncQ q := by omega
    show -(((truncQ q).natAbs : ℕ) : ℚ) = _
    rw [← Int.cast_natCast, this]
    push_cast
    ring
  · refine ⟨_, ⟨false, .int (truncQ q).natAbs⟩, by rw [fmtD, if_neg h], cell_num h2 h1, ?_, rfl⟩
    rw [lit_val, if_neg (by simp)]
    have : ((truncQ q).natAbs : ℤ) = truncQ q := by omega
    show (((truncQ q).natAbs : ℕ) : ℚ) = _
    rw [← Int.cast_natCast, this]

theorem cell_shows {p : Fmt × Num} {t : List Char} (h : cellText p = some t) : ∃ i, Cell t i ∧ Shows p i := by
  rcases p with ⟨f, x⟩
  rcases x with q | b | _
  · cases f with
    | d =>
      obtain ⟨t', s, h1, h2, h3, h4⟩ := cell_d q
      have : t' = t := by simpa [cellText, h1] using h
      subst this
      exact ⟨_, h2, s, rfl, h3, h4⟩
    | g9 =>
      obtain ⟨s, h2, h3, h4⟩ := cell_g q
      have : fmtG (.fin q) = t := by simpa [cellText] using h
      subst this
      exact ⟨_, h2, s, rfl, h3, h4⟩
    | f4 =>
      obtain ⟨s, h2, h3, h4⟩ := cell_f q
      have : fmtF (.fin q) = t := by simpa [cellText] using h
      subst this
      exact ⟨_, h2, s, rfl, h3, h4⟩
  · cases f with
    | d => simp [cellText, fmtD] at h
    | g9 =>
      cases b <;> (simp only [cellText, fmtG, Option.some.injEq] at h; subst h)
      · exact ⟨_, cell_inf, _, _, rfl⟩
      · exact ⟨_, cell_ninf, _, _, rfl⟩
    | f4 =>
      cases b <;> (simp only [cellText, fmtF, Option.some.injEq] at h; subst h)
      · exact ⟨_, cell_inf, _, _, rfl⟩
      · exact ⟨_, cell_ninf, _, _, rfl⟩
  · cases f with
    | d => simp [cellText, fmtD] at h
    | g9 =>
      simp only [cellText, fmtG, Option.some.injEq] at h; subst h
      exact ⟨_, cell_nan, _, _, rfl⟩
    | f4 =>
      simp only [cellText, fmtF, Option.some.injEq] at h; subst h
      exact ⟨_, cell_nan, _, _, rfl⟩

/-! ### Tables -/

theorem mapAll_forall {α β γ : Type} {f : α → Option β} {P : α → γ → Prop} {Q : β → γ → Prop} {l : List α} {r : List β}
    (hf : ∀ a ∈ l, ∀ b, f a = some b → ∃ c, Q b c ∧ P a c) (h : mapAll f l = some r) : ∃ cs, List.Forall₂ Q r cs ∧ List.Forall₂ P l cs := by
  induction l generalizing r with
  | nil =>
    have : r = [] := by simpa [mapAll] using h.symm
    subst this
    exact ⟨[], .nil, .nil⟩
  | cons a l ih =>
    rw [mapAll_cons] at h
    obtain ⟨b, hb, h⟩ := Option.bind_eq_some_iff.1 h
    obtain ⟨r', hr', rfl⟩ := Option.map_eq_some_iff.1 h
    obtain ⟨cs, h1, h2⟩ := ih (fun a ha => hf a (List.mem_cons_of_mem _ ha)) hr'
    obtain ⟨c, h3, h4⟩ := hf a List.mem_cons_self b hb
    exact ⟨c :: cs, .cons h3 h1, .cons h4 h2⟩

/-- A finite number. -/
def Num.isFin : Num → Bool
  | .fin _ => true
  | _ => false

abbrev Prs := List (List (Fmt × Num))

def finRow (r : List (Fmt × Num)) : Bool := r.all fun p => p.2.isFin
def finAll (t : Prs) : Bool := t.all finRow

def valOf : Fmt × Num → ℚ
  | (f, .fin q) => cellVal f q
  | _ => 0

def intOf : Fmt × Num → Bool
  | (f, .fin q) => litInt f q
  | _ => false

/-- The array that is read. -/
def arrOf (t : Prs) : Arr := ⟨if (t.all fun r => r.all intOf) && !t.all List.isEmpty then .int else .float, ⟨(t.headD []).length, t.map fun r => r.map valOf⟩⟩

theorem shows_fin {p : Fmt × Num} {i : Item} (h : Shows p i) (hp : p.2.isFin = true) : ∃ s, i.asLit = some s ∧ s.val = valOf p ∧ s.lit.isInt = intOf p := by
  rcases p with ⟨f, q | b | _⟩
  · obtain ⟨s, rfl, h1, h2⟩ := h
    exact ⟨s, rfl, h1, h2⟩
  · simp [Num.isFin] at hp
  · simp [Num.isFin] at hp

theorem shows_inf {p : Fmt × Num} {i : Item} (h : Shows p i) (hp : p.2.isFin = false) : i.asLit = none := by
  rcases p with ⟨f, q | b | _⟩
  · simp [Num.isFin] at hp
  · obtain ⟨b, s, rfl⟩ := h
    rfl
  · obtain ⟨b, s, rfl⟩ := h
    rfl

theorem mapAll_two {α β γ : Type} {P : α → β → Prop} {f : β → Option γ} {ok : α → Bool} {Q : α → γ → Prop} {l : List α} {r : List β} (h : List.Forall₂ P l r)
    (h1 : ∀ a b, P a b → ok a = true → ∃ c, f b = some c ∧ Q a c) (h0 : ∀ a b, P a b → ok a = false → f b = none) :
    if l.all ok then ∃ cs, mapAll f r = some cs ∧ List.Forall₂ Q l cs else mapAll f r = none := by
  induction h with
  | nil => exact ⟨[], rfl, .nil⟩
  | @cons a b l r hab hlr ih =>
    rw [List.all_cons, mapAll_cons]
    cases ha : ok a with
    | false => simp [h0 a b hab ha]
    | true =>
      obtain ⟨c, hc, hq⟩ := h1 a b hab ha
      rw [hc, Bool.true_and]
      by_cases hl : l.all ok = true
      · rw [if_pos hl] at ih ⊢
        obtain ⟨cs, h3, h4⟩ := ih
        exact ⟨c :: cs, by simp [h3], .cons hq h4⟩
      · rw [if_neg hl] at ih ⊢
        simp [ih]

theorem items_lits {t : Prs} {xs : List (List Item)} (h : List.Forall₂ (List.Forall₂ Shows) t xs) :
    if finAll t then ∃ ls, mapAll (mapAll Item.asLit) xs = some ls ∧ List.Forall₂ (List.Forall₂ fun p s => s.val = valOf p ∧ s.lit.isInt = intOf p) t ls
    else mapAll (mapAll Item.asLit) xs = none := by
  refine mapAll_two h (fun r x hr hf => ?_) fun r x hr hf => ?_
  · have := mapAll_two (ok := fun p : Fmt × Num => p.2.isFin) (Q := fun p s => SLit.val s = valOf p ∧ s.lit.isInt = intOf p) hr
      (fun p i hp hi => shows_fin hp hi) fun p i hp hi => shows_inf hp hi
    rwa [if_pos (show r.all (fun p => p.2.isFin) = true from hf)] at this
  · have := mapAll_two (ok := fun p : Fmt × Num => p.2.isFin) (Q := fun p s => SLit.val s = valOf p ∧ s.lit.isInt = intOf p) hr
      (fun p i hp hi => shows_fin hp hi) fun p i hp hi => shows_inf hp hi
    rwa [if_neg (by rw [show r.all (fun p => p.2.isFin) = false from hf]; simp)] at this

theorem forall2_map {α β γ : Type} {R : α → β → Prop} {f : α → γ} {g : β → γ} {l : List α} {r : List β} (h : List.Forall₂ R l r) (e : ∀ a b, R a b → f a = g b) :
    l.map f = r.map g := by
  induction h with
  | nil => rfl
  | cons h1 _ ih => rw [List.map_cons, List.map_cons, e _ _ h1, ih]

theorem forall2_all {α β : Type} {R : α → β → Prop} {f : α → Bool} {g : β → Bool} {l : List α} {r : List β} (h : List.Forall₂ R l r) (e : ∀ a b, R a b → f a = g b) :
    l.all f = r.all g := by
  induction h with
  | nil => rfl
  | cons h1 _ ih => rw [List.all_cons, List.all_cons, e _ _ h1, ih]

/-- The rows have the same length. -/
def RectP (t : Prs) : Prop := ∀ r ∈ t, r.length = (t.headD []).length

theorem mkArr_lits {t : Prs} {ls : List (List SLit)} (h : List.Forall₂ (List.Forall₂ fun p s => s.val = valOf p ∧ s.lit.isInt = intOf p) t ls) :
    mkArr ls = arrOf t ∧ (RectP t → rect ls = true) := by
  have hlen : (t.headD []).length = (ls.headD []).length := by
    cases h with
    | nil => rfl
    | cons h1 _ => exact h1.length_eq
  have hint : (t.all fun r => r.all intOf) = ls.all fun r => r.all fun x => x.lit.isInt := by
    refine forall2_all h fun r s hrs => forall2_all hrs fun p x hp => ?_
    exact hp.2.symm
  have hval : (t.map fun r => r.map valOf) = ls.map fun r => r.map SLit.val := forall2_map h fun r s hrs => forall2_map hrs fun p x hp => hp.1.symm
  have hemp : t.all List.isEmpty = ls.all List.isEmpty := forall2_all h fun r s hrs => by cases hrs <;> rfl
  constructor
  · rw [mkArr, arrOf, ← hval, ← hlen, hint, hemp]
  · intro hr
    rw [rect, List.all_eq_true]
    intro x hx
    obtain ⟨i, hi, rfl⟩ := List.getElem_of_mem hx
    have hi' : i < t.length := by rw [h.length_eq]; exact hi
    have := hr t[i] (List.getElem_mem hi')
    have hl := (List.Forall₂.get h hi' hi).length_eq
    simp only [List.get_eq_getElem] at hl
    rw [← hl, this, hlen]
    exact beq_self_eq_true _

/-! ### Pieces: assignments of tables -/

/-- The name of an assignment: indentation, key, values. -/
abbrev Ps := List (ℕ × List Char × Prs)

/-- The logical line of a piece. -/
def LineOf (p : ℕ × List Char × Prs) (l : ℕ × List Tok) : Prop :=
  l.1 = p.1 ∧ if finAll p.2.2 then ∃ ls, pStmt l.2 = some (.set "ppc".toList p.2.1 (.arr ls)) ∧ mkArr ls = arrOf p.2.2 ∧ rect ls = true else pStmt l.2 = none

/-- The text of a sequence of assignments. -/
def Pieces (t : List Char) (ps : Ps) : Prop := ∃ ls, Chunk t ls ∧ List.Forall₂ LineOf ps ls

theorem Pieces.nil : Pieces [] [] := ⟨[], Chunk.nil, .nil⟩

theorem Pieces.append {a b : List Char} {pa pb : Ps} (ha : Pieces a pa) (hb : Pieces b pb) : Pieces (a ++ b) (pa ++ pb) := by
  obtain ⟨la, h1, h2⟩ := ha
  obtain ⟨lb, h3, h4⟩ := hb
  exact ⟨la ++ lb, h1.append h3, List.rel_append h2 h4⟩

theorem pieces_table {head ind : List Char} {n : ℕ} {q : Char} {key t : List Char} {prs : Prs} (hh : Chunk head [])
    (hi : ∀ out, run ⟨.bol 0, 0, out⟩ ind = some ⟨.bol n, 0, out⟩) (hk : GoodKey q key) (hr : RectP prs)
    (h : tableText head ind q key (some prs) = some t) : Pieces t [(n, key, prs)] := by
  obtain ⟨cells, hc, rfl⟩ := Option.map_eq_some_iff.1 h
  obtain ⟨xs, h1, h2⟩ := mapAll_forall (P := List.Forall₂ Shows) (Q := List.Forall₂ Cell)
    (fun r _ cs hcs => mapAll_forall (fun p _ t ht => cell_shows ht) hcs) hc
  refine ⟨[(n, assignToks key xs)], hh.append (chunk_assign hi hk h1), .cons ⟨rfl, ?_⟩ .nil⟩
  have := items_lits h2
  rw [pStmt_assign]
  dsimp only
  by_cases hf : finAll prs = true
  · rw [if_pos hf] at this ⊢
    obtain ⟨ls, h3, h4⟩ := this
    obtain ⟨h5, h6⟩ := mkArr_lits h4
    exact ⟨ls, by rw [h3]; rfl, h5, h6 hr⟩
  · rw [if_neg hf] at this ⊢
    rw [this]
    rfl

/-! ### Execution -/

def GoodLines (ps : Ps) : Bool := ps.all fun p => p.1 == 4 && finAll p.2.2

theorem pStmts_append (n : ℕ) (a b : List (ℕ × List Tok)) : pStmts n (a ++ b) = (pStmts n a).bind fun x => (pStmts n b).map (x ++ ·) := by
  induction a with
  | nil => cases h : pStmts n b <;> simp [pStmts, h]
  | cons l a ih =>
    rw [List.cons_append, pStmts, pStmts]
    by_cases h : l.1 = n
    · rw [if_pos h, if_pos h, ih]
      cases pStmt l.2 with
      | none => rfl
      | some s =>
        cases pStmts n a with
        | none => rfl
        | some x => cases pStmts n b <;> rfl
    · rw [if_neg h, if_neg h]
      rfl

/-- The entries of the dictionary that the pieces set. -/
def EntryOf (p : ℕ × List Char × Prs) (e : List Char × Expr) : Prop := e.1 = p.2.1 ∧ ∃ ls, e.2 = .arr ls ∧ mkArr ls = arrOf p.2.2

theorem pStmts_pieces {ps : Ps} {ls : List (ℕ × List Tok)} (h : List.Forall₂ LineOf ps ls) :
    if GoodLines ps then ∃ es : Dict, pStmts 4 ls = some (es.map fun e => .set "ppc".toList e.1 e.2) ∧ (∀ e ∈ es, e.2.ok = true) ∧ List.Forall₂ EntryOf ps es
    else pStmts 4 ls = none := by
  induction h with
  | nil => exact ⟨[], rfl, by simp, .nil⟩
  | @cons p l ps ls h1 h2 ih =>
    obtain ⟨hn, hs⟩ := h1
    rw [GoodLines, List.all_cons]
    rw [GoodLines] at ih
    rw [pStmts]
    by_cases h4 : p.1 = 4
    · rw [if_pos (hn.trans h4)]
      by_cases hf : finAll p.2.2 = true
      · rw [if_pos hf] at hs
        obtain ⟨sl, h5, h6, h7⟩ := hs
        rw [h5, hf]
        by_cases hg : (ps.all fun p => p.1 == 4 && finAll p.2.2) = true
        · rw [if_pos hg] at ih
          obtain ⟨es, h8, h9, h10⟩ := ih
          rw [if_pos (by simp [h4, hg])]
          refine ⟨(p.2.1, .arr sl) :: es, by simp [h8], ?_, .cons ⟨rfl, sl, rfl, h6⟩ h10⟩
          intro e he
          rcases List.mem_cons.1 he with rfl | he
          · exact h7
          · exact h9 e he
        · rw [if_neg hg] at ih
          rw [if_neg (by simp [hg]), ih]
          rfl
      · rw [if_neg hf] at hs
        rw [if_neg (by simp [hf]), hs]
        rfl
    · rw [if_neg (by simp [h4]), if_neg (by rw [hn]; exact h4)]

theorem exec_sets (w : List Char) (es : Dict) (hok : ∀ e ∈ es, e.2.ok = true) (d : Dict) (ss : List Stmt) :
    exec (some (w, d)) ((es.map fun e => Stmt.set w e.1 e.2) ++ ss) = exec (some (w, es.reverse ++ d)) ss := by
  induction es generalizing d with
  | nil => rfl
  | cons e es ih =>
    rw [List.map_cons, List.cons_append, exec, if_pos ⟨rfl, hok e List.mem_cons_self⟩, ih fun e he => hok e (List.mem_cons_of_mem _ he)]
    simp

end Verif.SaveText
