import Verif.SaveText.Model
import Verif.SaveText.NumRead

/-!
# Tokens of the text `savecase` writes
-/

namespace Verif.SaveText

open CaseIO

theorem run_append (s : LS) (a b : List Char) : run s (a ++ b) = (run s a).bind fun s' => run s' b := by
  induction a generalizing s with
  | nil => rfl
  | cons c a ih =>
    rw [List.cons_append, run, run]
    cases step s c with
    | none => rfl
    | some s' => exact ih s'

theorem run_of {s s' : LS} {a : List Char} (h : run s a = some s') (b : List Char) : run s (a ++ b) = run s' b := by rw [run_append, h]; rfl

theorem run_cons {s s' : LS} {c : Char} (h : step s c = some s') (b : List Char) : run s (c :: b) = run s' b := by rw [run, h]; rfl

/-! ### Comments and names -/

theorem run_com (d : ℕ) (out : List Tok) {t : List Char} (h : '\n' ∉ t) (r : List Char) : run ⟨.com, d, out⟩ (t ++ r) = run ⟨.com, d, out⟩ r := by
  induction t with
  | nil => rfl
  | cons c t ih =>
    have hc : c ≠ '\n' := fun e => h (e ▸ List.mem_cons_self)
    rw [List.cons_append, run_cons (s' := ⟨.com, d, out⟩) (by simp [step, hc]), ih fun hm => h (List.mem_cons_of_mem _ hm)]

theorem run_name (d : ℕ) (out : List Tok) (buf : List Char) {t : List Char} (h : ∀ c ∈ t, identChar c = true) (r : List Char) :
    run ⟨.name buf, d, out⟩ (t ++ r) = run ⟨.name (buf ++ t), d, out⟩ r := by
  induction t generalizing buf with
  | nil => simp
  | cons c t ih =>
    rw [List.cons_append, run_cons (s' := ⟨.name (buf ++ [c]), d, out⟩) (by simp [step, h c List.mem_cons_self]), ih _ fun c hc => h c (List.mem_cons_of_mem _ hc)]
    simp

theorem run_str (d : ℕ) (out : List Tok) (q : Char) (buf : List Char) {t : List Char} (h : ∀ c ∈ t, c ≠ q ∧ c ≠ '\n' ∧ c ≠ '\\') (r : List Char) :
    run ⟨.str q buf, d, out⟩ (t ++ r) = run ⟨.str q (buf ++ t), d, out⟩ r := by
  induction t generalizing buf with
  | nil => simp
  | cons c t ih =>
    obtain ⟨h1, h2, h3⟩ := h c List.mem_cons_self
    rw [List.cons_append, run_cons (s' := ⟨.str q (buf ++ [c]), d, out⟩) (by simp [step, h1, h2, h3]), ih _ fun c hc => h c (List.mem_cons_of_mem _ hc)]
    simp

/-! ### Numbers -/

theorem run_num (d : ℕ) (out : List Tok) (buf : List Char) (p : Char) {t : List Char} (h : okNum p t = true) (r : List Char) :
    ∃ p', run ⟨.num buf p, d, out⟩ (t ++ r) = run ⟨.num (buf ++ t) p', d, out⟩ r := by
  induction t generalizing buf p with
  | nil => exact ⟨p, by simp⟩
  | cons c t ih =>
    rw [okNum, Bool.and_eq_true] at h
    obtain ⟨p', hp⟩ := ih (buf ++ [c]) c h.2
    refine ⟨p', ?_⟩
    rw [List.cons_append, run_cons (s' := ⟨.num (buf ++ [c]) c, d, out⟩) (by simp only [step]; rw [if_pos h.1]), hp]
    simp

/-- A character after a value: comma, closing bracket, end of line. -/
def Stop (c : Char) : Prop := c = ',' ∨ c = ']' ∨ c = '\n'

theorem digit_begin {c : Char} (h : c.isDigit = true) : c ≠ ' ' ∧ c ≠ '\n' ∧ c ≠ '#' := by
  refine ⟨?_, ?_, ?_⟩ <;> (rintro rfl; revert h; decide)

theorem run_number (d : ℕ) (out : List Tok) {t : List Char} {l : Lit} (ht : NumText t) (hl : readNum t = some l) {c : Char} (hc : Stop c) (r : List Char) :
    run ⟨.mid, d, out⟩ (t ++ c :: r) = run ⟨.mid, d, .num l :: out⟩ (c :: r) := by
  obtain ⟨a, s, rfl, ha, hs⟩ := ht
  obtain ⟨h1, h2, h3⟩ := digit_begin ha
  obtain ⟨p', hp⟩ := run_num d out [a] a hs (c :: r)
  rw [List.cons_append, run_cons (s' := ⟨.num [a] a, d, out⟩) (by simp [step, begin, h1, h2, h3, ha]), hp, run, run]
  have : step ⟨.num ([a] ++ s) p', d, out⟩ c = step ⟨.mid, d, .num l :: out⟩ c := by
    simp only [step]
    rw [if_neg (by rcases hc with rfl | rfl | rfl <;> simp), List.singleton_append, hl]
    rfl
  rw [this]

theorem run_word (d : ℕ) (out : List Tok) {c : Char} {s : List Char} (h1 : identStart c = true) (h2 : c.isDigit = false) (h3 : c ≠ ' ' ∧ c ≠ '\n' ∧ c ≠ '#')
    (hs : ∀ c ∈ s, identChar c = true) {e : Char} (he : Stop e) (r : List Char) :
    run ⟨.mid, d, out⟩ ((c :: s) ++ e :: r) = run ⟨.mid, d, .name (c :: s) :: out⟩ (e :: r) := by
  rw [List.cons_append, run_cons (s' := ⟨.name [c], d, out⟩) (by simp [step, begin, h1, h2, h3]), run_name d out [c] hs, run, run]
  have : step ⟨.name ([c] ++ s), d, out⟩ e = step ⟨.mid, d, .name (c :: s) :: out⟩ e := by
    simp only [step]
    rw [if_neg (by rcases he with rfl | rfl | rfl <;> decide)]
    rfl
  rw [this]

/-! ### Values -/

/-- A value as the reader sees it: a literal or a name, with a sign. -/
inductive Item where
  | lit (x : SLit)
  | word (neg : Bool) (s : List Char)

def Item.toks : Item → List Tok
  | .lit ⟨false, l⟩ => [.num l]
  | .lit ⟨true, l⟩ => [.sym '-', .num l]
  | .word false s => [.name s]
  | .word true s => [.sym '-', .name s]

/-- The text `t` of a value reads as `x`. -/
def Cell (t : List Char) (x : Item) : Prop :=
  ∀ (d : ℕ) (out : List Tok) (c : Char), Stop c → ∀ r, run ⟨.mid, d, out⟩ (t ++ c :: r) = run ⟨.mid, d, x.toks.reverse ++ out⟩ (c :: r)

theorem run_minus (d : ℕ) (out : List Tok) (r : List Char) : run ⟨.mid, d, out⟩ ('-' :: r) = run ⟨.mid, d, .sym '-' :: out⟩ r := run_cons rfl r

theorem cell_num {t : List Char} {l : Lit} (ht : NumText t) (hl : readNum t = some l) : Cell t (.lit ⟨false, l⟩) :=
  fun d out _ hc r => run_number d out ht hl hc r

theorem cell_neg {t : List Char} {l : Lit} (ht : NumText t) (hl : readNum t = some l) : Cell ('-' :: t) (.lit ⟨true, l⟩) := by
  intro d out c hc r
  rw [List.cons_append, run_minus, run_number d _ ht hl hc r]
  rfl

theorem cell_inf : Cell ['i', 'n', 'f'] (.word false ['i', 'n', 'f']) :=
  fun d out _ hc r => run_word d out (by decide) (by decide) (by decide) (by decide) hc r

theorem cell_ninf : Cell ['-', 'i', 'n', 'f'] (.word true ['i', 'n', 'f']) := by
  intro d out c hc r
  rw [List.cons_append, run_minus, run_word d _ (by decide) (by decide) (by decide) (by decide) hc r]
  rfl

theorem cell_nan : Cell ['n', 'a', 'n'] (.word false ['n', 'a', 'n']) :=
  fun d out _ hc r => run_word d out (by decide) (by decide) (by decide) (by decide) hc r

/-! ### Rows and tables -/

def itemToks : List Item → List Tok
  | [] => []
  | [x] => x.toks
  | x :: xs => x.toks ++ (.sym ',' :: itemToks xs)

theorem run_commaSep (d : ℕ) {cells : List (List Char)} {xs : List Item} (h : List.Forall₂ Cell cells xs) :
    ∀ (out : List Tok) (r : List Char), run ⟨.mid, d, out⟩ (commaSep cells ++ ']' :: r) = run ⟨.mid, d, (itemToks xs).reverse ++ out⟩ (']' :: r) := by
  induction h with
  | nil => intro out r; rfl
  | @cons t x cells xs h1 h2 ih =>
    intro out r
    cases h2 with
    | nil => exact h1 d out ']' (Or.inr (Or.inl rfl)) r
    | @cons t' x' cells xs h3 h4 =>
      have e : commaSep (t :: t' :: cells) ++ ']' :: r = t ++ ',' :: (' ' :: (commaSep (t' :: cells) ++ ']' :: r)) := by
        show (t ++ ", ".toList ++ commaSep (t' :: cells)) ++ ']' :: r = _
        rw [show ", ".toList = [',', ' '] from rfl]
        simp
      rw [e, h1 d out ',' (Or.inl rfl), run_cons (s' := ⟨.mid, d, .sym ',' :: (x.toks.reverse ++ out)⟩) rfl, run_cons (s' := ⟨.mid, d, .sym ',' :: (x.toks.reverse ++ out)⟩) rfl,
        ih]
      congr 2
      show _ = (x.toks ++ (.sym ',' :: itemToks (x' :: xs))).reverse ++ out
      simp

def rowToks (xs : List Item) : List Tok := .sym '[' :: (itemToks xs ++ [.sym ']', .sym ','])

theorem run_row (d : ℕ) {cells : List (List Char)} {xs : List Item} (h : List.Forall₂ Cell cells xs) (out : List Tok) (r : List Char) :
    run ⟨.mid, d + 1, out⟩ (rowText cells ++ r) = run ⟨.mid, d + 1, (rowToks xs).reverse ++ out⟩ r := by
  have e : rowText cells ++ r = "        [".toList ++ (commaSep cells ++ (']' :: ',' :: '\n' :: r)) := by
    unfold rowText
    rw [show "],\n".toList = [']', ',', '\n'] from rfl]
    simp
  have h1 : run ⟨.mid, d + 1, out⟩ "        [".toList = some ⟨.mid, d + 2, .sym '[' :: out⟩ := rfl
  rw [e, run_of h1, run_commaSep (d + 2) h, run_cons (s' := ⟨.mid, d + 1, .sym ']' :: ((itemToks xs).reverse ++ .sym '[' :: out)⟩) rfl,
    run_cons (s' := ⟨.mid, d + 1, .sym ',' :: .sym ']' :: ((itemToks xs).reverse ++ .sym '[' :: out)⟩) rfl,
    run_cons (s' := ⟨.mid, d + 1, .sym ',' :: .sym ']' :: ((itemToks xs).reverse ++ .sym '[' :: out)⟩) rfl]
  congr 2
  simp [rowToks]

theorem run_rows (d : ℕ) {rows : List (List (List Char))} {xs : List (List Item)} (h : List.Forall₂ (List.Forall₂ Cell) rows xs) :
    ∀ (out : List Tok) (r : List Char),
      run ⟨.mid, d + 1, out⟩ ((rows.map rowText).flatten ++ r) = run ⟨.mid, d + 1, (xs.map rowToks).flatten.reverse ++ out⟩ r := by
  induction h with
  | nil => intro out r; rfl
  | @cons cells x rows xs h1 h2 ih =>
    intro out r
    rw [List.map_cons, List.flatten_cons, List.append_assoc, run_row d h1, ih]
    congr 2
    simp

/-- The tokens of an assignment after its indentation. -/
def assignToks (key : List Char) (xs : List (List Item)) : List Tok :=
  .name "ppc".toList :: .sym '[' :: .str key :: .sym ']' :: .sym '=' :: .name "array".toList :: .sym '(' :: .sym '[' :: ((xs.map rowToks).flatten ++ [.sym ']', .sym ')'])

/-! ### Lines -/

def NoLine (ts : List Tok) : Prop := ∀ n, Tok.line n ∉ ts

def flat (ls : List (ℕ × List Tok)) : List Tok := ls.flatMap fun l => .line l.1 :: l.2

/-- A text of complete lines, and its logical lines. -/
def Chunk (t : List Char) (ls : List (ℕ × List Tok)) : Prop :=
  (∀ out r, run ⟨.bol 0, 0, out⟩ (t ++ r) = run ⟨.bol 0, 0, (flat ls).reverse ++ out⟩ r) ∧ ∀ l ∈ ls, NoLine l.2

theorem Chunk.nil : Chunk [] [] := ⟨fun _ _ => rfl, by simp⟩

theorem Chunk.append {a b : List Char} {la lb : List (ℕ × List Tok)} (ha : Chunk a la) (hb : Chunk b lb) : Chunk (a ++ b) (la ++ lb) := by
  refine ⟨fun out r => ?_, fun l hl => (List.mem_append.1 hl).elim (ha.2 l) (hb.2 l)⟩
  rw [List.append_assoc, ha.1, hb.1]
  congr 2
  simp [flat]

theorem noLine_items (xs : List Item) : NoLine (itemToks xs) := by
  have hx : ∀ x : Item, NoLine x.toks := by
    intro x n
    rcases x with ⟨⟨⟩ | ⟨⟩, l⟩ | ⟨⟨⟩ | ⟨⟩, s⟩ <;> simp [Item.toks]
  induction xs with
  | nil => intro n; simp [itemToks]
  | cons x xs ih =>
    cases xs with
    | nil => exact hx x
    | cons y ys =>
      intro n hn
      have hn : Tok.line n ∈ x.toks ++ (.sym ',' :: itemToks (y :: ys)) := hn
      rcases List.mem_append.1 hn with h | h
      · exact hx x n h
      · rcases List.mem_cons.1 h with h | h
        · exact absurd h (by simp)
        · exact ih n h

theorem noLine_assign (key : List Char) (xs : List (List Item)) : NoLine (assignToks key xs) := by
  intro n hn
  simp only [assignToks, List.mem_cons, List.mem_append, List.mem_flatten, List.mem_map, reduceCtorEq, false_or, or_false, List.not_mem_nil] at hn
  obtain ⟨l, ⟨x, hx, rfl⟩, hl⟩ := hn
  simp only [rowToks, List.mem_cons, List.mem_append, reduceCtorEq, false_or, or_false, List.not_mem_nil] at hl
  exact noLine_items x n hl

/-- The quotes and key names used. -/
def GoodKey (q : Char) (key : List Char) : Prop := (q = '\'' ∨ q = '"') ∧ ∀ c ∈ key, c ≠ q ∧ c ≠ '\n' ∧ c ≠ '\\'

theorem chunk_assign {n : ℕ} {ind : List Char} (hi : ∀ out, run ⟨.bol 0, 0, out⟩ ind = some ⟨.bol n, 0, out⟩) {q : Char} {key : List Char} (hk : GoodKey q key)
    {rows : List (List (List Char))} {xs : List (List Item)} (h : List.Forall₂ (List.Forall₂ Cell) rows xs) :
    Chunk (assignText ind q key rows) [(n, assignToks key xs)] := by
  refine ⟨fun out r => ?_, by simpa using noLine_assign key xs⟩
  have e : assignText ind q key rows ++ r =
      ind ++ ("ppc[".toList ++ (q :: (key ++ (q :: ("] = array([\n".toList ++ ((rows.map rowText).flatten ++ ("    ])\n".toList ++ r))))))) := by
    unfold assignText
    simp only [List.append_assoc, List.cons_append]
  have h1 : run ⟨.bol n, 0, out⟩ "ppc[".toList = some ⟨.mid, 1, .sym '[' :: .name "ppc".toList :: .line n :: out⟩ := rfl
  have h2 : ∀ out, run ⟨.mid, 1, out⟩ "] = array([\n".toList = some ⟨.mid, 2, .sym '[' :: .sym '(' :: .name "array".toList :: .sym '=' :: .sym ']' :: out⟩ := fun _ => rfl
  have h3 : ∀ out, run ⟨.mid, 2, out⟩ "    ])\n".toList = some ⟨.bol 0, 0, .sym ')' :: .sym ']' :: out⟩ := fun _ => rfl
  have h4 : ∀ out, step ⟨.mid, 1, out⟩ q = some ⟨.str q [], 1, out⟩ := by
    intro out
    rcases hk.1 with rfl | rfl <;> rfl
  rw [e, run_of (hi out), run_of h1, run_cons (h4 _), run_str 1 _ q [] hk.2, run_cons (s' := ⟨.mid, 1, .str ([] ++ key) :: .sym '[' :: .name "ppc".toList :: .line n :: out⟩)
    (by simp [step, LS.emit]), run_of (h2 _), run_rows 1 h, run_of (h3 _)]
  congr 2
  simp [flat, assignToks]

end Verif.SaveText
