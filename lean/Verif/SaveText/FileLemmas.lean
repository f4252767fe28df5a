import Verif.SaveText.ParseLemmas

/-!
# The file as a whole
-/

namespace Verif.SaveText

open CaseIO

/-- A name `def` accepts. -/
def IsIdent (f : List Char) : Prop := (∃ c s, f = c :: s ∧ identStart c = true ∧ ∀ c ∈ s, identChar c = true) ∧ f ∉ keywords

theorem identStart_begin {c : Char} (h : identStart c = true) : c.isDigit = false ∧ c ≠ ' ' ∧ c ≠ '\n' ∧ c ≠ '#' := by
  refine ⟨?_, ?_, ?_, ?_⟩
  · by_contra hd
    have hd : c.isDigit = true := by simpa using hd
    simp only [identStart, Bool.or_eq_true, beq_iff_eq, Char.isAlpha, Char.isUpper, Char.isLower, decide_eq_true_eq, Bool.and_eq_true] at h
    simp only [Char.isDigit, Bool.and_eq_true, decide_eq_true_eq, ge_iff_le] at hd
    rcases h with h | rfl
    · obtain ⟨h1, h2⟩ := hd
      rw [UInt32.le_iff_toNat_le] at h1 h2
      rcases h with h | h
      · have h := h.1
        rw [ge_iff_le, UInt32.le_iff_toNat_le] at h
        revert h h2
        simp only [show ('9' : Char).val.toNat = 57 from rfl, show ('A' : Char).val.toNat = 65 from rfl]
        omega
      · have h := h.1
        rw [ge_iff_le, UInt32.le_iff_toNat_le] at h
        revert h h2
        simp only [show ('9' : Char).val.toNat = 57 from rfl, show ('a' : Char).val.toNat = 97 from rfl]
        omega
    · revert hd
      decide
  · rintro rfl; revert h; decide
  · rintro rfl; revert h; decide
  · rintro rfl; revert h; decide

def defToks (f : List Char) : List Tok := [.name "def".toList, .name f, .sym '(', .sym ')', .sym ':']
def newToks : List Tok := [.name "ppc".toList, .sym '=', .sym '{', .str "version".toList, .sym ':', .str "2".toList, .sym '}']

theorem run_comments {comment : List (List Char)} (h : ∀ c ∈ comment, '\n' ∉ c) (out : List Tok) (r : List Char) :
    run ⟨.bol 0, 0, out⟩ ((comment.map fun c => '#' :: c ++ ['\n']).flatten ++ r) = run ⟨.bol 0, 0, out⟩ r := by
  induction comment with
  | nil => rfl
  | cons c cs ih =>
    have e : (List.map (fun c => '#' :: c ++ ['\n']) (c :: cs)).flatten ++ r = '#' :: (c ++ ('\n' :: ((cs.map fun c => '#' :: c ++ ['\n']).flatten ++ r))) := by simp
    rw [e, run_cons (s' := ⟨.com, 0, out⟩) rfl, run_com 0 out (h c List.mem_cons_self), run_cons (s' := ⟨.bol 0, 0, out⟩) rfl, ih fun c hc => h c (List.mem_cons_of_mem _ hc)]

set_option maxRecDepth 20000 in
theorem chunk_head {f : List Char} (hf : IsIdent f) {comment : List (List Char)} (hc : ∀ c ∈ comment, '\n' ∉ c) : Chunk (headText f comment) [(0, defToks f), (4, newToks)] := by
  refine ⟨fun out r => ?_, by simp [NoLine, defToks, newToks]⟩
  obtain ⟨⟨c, s, rfl, h1, h2⟩, _⟩ := hf
  obtain ⟨h3, h4⟩ := identStart_begin h1
  have e : headText (c :: s) comment ++ r = "def ".toList ++ (c :: (s ++ ("():\n".toList ++ ((comment.map fun c => '#' :: c ++ ['\n']).flatten ++
      ("\n    ## PYPOWER Case Format : Version 2\n    ppc = {'version': '2'}\n\n    ##-----  Power Flow Data  -----##\n    ## system MVA base\n".toList ++ r))))) := by
    unfold headText
    simp only [List.append_assoc, List.cons_append]
  have r1 : run ⟨.bol 0, 0, out⟩ "def ".toList = some ⟨.mid, 0, .name "def".toList :: .line 0 :: out⟩ := rfl
  have r2 : ∀ out, run ⟨.name ([c] ++ s), 0, out⟩ "():\n".toList = some ⟨.bol 0, 0, .sym ':' :: .sym ')' :: .sym '(' :: .name (c :: s) :: out⟩ := fun _ => rfl
  have r3 : ∀ out, run ⟨.bol 0, 0, out⟩
      "\n    ## PYPOWER Case Format : Version 2\n    ppc = {'version': '2'}\n\n    ##-----  Power Flow Data  -----##\n    ## system MVA base\n".toList =
      some ⟨.bol 0, 0, newToks.reverse ++ .line 4 :: out⟩ := fun _ => rfl
  rw [e, run_of r1, run_cons (s' := ⟨.name [c], 0, .name "def".toList :: .line 0 :: out⟩) (by simp [step, begin, h1, h3, h4]), run_name 0 _ [c] h2, run_of (r2 _),
    run_comments hc, run_of (r3 _)]
  congr 2

def baseToks (i : Item) : List Tok := .name "ppc".toList :: .sym '[' :: .str "baseMVA".toList :: .sym ']' :: .sym '=' :: i.toks

theorem chunk_base {x : Num} {i : Item} (h : Cell (fmtG x) i) : Chunk (baseText x) [(4, baseToks i)] := by
  refine ⟨fun out r => ?_, ?_⟩
  · have e : baseText x ++ r = "    ppc['baseMVA'] = ".toList ++ (fmtG x ++ ('\n' :: r)) := by
      unfold baseText
      simp only [List.append_assoc, List.cons_append, List.nil_append]
    have r1 : run ⟨.bol 0, 0, out⟩ "    ppc['baseMVA'] = ".toList =
        some ⟨.mid, 0, .sym '=' :: .sym ']' :: .str "baseMVA".toList :: .sym '[' :: .name "ppc".toList :: .line 4 :: out⟩ := rfl
    rw [e, run_of r1, h 0 _ '\n' (Or.inr (Or.inr rfl)), run_cons (s' := ⟨.bol 0, 0, _⟩) rfl]
    congr 2
    simp [flat, baseToks]
  · intro l hl n hn
    rw [List.mem_singleton] at hl
    subst hl
    rcases i with ⟨⟨⟩ | ⟨⟩, l⟩ | ⟨⟨⟩ | ⟨⟩, s⟩ <;> simp [baseToks, Item.toks] at hn

theorem pStmt_base (i : Item) : pStmt (baseToks i) = i.asLit.map fun s => .set "ppc".toList "baseMVA".toList (.num s) := by
  rcases i with ⟨⟨⟩ | ⟨⟩, l⟩ | ⟨⟨⟩ | ⟨⟩, s⟩ <;> rfl

def retToks : List Tok := [.name "return".toList, .name "ppc".toList]

theorem chunk_ret : Chunk "\n    return ppc\n".toList [(4, retToks)] := by
  refine ⟨fun out r => ?_, by simp [NoLine, retToks]⟩
  have r1 : run ⟨.bol 0, 0, out⟩ "\n    return ppc\n".toList = some ⟨.bol 0, 0, retToks.reverse ++ .line 4 :: out⟩ := rfl
  rw [run_of r1]
  congr 2

/-- The dictionary that results. -/
def DictOf (b : ℚ) (ps : Ps) (d : Dict) : Prop :=
  ∃ (s : SLit) (es : Dict), s.val = round9 b ∧ List.Forall₂ EntryOf ps es ∧ d = es.reverse ++ [("baseMVA".toList, .num s), ("version".toList, .str "2".toList)]

theorem eval_file {f : List Char} (hf : IsIdent f) {comment : List (List Char)} (hc : ∀ c ∈ comment, '\n' ∉ c) (x : Num) {t : List Char} {ps : Ps} (ht : Pieces t ps) :
    match x with
    | .fin b => if GoodLines ps then ∃ d, evalFile f (headText f comment ++ (baseText x ++ (t ++ "\n    return ppc\n".toList))) = some d ∧ DictOf b ps d
        else evalFile f (headText f comment ++ (baseText x ++ (t ++ "\n    return ppc\n".toList))) = none
    | _ => evalFile f (headText f comment ++ (baseText x ++ (t ++ "\n    return ppc\n".toList))) = none := by
  obtain ⟨i, hi, hs⟩ := cell_shows (p := (.g9, x)) (t := fmtG x) rfl
  obtain ⟨ls, hch, hls⟩ := ht
  have hch := (chunk_head hf hc).append ((chunk_base hi).append (hch.append chunk_ret))
  have hlex := lex_chunk hch
  have hsplit := splitLines_flat hch.2
  have hp : parse (flat ([(0, defToks f), (4, newToks)] ++ ([(4, baseToks i)] ++ (ls ++ [(4, retToks)])))) =
      (pStmts 4 ((4, newToks) :: (4, baseToks i) :: (ls ++ [(4, retToks)]))).map fun ss => (f, ss) := by
    rw [parse, hsplit]
    show (if "def".toList = "def".toList ∧ f ∉ keywords ∧ 0 < 4 then _ else none) = _
    rw [if_pos ⟨rfl, hf.2, by norm_num⟩]
    rfl
  have hnew : pStmt newToks = some (.new "ppc".toList "version".toList "2".toList) := rfl
  have hret : pStmts 4 [(4, retToks)] = some [.ret "ppc".toList] := rfl
  have hev : evalFile f (headText f comment ++ (baseText x ++ (t ++ "\n    return ppc\n".toList))) =
      (pStmts 4 ((4, newToks) :: (4, baseToks i) :: (ls ++ [(4, retToks)]))).bind fun ss => exec none ss := by
    unfold evalFile
    rw [hlex]
    show (parse _).bind _ = _
    rw [hp]
    cases pStmts 4 ((4, newToks) :: (4, baseToks i) :: (ls ++ [(4, retToks)])) with
    | none => rfl
    | some ss => simp
  have h1 : pStmts 4 ((4, newToks) :: (4, baseToks i) :: (ls ++ [(4, retToks)])) =
      i.asLit.bind fun s => (pStmts 4 ls).map fun ss =>
        .new "ppc".toList "version".toList "2".toList :: .set "ppc".toList "baseMVA".toList (.num s) :: (ss ++ [.ret "ppc".toList]) := by
    rw [pStmts, if_pos rfl, hnew, Option.bind_some, pStmts, if_pos rfl, pStmt_base, pStmts_append, hret]
    cases i.asLit with
    | none => rfl
    | some s => cases pStmts 4 ls <;> rfl
  rw [hev, h1]
  rcases x with b | n | _
  · obtain ⟨s, rfl, hv, _⟩ := hs
    have := pStmts_pieces hls
    dsimp only
    by_cases hg : GoodLines ps = true
    · rw [if_pos hg] at this ⊢
      obtain ⟨es, h2, h3, h4⟩ := this
      refine ⟨es.reverse ++ [("baseMVA".toList, .num s), ("version".toList, .str "2".toList)], ?_, s, es, hv, h4, rfl⟩
      rw [h2]
      show exec none (.new _ _ _ :: .set _ _ _ :: (_ ++ _)) = _
      rw [exec, exec, if_pos ⟨rfl, rfl⟩, exec_sets _ _ h3, exec, if_pos rfl]
    · rw [if_neg hg] at this ⊢
      rw [this]
      rfl
  · obtain ⟨b, s, rfl⟩ := hs
    rfl
  · obtain ⟨b, s, rfl⟩ := hs
    rfl

/-! ### Looking up -/

/-- The table that the pieces leave under a key. -/
def look (ps : Ps) (k : List Char) : Option Arr := (ps.reverse.find? fun p => p.2.1 = k).map fun p => arrOf p.2.2

theorem get_cons (a : List Char) (e : Expr) (d : Dict) (k : List Char) : Dict.get ((a, e) :: d) k = if a = k then some e else Dict.get d k := by
  unfold Dict.get
  rw [List.find?_cons]
  by_cases h : a = k
  · rw [if_pos h]
    simp [h]
  · rw [if_neg h]
    simp [h]

theorem get_append (a b : Dict) (k : List Char) : Dict.get (a ++ b) k = (Dict.get a k).or (Dict.get b k) := by
  unfold Dict.get
  rw [List.find?_append]
  cases List.find? (fun p => decide (p.1 = k)) a <;> rfl

theorem get_entries {ps : Ps} {es : Dict} (h : List.Forall₂ EntryOf ps es) (k : List Char) :
    (es.find? fun p => p.1 = k).map (fun e => e.2) = none ∧ (ps.find? fun p => p.2.1 = k) = none ∨
    ∃ ls p, (es.find? fun p => p.1 = k).map (fun e => e.2) = some (.arr ls) ∧ (ps.find? fun p => p.2.1 = k) = some p ∧ mkArr ls = arrOf p.2.2 := by
  induction h with
  | nil => exact Or.inl ⟨rfl, rfl⟩
  | @cons p e ps es h1 h2 ih =>
    obtain ⟨hk, ls, hls, he⟩ := h1
    rw [List.find?_cons, List.find?_cons]
    by_cases hp : p.2.1 = k
    · right
      refine ⟨ls, p, ?_, ?_, he⟩
      · simp [hk, hp, hls]
      · simp [hp]
    · simpa [hk, hp] using ih

theorem dict_arr {b : ℚ} {ps : Ps} {d : Dict} (h : DictOf b ps d) {k : List Char} (h1 : k ≠ "baseMVA".toList) (h2 : k ≠ "version".toList) : d.arr k = look ps k := by
  obtain ⟨s, es, _, h3, rfl⟩ := h
  have h4 : Dict.get [("baseMVA".toList, Expr.num s), ("version".toList, .str "2".toList)] k = none := by
    rw [get_cons, if_neg (Ne.symm h1), get_cons, if_neg (Ne.symm h2)]
    rfl
  rw [Dict.arr, get_append, h4, Option.or_none, look]
  have := get_entries (List.rel_reverse h3) k
  unfold Dict.get
  rcases this with ⟨e1, e2⟩ | ⟨ls, p, e1, e2, e3⟩
  · rw [e1, e2]
    rfl
  · rw [e1, e2]
    simp [e3]

theorem dict_base {b : ℚ} {ps : Ps} {d : Dict} (h : DictOf b ps d) (hps : ∀ p ∈ ps, p.2.1 ≠ "baseMVA".toList) : ∃ s, d.get "baseMVA".toList = some (.num s) ∧ s.val = round9 b := by
  obtain ⟨s, es, h0, h3, rfl⟩ := h
  refine ⟨s, ?_, h0⟩
  rw [get_append]
  have : Dict.get es.reverse "baseMVA".toList = none := by
    rcases get_entries (List.rel_reverse h3) "baseMVA".toList with ⟨e1, e2⟩ | ⟨ls, p, e1, e2, e3⟩
    · exact e1
    · have := List.mem_of_find?_eq_some e2
      exact absurd (by simpa using List.find?_some e2) (hps p (List.mem_reverse.1 this))
  rw [this]
  rfl

end Verif.SaveText
