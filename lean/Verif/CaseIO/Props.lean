import Verif.CaseIO.Model

/-!
# C48, C49, C50: options, version conversion, saved columns
-/

namespace Verif.CaseIO

set_option linter.unusedSectionVars false

/-! ## C48: options -/

variable {V : Type}

/-- The last setting of `name` in a list of settings, if any. -/
def lastSetting (name : String) : List (String × V) → Option V
  | [] => none
  | p :: ps => (lastSetting name ps).or (if p.1 = name then some p.2 else none)

/-- The default of an option: the value of the last row of the option tables whose name in capitals is `name`. -/
def default (table : List (String × V)) (name : String) : Option V :=
  lastSetting name (table.map fun p => (p.1.toUpper, p.2))

/-- `lastSetting` is what its name says. -/
theorem lastSetting_iff (name : String) (l : List (String × V)) (v : V) :
    lastSetting name l = some v ↔ ∃ l₁ l₂, l = l₁ ++ (name, v) :: l₂ ∧ ∀ p ∈ l₂, p.1 ≠ name := by
  induction l with
  | nil => simp [lastSetting]
  | cons p ps ih =>
    have hnone : lastSetting name ps = none ↔ ∀ q ∈ ps, q.1 ≠ name := by
      clear ih
      induction ps with
      | nil => simp [lastSetting]
      | cons q qs ihq =>
        simp only [lastSetting, Option.or_eq_none_iff, ihq, List.mem_cons, forall_eq_or_imp]
        by_cases h : q.1 = name <;> simp [h]
    constructor
    · intro h
      simp only [lastSetting] at h
      cases hps : lastSetting name ps with
      | some w =>
        rw [hps] at h
        obtain ⟨l₁, l₂, h1, h2⟩ := ih.1 (by rw [hps]; simpa using h)
        exact ⟨p :: l₁, l₂, by rw [h1]; rfl, h2⟩
      | none =>
        rw [hps] at h
        by_cases hp : p.1 = name
        · simp only [hp, if_true, Option.none_or, Option.some.injEq] at h
          exact ⟨[], ps, by rw [← hp, ← h]; rfl, hnone.1 hps⟩
        · simp [hp] at h
    · rintro ⟨l₁, l₂, h1, h2⟩
      cases l₁ with
      | nil =>
        simp only [List.nil_append, List.cons.injEq] at h1
        obtain ⟨rfl, rfl⟩ := h1
        simp [lastSetting, hnone.2 h2]
      | cons q qs =>
        simp only [List.cons_append, List.cons.injEq] at h1
        obtain ⟨rfl, h1⟩ := h1
        simp [lastSetting, ih.2 ⟨qs, l₂, h1, h2⟩]

theorem foldl_put (l : List (String × V)) (d : Opts V) (name : String) :
    (l.foldl (fun d p => d.put p.1 p.2) d) name = (lastSetting name l).or (d name) := by
  induction l generalizing d with
  | nil => rfl
  | cons p ps ih =>
    simp only [List.foldl_cons, ih, lastSetting, Opts.put]
    cases lastSetting name ps with
    | some v => rfl
    | none =>
      by_cases h : p.1 = name
      · simp [h]
      · have h' : ¬ name = p.1 := fun e => h e.symm
        simp [h, h']

theorem defaults_eq (table : List (String × V)) (name : String) : defaults table name = default table name := by
  have h : defaults table = (table.map fun p => (p.1.toUpper, p.2)).foldl (fun (d : Opts V) p => d.put p.1 p.2)
      fun _ => none := by
    unfold defaults; rw [List.foldl_map]
  rw [h, foldl_put]; simp [default]

/-- **C48, one call.** For every memory and every argument, `ppoption` returns a new dictionary (not one of the existing
ones) in which each name has its last keyword setting if there is one, else the value in the given dictionary (or the
default if no dictionary is given); no existing dictionary, in particular the caller's, is changed. -/
theorem C48 (table : List (String × V)) (h : Heap V) (arg : Option Nat) (harg : ∀ a, arg = some a → a < h.length)
    (kw : List (String × V)) :
    ∃ h' r d, ppoption table h arg kw = some (h', r) ∧ h.length ≤ r ∧ h'[r]? = some d
      ∧ (∀ a < h.length, h'[a]? = h[a]?)
      ∧ ∀ name, d name = (lastSetting name kw).or
          (match arg with
          | none => default table name
          | some a => (h[a]?).bind fun o => o name) := by
  cases arg with
  | none =>
    refine ⟨_, _, update (defaults table) kw, rfl, Nat.le_refl _, by simp, ?_, ?_⟩
    · intro a ha
      rw [List.getElem?_set_ne (by omega), List.getElem?_append_left ha]
    · intro name
      show update _ kw name = _
      rw [update, foldl_put, defaults_eq]
  | some a =>
    have ha := harg a rfl
    have h1 : (h ++ [defaults table])[a]? = some h[a] := by
      rw [List.getElem?_append_left ha, List.getElem?_eq_getElem ha]
    refine ⟨((h ++ [defaults table]) ++ [h[a]]).set (h.length + 1) (update h[a] kw), h.length + 1, update h[a] kw,
      by unfold ppoption; simp only [h1], by omega, by simp, ?_, ?_⟩
    · intro b hb
      rw [List.getElem?_set_ne (by omega), List.getElem?_append_left (by simp; omega),
        List.getElem?_append_left hb]
    · intro name
      rw [update, foldl_put]
      simp [List.getElem?_eq_getElem ha]

/-- Successive calls: the first without a dictionary, each following one on the dictionary returned before. -/
def calls (table : List (String × V)) (h : Heap V) (first : List (String × V)) :
    List (List (String × V)) → Option (Heap V × Nat)
  | [] => ppoption table h none first
  | kw :: earlier =>
    match calls table h first earlier with
    | some (h', r) => ppoption table h' (some r) kw
    | none => none

/-- **C48, any sequence of calls.** After any sequence of overriding calls (listed last first) each option has its last
setting over the whole sequence, or its default when it was never set. -/
theorem C48_sequence (table : List (String × V)) (h : Heap V) (first : List (String × V))
    (later : List (List (String × V))) :
    ∃ h' r d, calls table h first later = some (h', r) ∧ h'[r]? = some d ∧ (∀ a < h.length, h'[a]? = h[a]?)
      ∧ ∀ name, d name = (lastSetting name (first ++ later.reverse.flatten)).or (default table name) := by
  have happ : ∀ (name : String) (l₁ l₂ : List (String × V)),
      lastSetting name (l₁ ++ l₂) = (lastSetting name l₂).or (lastSetting name l₁) := by
    intro name l₁ l₂
    induction l₁ with
    | nil => simp [lastSetting]
    | cons p ps ih => simp [lastSetting, ih, Option.or_assoc]
  have key : ∃ h' r d, calls table h first later = some (h', r) ∧ h'[r]? = some d ∧ h.length ≤ h'.length
      ∧ (∀ a < h.length, h'[a]? = h[a]?)
      ∧ ∀ name, d name = (lastSetting name (first ++ later.reverse.flatten)).or (default table name) := by
    induction later with
    | nil =>
      obtain ⟨h', r, d, h1, h2, h3, h4, h5⟩ := C48 table h none (by simp) first
      refine ⟨h', r, d, h1, h3, ?_, h4, ?_⟩
      · have := (List.getElem?_eq_some_iff.1 h3).1; omega
      · intro name; rw [h5 name]; simp
    | cons kw earlier ih =>
      obtain ⟨h', r, d, h1, h3, hl, h4, h5⟩ := ih
      have hr := (List.getElem?_eq_some_iff.1 h3).1
      obtain ⟨h'', r', d', e1, e2, e3, e4, e5⟩ := C48 table h' (some r) (by simp; exact hr) kw
      refine ⟨h'', r', d', by simp only [calls, h1, e1], e3, ?_, ?_, ?_⟩
      · have := (List.getElem?_eq_some_iff.1 e3).1; omega
      · intro a ha; rw [e4 a (by omega), h4 a ha]
      · intro name
        rw [e5 name]
        simp only [h3, Option.bind_some, h5 name]
        rw [List.reverse_cons, List.flatten_append, ← List.append_assoc, happ]
        simp [happ, Option.or_assoc]
  obtain ⟨h', r, d, h1, h2, -, h3, h4⟩ := key
  exact ⟨h', r, d, h1, h2, h3, h4⟩

/-- Non-vacuity: overriding twice. -/
example : ∃ h r d, calls [("pf_alg", 1), ("pf_tol", 8)] [] [("PF_ALG", 2)] [[("PF_ALG", 3)]] = some (h, r)
    ∧ h[r]? = some d ∧ d "PF_ALG" = some 3 := by
  obtain ⟨h', r, d, h1, h2, -, h3⟩ := C48_sequence [("pf_alg", 1), ("pf_tol", 8)] [] [("PF_ALG", 2)] [[("PF_ALG", 3)]]
  refine ⟨h', r, d, h1, h2, ?_⟩
  rw [h3]; simp [lastSetting]

/-! ## C49: version conversion -/

variable {R : Type} [OfNat R 0]

/-- What the version 2 generator row of a version 1 row should be: columns up to `PMIN` kept, eleven zero columns, and the
four multipliers, if present, at columns 21 to 24. -/
structure GenV2 (old new : List R) : Prop where
  kept : ∀ i < 10, new[i]? = old[i]?
  zero : ∀ i, 10 ≤ i → i < 21 → new[i]? = some 0
  mults : ∀ i < 4, new[21 + i]? = old[10 + i]?

/-- What the version 2 branch row of a version 1 row should be: columns up to `BR_STATUS` kept, no angle limits, and the
four flows and two flow multipliers, if present, at columns 13 to 18. -/
structure BranchV2 (lo hi : R) (old new : List R) : Prop where
  kept : ∀ i < 11, new[i]? = old[i]?
  angmin : new[11]? = some lo
  angmax : new[12]? = some hi
  solution : ∀ i < 6, new[13 + i]? = old[11 + i]?

theorem slice_get (row : List R) (a b i : Nat) :
    (slice row a b)[i]? = if a + i < b then row[a + i]? else none := by
  simp [slice, List.getElem?_take]

theorem slice_length (row : List R) (a b : Nat) : (slice row a b).length = min b row.length - a := by
  simp [slice]

theorem gen_unsolved (row : List R) (h : row.length = 10) : GenV2 row (slice row 0 10 ++ List.replicate 11 (0 : R)) := by
  have hl : (slice row 0 10).length = 10 := by rw [slice_length, h]; rfl
  refine ⟨?_, ?_, ?_⟩
  · intro i hi
    rw [List.getElem?_append_left (by omega), slice_get]
    simp [hi]
  · intro i h1 h2
    rw [List.getElem?_append_right (by omega), hl, List.getElem?_replicate, if_pos (by omega)]
  · intro i hi
    rw [List.getElem?_append_right (by omega), hl, List.getElem?_replicate, if_neg (by omega),
      List.getElem?_eq_none (by omega)]

theorem branch_unsolved (lo hi : R) (row : List R) (h : row.length = 11) :
    BranchV2 lo hi row (slice row 0 11 ++ [lo, hi]) := by
  have hl : (slice row 0 11).length = 11 := by rw [slice_length, h]; rfl
  refine ⟨?_, ?_, ?_, ?_⟩
  · intro i hi
    rw [List.getElem?_append_left (by omega), slice_get]
    simp [hi]
  · rw [List.getElem?_append_right (by omega), hl]; rfl
  · rw [List.getElem?_append_right (by omega), hl]; rfl
  · intro i hi
    rw [List.getElem?_append_right (by omega), hl, List.getElem?_eq_none (by simp; omega),
      List.getElem?_eq_none (by omega)]

/-- **C49 (partial).** A version 1 case without solution columns (10 generator and 11 branch columns) is converted as
documented, row by row. Missing with respect to C49: tables with solution columns, see `C49_negation`. -/
theorem C49_partial (lo hi : R) (declared : Option String) (gen br : Table R) (hg : gen.Rect) (hb : br.Rect)
    (hgc : gen.cols = 10) (hbc : br.cols = 11) :
    ∃ gen' br', loadTables lo hi declared gen br = (gen', br')
      ∧ gen'.rows.length = gen.rows.length ∧ br'.rows.length = br.rows.length
      ∧ (∀ (k : Nat) (old new : List R), gen.rows[k]? = some old → gen'.rows[k]? = some new → GenV2 old new)
      ∧ (∀ (k : Nat) (old new : List R), br.rows[k]? = some old → br'.rows[k]? = some new → BranchV2 lo hi old new) := by
  refine ⟨gen1to2 gen, branch1to2 lo hi br, ?_, ?_, ?_, ?_, ?_⟩
  · simp [loadTables, ppc1to2, hgc]
  · simp [gen1to2, hgc]
  · simp [branch1to2, hbc]
  · intro k old new h1 h2
    have hl : old.length = 10 := (hg old (List.mem_of_getElem? h1)).trans hgc
    simp only [gen1to2, hgc, show ¬ 13 ≤ 10 by omega, if_false, List.getElem?_map, h1, Option.map_some,
      Option.some.injEq] at h2
    rw [← h2]; exact gen_unsolved old hl
  · intro k old new h1 h2
    have hl : old.length = 11 := (hb old (List.mem_of_getElem? h1)).trans hbc
    simp only [branch1to2, hbc, show ¬ 15 ≤ 11 by omega, if_false, List.getElem?_map, h1, Option.map_some,
      Option.some.injEq] at h2
    rw [← h2]; exact branch_unsolved lo hi old hl

/-- **C49, negation.** For every version 1 case with a solution (14 generator columns, 17 branch columns) every generator
row loses its `MU_QMIN` column, and every branch row loses `PF`: the column read as `PF` holds the old `QF`, and so on. -/
theorem C49_negation (lo hi : R) (declared : Option String) (gen br : Table R) (hg : gen.Rect) (hb : br.Rect)
    (hgc : gen.cols = 14) (hbc : br.cols = 17) :
    (∀ (k : Nat) (new : List R), (loadTables lo hi declared gen br).1.rows[k]? = some new → new[24]? = none)
      ∧ ∀ (k : Nat) (old new : List R), br.rows[k]? = some old →
        (loadTables lo hi declared gen br).2.rows[k]? = some new →
          new.length = 20 ∧ ∀ i < 5, new[13 + i]? = old[12 + i]? := by
  have hload : loadTables lo hi declared gen br = (gen1to2 gen, branch1to2 lo hi br) := by
    simp [loadTables, ppc1to2, hgc]
  rw [hload]
  refine ⟨?_, ?_⟩
  · intro k new h
    simp only [gen1to2, hgc, show 13 ≤ 14 by omega, if_true, List.getElem?_map, Option.map_eq_some_iff] at h
    obtain ⟨old, h1, rfl⟩ := h
    have hl : old.length = 14 := (hg old (List.mem_of_getElem? h1)).trans hgc
    apply List.getElem?_eq_none
    simp [slice_length, hl]
  · intro k old new h1 h2
    have hl : old.length = 17 := (hb old (List.mem_of_getElem? h1)).trans hbc
    simp only [branch1to2, hbc, show 15 ≤ 17 by omega, if_true, List.getElem?_map, h1, Option.map_some,
      Option.some.injEq] at h2
    subst h2
    refine ⟨by simp [slice_length, hl], ?_⟩
    intro i hi5
    have hl1 : (slice old 0 11 ++ [lo, hi]).length = 13 := by simp [slice_length, hl]
    have hl2 : (slice old 12 19).length = 5 := by simp [slice_length, hl]
    rw [List.append_assoc, List.getElem?_append_right (by omega), hl1,
      List.getElem?_append_left (by omega), slice_get, if_pos (by omega)]
    congr 1; omega

/-- **C49, the declared version is ignored.** A case declared as version 2 whose generator table has fewer than 20 columns
is converted all the same; in particular its branch angle limits are replaced by the defaults. -/
theorem C49_declared_ignored (lo hi : R) (declared : Option String) (gen br : Table R)
    (hgc : gen.cols < 20) (hbc : br.cols = 13) :
    ∀ (k : Nat) (old new : List R), br.rows[k]? = some old →
      (loadTables lo hi declared gen br).2.rows[k]? = some new →
        new = old.take 11 ++ [lo, hi] := by
  intro k old new h1 h2
  simp only [loadTables, show gen.cols < 21 by omega, if_true, ppc1to2, show ¬ 20 ≤ gen.cols by omega, if_false,
    branch1to2, hbc, show ¬ 15 ≤ 13 by omega, List.getElem?_map, h1, Option.map_some, Option.some.injEq] at h2
  rw [← h2]; simp [slice]

/-- Non-vacuity: a one-row version 1 case. -/
example : loadTables (-360 : Int) 360 none ⟨10, [[1, 2, 3, 4, 5, 6, 7, 8, 9, 10]]⟩
    ⟨11, [[1, 2, 3, 4, 5, 6, 7, 8, 9, 10, 11]]⟩
    = (⟨21, [[1, 2, 3, 4, 5, 6, 7, 8, 9, 10, 0, 0, 0, 0, 0, 0, 0, 0, 0, 0, 0]]⟩,
      ⟨13, [[1, 2, 3, 4, 5, 6, 7, 8, 9, 10, 11, -360, 360]]⟩) := by rfl

/-! ## C50: saved columns -/

/-- The rows written are the first `n` columns of the table, in order. -/
def Saves {R : Type} (out : Option (List (List (Fmt × R)))) (t : Table R) (n : Nat) : Prop :=
  ∃ rows, out = some rows ∧ rows.map (fun r => r.map Prod.snd) = t.rows.map (List.take n)

theorem formatRows_ok {R : Type} (fs : List Fmt) (cut : List R → List R) (rows : List (List R))
    (h : ∀ r ∈ rows, (cut r).length = fs.length) :
    ∃ out, formatRows fs cut rows = some out ∧ out.map (fun r => r.map Prod.snd) = rows.map cut := by
  induction rows with
  | nil => exact ⟨[], rfl, rfl⟩
  | cons r rs ih =>
    obtain ⟨out, h1, h2⟩ := ih (fun x hx => h x (by simp [hx]))
    have hr := h r (by simp)
    have hf : format fs (cut r) = some (fs.zip (cut r)) := by simp [format, hr]
    refine ⟨fs.zip (cut r) :: out, by simp [formatRows, hf, h1], ?_⟩
    simp only [List.map_cons, h2]
    rw [List.map_snd_zip (by omega)]

theorem formatRows_fail {R : Type} (fs : List Fmt) (cut : List R → List R) (rows : List (List R)) (r : List R)
    (hr : r ∈ rows) (h : (cut r).length ≠ fs.length) : formatRows fs cut rows = none := by
  induction rows with
  | nil => simp at hr
  | cons x xs ih =>
    unfold formatRows
    rcases List.mem_cons.1 hr with rfl | hr
    · have h' : ¬ fs.length = (cut r).length := fun e => h e.symm
      have : format fs (cut r) = none := by simp [format, h']
      simp [this]
    · simp [ih hr]

/-- Column counts of the blocks of a table: a bus table has 13 base columns and 4 multiplier columns. -/
def busBlocks (cols : Nat) : Nat := if cols < 17 then 13 else 17

/-- A generator table has 21 base columns and 4 multiplier columns. -/
def genBlocks (cols : Nat) : Nat := if cols < 25 then 21 else 25

/-- A branch table has 13 base columns, 4 flow columns, 2 flow multipliers and 2 angle multipliers. -/
def branchBlocks (cols : Nat) : Nat :=
  if cols < 17 then 13 else if cols < 19 then 17 else if cols < 21 then 19 else 21

theorem take_len {R : Type} (t : Table R) (ht : t.Rect) (n : Nat) (hn : n ≤ t.cols) :
    ∀ r ∈ t.rows, (r.take n).length = n := by
  intro r hr; rw [List.length_take, ht r hr]; omega

/-- **C50, bus table.** Every table with the base columns is saved with all blocks present, in order. -/
theorem C50_bus {R : Type} (t : Table R) (ht : t.Rect) (h : 13 ≤ t.cols) :
    Saves (saveBus t) t (busBlocks t.cols) := by
  unfold saveBus busBlocks
  split
  · exact formatRows_ok _ _ _ fun r hr => take_len t ht 13 h r hr
  · exact formatRows_ok _ _ _ fun r hr => take_len t ht 17 (by omega) r hr

/-- **C50, generator table.** -/
theorem C50_gen {R : Type} (t : Table R) (ht : t.Rect) (h : 21 ≤ t.cols) :
    Saves (saveGen t) t (genBlocks t.cols) := by
  unfold saveGen genBlocks
  split
  · exact formatRows_ok _ _ _ fun r hr => take_len t ht 21 h r hr
  · exact formatRows_ok _ _ _ fun r hr => take_len t ht 25 (by omega) r hr

/-- **C50, branch table (partial).** Every table with the base columns and not exactly 19 or 20 columns is saved with all
blocks present. Missing with respect to C50: 19 or 20 columns, see `C50_branch_negation`. -/
theorem C50_branch_partial {R : Type} (t : Table R) (ht : t.Rect) (h : 13 ≤ t.cols)
    (h19 : t.cols ≠ 19) (h20 : t.cols ≠ 20) : Saves (saveBranch t) t (branchBlocks t.cols) := by
  unfold saveBranch branchBlocks
  split
  · exact formatRows_ok _ _ _ fun r hr => take_len t ht 13 h r hr
  · split
    · exact formatRows_ok _ _ _ fun r hr => take_len t ht 17 (by omega) r hr
    · rw [if_neg (by omega)]
      exact formatRows_ok _ _ _ fun r hr => take_len t ht 21 (by omega) r hr

/-- **C50, negation for branches.** A non-empty branch table with flow multipliers but without both angle multipliers
(19 or 20 columns) cannot be saved: the row template expects 21 values. -/
theorem C50_branch_negation {R : Type} (t : Table R) (ht : t.Rect) (hne : t.rows ≠ [])
    (h : t.cols = 19 ∨ t.cols = 20) : saveBranch t = none := by
  obtain ⟨r, hr⟩ := List.exists_mem_of_ne_nil _ hne
  have hl := ht r hr
  unfold saveBranch
  rw [if_neg (by omega), if_neg (by omega)]
  refine formatRows_fail _ _ _ r hr ?_
  rw [List.length_take, hl]
  simp [branchBase]; omega

theorem costColumns_le {R : Type} (rows : List (CostRow R)) (m n : Nat) (hm : m ≤ n)
    (h : ∀ r ∈ rows, (if r.pwl then 2 * r.ncost else r.ncost) ≤ n) :
    rows.foldl (fun m r => max m (if r.pwl then 2 * r.ncost else r.ncost)) m ≤ n := by
  induction rows generalizing m with
  | nil => exact hm
  | cons r rs ih =>
    simp only [List.foldl_cons]
    exact ih _ (Nat.max_le.2 ⟨hm, h r (by simp)⟩) fun x hx => h x (by simp [hx])

theorem le_costColumns {R : Type} (rows : List (CostRow R)) (m : Nat) :
    m ≤ rows.foldl (fun m r => max m (if r.pwl then 2 * r.ncost else r.ncost)) m
      ∧ ∀ r ∈ rows, (if r.pwl then 2 * r.ncost else r.ncost)
        ≤ rows.foldl (fun m r => max m (if r.pwl then 2 * r.ncost else r.ncost)) m := by
  induction rows generalizing m with
  | nil => simp
  | cons r rs ih =>
    simp only [List.foldl_cons]
    obtain ⟨h1, h2⟩ := ih (max m (if r.pwl then 2 * r.ncost else r.ncost))
    refine ⟨Nat.le_trans (Nat.le_max_left _ _) h1, ?_⟩
    intro x hx
    rcases List.mem_cons.1 hx with rfl | hx
    · exact Nat.le_trans (Nat.le_max_right _ _) h1
    · exact h2 x hx

/-- **C50, cost table (partial).** When the table is exactly as wide as its longest row needs, all of it is saved.
Missing with respect to C50: wider tables, see `C50_cost_negation`. -/
theorem C50_cost_partial {R : Type} (rows : List (CostRow R)) (n : Nat)
    (hw : ∀ r ∈ rows, r.values.length = 4 + n)
    (hle : ∀ r ∈ rows, (if r.pwl then 2 * r.ncost else r.ncost) ≤ n)
    (hmax : ∃ r ∈ rows, (if r.pwl then 2 * r.ncost else r.ncost) = n) :
    ∃ out, saveCost rows = some out ∧ out.map (fun r => r.map Prod.snd) = rows.map CostRow.values := by
  have hn : costColumns rows = n := by
    refine Nat.le_antisymm (costColumns_le rows 0 n (Nat.zero_le _) hle) ?_
    obtain ⟨r, hr, h⟩ := hmax
    rw [← h]; exact (le_costColumns rows 0).2 r hr
  obtain ⟨out, h1, h2⟩ := formatRows_ok ([.d, .g9, .g9, .d] ++ List.replicate (costColumns rows) .g9) id
    (rows.map CostRow.values) (by
      intro r hr
      obtain ⟨x, hx, rfl⟩ := List.mem_map.1 hr
      simp only [id_eq, hw x hx, hn, List.length_append, List.length_replicate, List.length_cons, List.length_nil])
  exact ⟨out, h1, by simpa using h2⟩

/-- **C50, negation for costs.** A cost table with a spare column to the right (every row needs fewer columns than the
table has) cannot be saved. -/
theorem C50_cost_negation {R : Type} (rows : List (CostRow R)) (hne : rows ≠ []) (w : Nat)
    (hw : ∀ r ∈ rows, r.values.length = w)
    (hspare : ∀ r ∈ rows, 4 + (if r.pwl then 2 * r.ncost else r.ncost) < w) : saveCost rows = none := by
  obtain ⟨r, hr⟩ := List.exists_mem_of_ne_nil _ hne
  have h1 := hspare r hr
  have h2 : costColumns rows ≤ w - 5 := costColumns_le rows 0 _ (Nat.zero_le _) fun x hx => by
    have := hspare x hx; omega
  refine formatRows_fail _ _ _ r.values (List.mem_map_of_mem hr) ?_
  simp only [id_eq, hw r hr, List.length_append, List.length_replicate, List.length_cons, List.length_nil]
  omega

/-- **C50, reloading.** The generator and branch tables as saved are not converted when they are loaded again. -/
theorem C50_reload {R : Type} [OfNat R 0] (lo hi : R) (declared : Option String) (gen br gen' : Table R)
    (hcols : gen'.cols = genBlocks gen.cols) : loadTables lo hi declared gen' br = (gen', br) := by
  have : ¬ gen'.cols < 21 := by rw [hcols, genBlocks]; split <;> omega
  simp [loadTables, this]

/-- Non-vacuity: a solved bus row. -/
example : saveBus (⟨17, [[1, 2, 3, 4, 5, 6, 7, 8, 9, 10, 11, 12, 13, 14, 15, 16, 17]]⟩ : Table Nat)
    = some [(busBase ++ [Fmt.f4, Fmt.f4, Fmt.f4, Fmt.f4]).zip [1, 2, 3, 4, 5, 6, 7, 8, 9, 10, 11, 12, 13, 14, 15, 16, 17]] := by
  rfl

/-- Non-vacuity: a cost table that is saved and one that is not. -/
example : (saveCost [⟨false, 2, [2, 0, 0, 2, 5, 6]⟩] : Option (List (List (Fmt × Nat)))).isSome = true
    ∧ (saveCost [⟨false, 2, [2, 0, 0, 2, 5, 6, 0]⟩] : Option (List (List (Fmt × Nat)))) = none := by decide

end Verif.CaseIO
