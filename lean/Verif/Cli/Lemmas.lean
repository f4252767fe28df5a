import Mathlib.Data.List.Induction
import Mathlib.Data.List.Nodup
import Verif.Cli.Spec

/-!
# Lemmas about parsing
-/

namespace Verif.Cli

/-! ### Facts about the tables -/

set_option maxRecDepth 20000 in
theorem match_option (opf : Bool) : ∀ e ∈ optionsOf opf, matchLong (entries opf) e.1 = some ⟨none, e.1, .callback (tyOf e.2)⟩ := by
  cases opf <;> decide

set_option maxRecDepth 20000 in
theorem match_store (opf : Bool) (k : Store) : matchLong (entries opf) (storeName k) = some ⟨some (storeShort k), storeName k, .store k⟩ ∧
    (entries opf).find? (fun e => e.short = some (storeShort k)) = some ⟨some (storeShort k), storeName k, .store k⟩ := by
  cases opf <;> cases k <;> decide

set_option maxRecDepth 20000 in
theorem match_flag (opf : Bool) (k : Flag) (h : k = .test ∨ opf = true) : ∃ s, matchLong (entries opf) (flagName k) = some ⟨s, flagName k, .flag k⟩ := by
  cases opf <;> cases k <;> first | exact ⟨some 't', by decide⟩ | exact ⟨some 'u', by decide⟩ | exact ⟨some 'r', by decide⟩ | (simp at h)

set_option maxRecDepth 20000 in
theorem option_name (opf : Bool) : ∀ e ∈ optionsOf opf, '=' ∉ e.1 ∧ e.1 ≠ [] := by cases opf <;> decide

set_option maxRecDepth 20000 in
theorem other_name : (∀ k, '=' ∉ storeName k ∧ storeName k ≠ []) ∧ ∀ k, '=' ∉ flagName k ∧ flagName k ≠ [] := by
  constructor <;> intro k <;> cases k <;> decide

set_option maxRecDepth 20000 in
theorem upper_inj : ∀ a ∈ allOptions.map Prod.fst, ∀ b ∈ allOptions.map Prod.fst, upper a = upper b → a = b := by decide

set_option maxRecDepth 20000 in
theorem names_nodup : (allOptions.map Prod.fst).Nodup := by decide

theorem options_sub (opf : Bool) : ∀ e ∈ optionsOf opf, e ∈ allOptions := by
  intro e he
  unfold optionsOf at he
  unfold allOptions
  split_ifs at he <;> simp only [List.mem_append] at he ⊢ <;> tauto

theorem entry_cases (opf : Bool) : ∀ e ∈ entries opf, (∃ x ∈ optionsOf opf, e = ⟨none, x.1, .callback (tyOf x.2)⟩) ∨ ∀ ty, e.act ≠ .callback ty := by
  intro e he
  unfold entries at he
  rcases List.mem_append.1 he with h | h
  · right
    rcases List.mem_append.1 h with h | h
    · simp only [common, List.mem_cons, List.not_mem_nil, or_false] at h
      rcases h with rfl | rfl | rfl | rfl | rfl | rfl <;> simp
    · split_ifs at h
      · simp only [List.mem_cons, List.not_mem_nil, or_false] at h
        rcases h with rfl | rfl <;> simp
      · simp at h
  · left
    simp only [addOptions, List.mem_map] at h
    obtain ⟨x, hx, rfl⟩ := h
    exact ⟨x, hx, rfl⟩

theorem defaults_at (e : OptDef) (he : e ∈ allOptions) : defaults (upper e.1) = some e.2 := by
  have key : ∀ (l : List OptDef) (o : Opts), (∀ a ∈ l.map Prod.fst, ∀ b ∈ l.map Prod.fst, upper a = upper b → a = b) → (l.map Prod.fst).Nodup →
      (∀ x ∈ l, (l.foldl (fun o e => Function.update o (upper e.1) (some e.2)) o) (upper x.1) = some x.2) ∧
      ∀ n, (∀ x ∈ l, upper x.1 ≠ n) → (l.foldl (fun o e => Function.update o (upper e.1) (some e.2)) o) n = o n := by
    intro l
    induction l with
    | nil => intro o _ _; exact ⟨by simp, fun _ _ => rfl⟩
    | cons y l ih =>
      intro o hinj hnd
      simp only [List.map_cons, List.nodup_cons] at hnd
      obtain ⟨i1, i2⟩ := ih (Function.update o (upper y.1) (some y.2)) (fun a ha b hb => hinj a (List.mem_cons_of_mem _ ha) b (List.mem_cons_of_mem _ hb)) hnd.2
      simp only [List.foldl_cons]
      refine ⟨?_, ?_⟩
      · intro x hx
        rcases List.mem_cons.1 hx with rfl | hx
        · rw [i2 (upper x.1)]
          · simp
          · intro z hz h
            have := hinj z.1 (List.mem_map_of_mem (List.mem_cons_of_mem _ hz)) x.1 (List.mem_map_of_mem List.mem_cons_self) h
            exact hnd.1 (this ▸ List.mem_map_of_mem hz)
        · exact i1 x hx
      · intro n hn
        rw [i2 n fun x hx => hn x (List.mem_cons_of_mem _ hx)]
        exact Function.update_of_ne (hn y List.mem_cons_self).symm _ _
  exact (key allOptions _ upper_inj names_nodup).1 e he

/-! ### Single words -/

theorem splitEq_none {s : Str} (h : '=' ∉ s) : splitEq s = (s, none) := by
  induction s with
  | nil => rfl
  | cons ch s ih =>
    simp only [List.mem_cons, not_or] at h
    rw [splitEq, if_neg (Ne.symm h.1), ih h.2]

theorem splitEq_some {s : Str} (h : '=' ∉ s) (v : Str) : splitEq (s ++ '=' :: v) = (s, some v) := by
  induction s with
  | nil => rfl
  | cons ch s ih =>
    simp only [List.mem_cons, not_or] at h
    rw [List.cons_append, splitEq, if_neg (Ne.symm h.1), ih h.2]

theorem step_long (es : List Entry) (c : Conv) {s : Str} (h : s ≠ []) (st : St) : step es c (dash2 s) st = longStep es c s st := by
  cases s with
  | nil => exact absurd rfl h
  | cons a s => rfl

theorem step_file (es : List Entry) (c : Conv) {f : Str} (h : f.head? ≠ some '-') (st : St) : step es c f st = .arg := by
  cases f with
  | nil => rfl
  | cons a s =>
    have : a ≠ '-' := by simpa using h
    unfold step
    split <;> simp_all

/-- The effect of an item. -/
def Item.apply (c : Conv) (opf : Bool) (i : Item) (st : St) : St :=
  match i with
  | .set n v _ =>
    match (optionsOf opf).find? (fun e => e.1 = n) with
    | some e => { st with opts := Function.update st.opts (upper n) (meaning c e.2 v) }
    | none => st
  | .flag .test => { st with test := true }
  | .flag .uopf => { st with uopf := true }
  | .flag .wres => { st with wres := true }
  | .store .testcase v _ => { st with testcase := v }
  | .store .fname v _ => { st with fname := v }
  | .store .solvedcase v _ => { st with solvedcase := v }
  | .file _ => st

theorem find_option (opf : Bool) : ∀ e ∈ optionsOf opf, (optionsOf opf).find? (fun x => x.1 = e.1) = some e := by
  have nd : ∀ opf, ((optionsOf opf).map Prod.fst).Nodup := by
    intro opf
    have : ∀ b, ((optionsOf b).map Prod.fst).Nodup := by
      set_option maxRecDepth 20000 in
      intro b; cases b <;> decide
    exact this opf
  have key : ∀ (l : List OptDef), (l.map Prod.fst).Nodup → ∀ e ∈ l, l.find? (fun x => x.1 = e.1) = some e := by
    intro l
    induction l with
    | nil => simp
    | cons y l ih =>
      intro hn e he
      simp only [List.map_cons, List.nodup_cons] at hn
      rw [List.find?_cons]
      rcases List.mem_cons.1 he with rfl | he
      · simp
      · have : y.1 ≠ e.1 := fun h => hn.1 (h ▸ List.mem_map_of_mem he)
        simp only [this, decide_false]
        exact ih hn.2 e he
  exact key _ (nd opf)

/-- A callback with a value that means something sets the option to it. -/
theorem process_set (c : Conv) (opf : Bool) {n : Str} {d : Val} (hm : (n, d) ∈ optionsOf opf) (ht : ¬ IsText d) {v : Str} (hv : (meaning c d v).isSome) (st : St) (b : Bool) :
    process c ⟨none, n, .callback (tyOf d)⟩ v st = .ok ((Item.set n v b).apply c opf st) := by
  have hf : (optionsOf opf).find? (fun e => e.1 = n) = some (n, d) := find_option opf (n, d) hm
  simp only [Item.apply, hf]
  cases d with
  | str s => exact absurd trivial ht
  | int z =>
    simp only [meaning] at hv ⊢
    obtain ⟨w, hw⟩ := Option.isSome_iff_exists.1 hv
    obtain ⟨z', h1, h2⟩ := Option.map_eq_some_iff.1 hw
    simp only [process, tyOf, convert, h1, callbackValue, Option.map_some]
  | float q =>
    simp only [meaning] at hv ⊢
    obtain ⟨w, hw⟩ := Option.isSome_iff_exists.1 hv
    obtain ⟨z', h1, h2⟩ := Option.map_eq_some_iff.1 hw
    simp only [process, tyOf, convert, h1, callbackValue, Option.map_some]
  | bool z =>
    simp only [meaning] at hv ⊢
    simp only [process, tyOf, convert]
    by_cases h1 : v ∈ AFFIRMATIVE
    · simp [h1, callbackValue]
    · by_cases h2 : v ∈ NEGATIVE
      · simp [h1, h2, callbackValue]
      · simp [h1, h2] at hv

theorem parse_item (c : Conv) (opf : Bool) (i : Item) (hi : i.Ok c opf) (ht : ∀ n v b, i = .set n v b → ∀ d, (n, d) ∈ optionsOf opf → ¬ IsText d) (rest l : List Str) (st : St) :
    parse (entries opf) c (i.words ++ rest) l st = parse (entries opf) c rest (l ++ filesOf [i]) (i.apply c opf st) := by
  cases i with
  | set n v b =>
    obtain ⟨d, hm, hv⟩ := hi
    have hm' := match_option opf _ hm
    obtain ⟨h1, h2⟩ := option_name opf _ hm
    simp only at hm' h1 h2
    have hp := process_set c opf hm (ht n v b rfl d hm) hv st b
    cases b
    · simp only [Item.words, List.cons_append, List.nil_append, filesOf, List.filterMap_cons, List.filterMap_nil, List.append_nil]
      rw [parse, step_long _ _ h2]
      simp only [longStep, splitEq_none h1, hm', takesValue, if_true]
      rw [hp]
    · simp only [Item.words, List.cons_append, List.nil_append, filesOf, List.filterMap_cons, List.filterMap_nil, List.append_nil]
      rw [parse, step_long _ _ (by simp)]
      simp only [longStep, splitEq_some h1, hm', takesValue, if_true]
      rw [hp]
  | flag k =>
    have hk : k = .test ∨ opf = true := by cases k <;> simp_all [Item.Ok]
    obtain ⟨s, hs⟩ := match_flag opf k hk
    obtain ⟨h1, h2⟩ := other_name.2 k
    simp only [Item.words, List.cons_append, List.nil_append, filesOf, List.filterMap_cons, List.filterMap_nil, List.append_nil]
    rw [parse, step_long _ _ h2]
    simp only [longStep, splitEq_none h1, hs, takesValue]
    cases k <;> simp [process, Item.apply]
  | store k v b =>
    obtain ⟨e1, e2⟩ := match_store opf k
    obtain ⟨h1, h2⟩ := other_name.1 k
    have hp : process c ⟨some (storeShort k), storeName k, .store k⟩ v st = .ok ((Item.store k v b).apply c opf st) := by
      cases k with
      | testcase =>
        have : v ∈ CASES := hi
        simp [process, this, Item.apply]
      | fname => rfl
      | solvedcase => rfl
    cases b
    · simp only [Item.words, List.cons_append, List.nil_append, filesOf, List.filterMap_cons, List.filterMap_nil, List.append_nil]
      rw [parse, step_long _ _ h2]
      simp only [longStep, splitEq_none h1, e1, takesValue, if_true]
      rw [hp]
    · simp only [Item.words, List.cons_append, List.nil_append, filesOf, List.filterMap_cons, List.filterMap_nil, List.append_nil]
      have hd : storeShort k ≠ '-' := by cases k <;> decide
      have hstep : step (entries opf) c ['-', storeShort k] st = shortStep (entries opf) c [storeShort k] st := by
        cases k <;> rfl
      rw [parse, hstep]
      simp only [shortStep, e2, takesValue, if_true]
      rw [hp]
  | file f =>
    simp only [Item.words, List.cons_append, List.nil_append, filesOf, List.filterMap_cons, List.filterMap_nil]
    rw [parse, step_file _ _ hi]
    rfl

theorem parse_items (c : Conv) (opf : Bool) (items : List Item) (hok : ∀ i ∈ items, i.Ok c opf)
    (ht : ∀ n v b, Item.set n v b ∈ items → ∀ d, (n, d) ∈ optionsOf opf → ¬ IsText d) (rest l : List Str) (st : St) :
    parse (entries opf) c (items.flatMap Item.words ++ rest) l st =
      parse (entries opf) c rest (l ++ filesOf items) (items.foldl (fun st i => i.apply c opf st) st) := by
  induction items generalizing l st with
  | nil => simp [filesOf]
  | cons i items ih =>
    rw [List.flatMap_cons, List.append_assoc, parse_item c opf i (hok i List.mem_cons_self) (fun n v b h => ht n v b (h ▸ List.mem_cons_self)),
      ih (fun j hj => hok j (List.mem_cons_of_mem _ hj)) (fun n v b h => ht n v b (List.mem_cons_of_mem _ h))]
    simp only [List.foldl_cons, List.append_assoc]
    congr 2
    unfold filesOf
    rw [← List.filterMap_append]
    rfl

/-! ### What the items add up to -/

theorem lastSaid_snoc {α : Type} (f : Item → Option α) (items : List Item) (i : Item) : lastSaid f (items ++ [i]) = (f i).or (lastSaid f items) := by
  unfold lastSaid
  rw [List.reverse_append, List.reverse_singleton, List.singleton_append, List.findSome?_cons]
  cases f i <;> rfl

theorem fold_spec (c : Conv) (opf : Bool) (items : List Item) (hok : ∀ i ∈ items, i.Ok c opf) :
    let st := items.foldl (fun st i => i.apply c opf st) start
    (∀ e ∈ allOptions, st.opts (upper e.1) = some (valueOf c items e)) ∧ (st.test = true ↔ said .test items) ∧ (st.uopf = true ↔ said .uopf items) ∧
      (st.wres = true ↔ said .wres items) ∧ st.testcase = storedOf .testcase "case9".toList items ∧ st.fname = storedOf .fname [] items ∧
      st.solvedcase = storedOf .solvedcase [] items := by
  induction items using List.reverseRecOn with
  | nil =>
    refine ⟨fun e he => defaults_at e he, ?_, ?_, ?_, rfl, rfl, rfl⟩ <;> simp [said, start]
  | append_singleton items i ih =>
    obtain ⟨h1, h2, h3, h4, h5, h6, h7⟩ := ih fun j hj => hok j (List.mem_append_left _ hj)
    have hi := hok i (List.mem_append_right _ List.mem_cons_self)
    simp only [List.foldl_append, List.foldl_cons, List.foldl_nil]
    generalize items.foldl (fun st i => i.apply c opf st) start = st at *
    have sd : ∀ k, said k (items ++ [i]) ↔ said k items ∨ i = .flag k := by
      intro k
      unfold said
      constructor
      · rintro ⟨j, hj, rfl⟩
        rcases List.mem_append.1 hj with h | h
        · exact Or.inl ⟨_, h, rfl⟩
        · exact Or.inr (List.mem_singleton.1 h).symm
      · rintro (⟨j, hj, e⟩ | e)
        · exact ⟨j, List.mem_append_left _ hj, e⟩
        · exact ⟨i, List.mem_append_right _ List.mem_cons_self, e⟩
    simp only [sd, storedOf, lastSaid_snoc]
    have val : ∀ e, valueOf c (items ++ [i]) e = ((match i with | .set n v _ => if n = e.1 then meaning c e.2 v else none | _ => none : Option Val)).getD (valueOf c items e) := by
      intro e
      unfold valueOf
      rw [lastSaid_snoc]
      cases i with
      | set n v b =>
        simp only
        split_ifs
        · cases meaning c e.2 v <;> rfl
        · rfl
      | flag k => rfl
      | store k v b => rfl
      | file f => rfl
    refine ⟨fun e he => ?_, ?_⟩
    · rw [val]
      cases i with
      | set n v b =>
        obtain ⟨d, hm, hv⟩ := hi
        have hf : (optionsOf opf).find? (fun e => e.1 = n) = some (n, d) := find_option opf (n, d) hm
        simp only [Item.apply, hf]
        by_cases hn : n = e.1
        · have hde : (n, d) = e := by
            have := options_sub opf _ hm
            have h8 : (allOptions.map Prod.fst).Nodup := names_nodup
            have inj : ∀ x ∈ allOptions, ∀ y ∈ allOptions, x.1 = y.1 → x = y := fun x hx y hy h => List.inj_on_of_nodup_map h8 hx hy h
            exact inj _ this _ he hn
          subst hde
          rw [if_pos rfl, Function.update_self]
          obtain ⟨w, hw⟩ := Option.isSome_iff_exists.1 hv
          rw [hw]; rfl
        · rw [if_neg hn, Function.update_of_ne]
          · exact h1 e he
          · intro h
            exact hn (upper_inj _ (List.mem_map_of_mem (options_sub opf _ hm)) _ (List.mem_map_of_mem he) h.symm)
      | flag k => cases k <;> exact h1 e he
      | store k v b => cases k <;> exact h1 e he
      | file f => exact h1 e he
    · cases i with
      | set n v b =>
        have key : ∀ o, (st.test = true ↔ said .test items ∨ Item.set n v b = .flag .test) ∧ (st.uopf = true ↔ said .uopf items ∨ Item.set n v b = .flag .uopf) ∧
            (st.wres = true ↔ said .wres items ∨ Item.set n v b = .flag .wres) ∧ { st with opts := o }.testcase = st.testcase := by
          intro o; simp [h2, h3, h4]
        obtain ⟨k1, k2, k3, -⟩ := key st.opts
        simp only [Item.apply]
        cases (optionsOf opf).find? (fun e => e.1 = n) <;> exact ⟨k1, k2, k3, h5, h6, h7⟩
      | flag k => cases k <;> simp [Item.apply, h2, h3, h4, h5, h6, h7, storedOf]
      | store k v b => cases k <;> simp [Item.apply, h2, h3, h4, h5, h6, h7, storedOf]
      | file f => simp [Item.apply, h2, h3, h4, h5, h6, h7, storedOf]

/-! ### Invariants of all parses -/

/-- Something that every processed option keeps is kept by parsing. -/
theorem parse_inv (es : List Entry) (c : Conv) (P : St → Prop) (hP : ∀ e ∈ es, ∀ v st st', P st → process c e v st = .ok st' → P st') :
    ∀ (args l : List Str) (st : St) (r : List Str × St), P st → parse es c args l st = .ok r → P r.2 := by
  have hl : ∀ s e, matchLong es s = some e → e ∈ es := by
    intro s e h
    unfold matchLong at h
    split at h
    · cases h; exact List.mem_of_find?_eq_some ‹_›
    · split at h
      · cases h
        have : e ∈ es.filter (fun e => s.isPrefixOf e.long) := by rw [‹es.filter _ = _›]; exact List.mem_singleton_self _
        exact (List.mem_filter.1 this).1
      · cases h
  have hlong : ∀ s st, P st → (∀ st', longStep es c s st = .done (.ok st') → P st') ∧ ∀ k, longStep es c s st = .want k → ∀ v st', k v = .ok st' → P st' := by
    intro s st hst
    unfold longStep
    cases hm : matchLong es (splitEq s).1 with
    | none => simp
    | some e =>
      have he := hl _ _ hm
      simp only
      split_ifs
      · split
        · refine ⟨fun st' h => ?_, by simp⟩
          injection h with h
          exact hP e he _ _ _ hst h
        · refine ⟨by simp, fun k h v st' hk => ?_⟩
          injection h with h
          subst h
          exact hP e he _ _ _ hst hk
      · simp
      · refine ⟨fun st' h => ?_, by simp⟩
        injection h with h
        exact hP e he _ _ _ hst h
  have hshort : ∀ s st, P st → (∀ st', shortStep es c s st = .done (.ok st') → P st') ∧ ∀ k, shortStep es c s st = .want k → ∀ v st', k v = .ok st' → P st' := by
    intro s
    induction s with
    | nil =>
      intro st hst
      refine ⟨fun st' h => ?_, by simp [shortStep]⟩
      simp only [shortStep, Step.done.injEq, Except.ok.injEq] at h
      exact h ▸ hst
    | cons ch s ih =>
      intro st hst
      rw [shortStep.eq_def]
      simp only
      cases hm : es.find? (fun e => e.short = some ch) with
      | none => simp
      | some e =>
        have he := List.mem_of_find?_eq_some hm
        simp only
        split_ifs
        · split
          · refine ⟨by simp, fun k h v st' hk => ?_⟩
            injection h with h
            subst h
            exact hP e he _ _ _ hst hk
          · refine ⟨fun st' h => ?_, by simp⟩
            injection h with h
            exact hP e he _ _ _ hst h
        · cases hp : process c e [] st with
          | error x => simp
          | ok st' => exact ih st' (hP e he _ _ _ hst hp)
  have hstep : ∀ a st, P st → (∀ st', step es c a st = .done (.ok st') → P st') ∧ ∀ k, step es c a st = .want k → ∀ v st', k v = .ok st' → P st' := by
    intro a st hst
    unfold step
    split
    · simp
    · exact hlong _ _ hst
    · exact hshort _ _ hst
    · simp
  have main : ∀ (n : ℕ) (args l : List Str) (st : St) (r : List Str × St), args.length ≤ n → P st → parse es c args l st = .ok r → P r.2 := by
    intro n
    induction n with
    | zero =>
      intro args l st r hn hst h
      cases args with
      | nil => rw [parse] at h; cases h; exact hst
      | cons a args => simp at hn
    | succ n ih =>
      intro args l st r hn hst h
      cases args with
      | nil => rw [parse] at h; cases h; exact hst
      | cons a args =>
        simp only [List.length_cons] at hn
        obtain ⟨s1, s2⟩ := hstep a st hst
        rw [parse.eq_def] at h
        simp only at h
        split at h
        · cases h; exact hst
        · exact ih _ _ _ _ (by omega) hst h
        · cases h
        · exact ih _ _ _ _ (by omega) (s1 _ ‹_›) h
        · split at h
          · cases h
          · split at h
            · cases h
            · refine ih _ _ _ _ ?_ (s2 _ ‹_› _ _ ‹_›) h
              simp only [List.length_cons] at hn
              omega
  intro args l st r
  exact main _ args l st r le_rfl

theorem command_run {opf : Bool} {c : Conv} {args : List Str} {f : Runner} {d : Data} {o : Opts} {x s : Str} (h : command opf c args = .run f d o x s) :
    ∃ l st, parse (entries opf) c args [] start = .ok (l, st) ∧ st.test = false ∧ f = runnerOf opf st ∧ o = st.opts ∧ x = st.fname ∧ s = st.solvedcase ∧
      ((l = [] ∧ d = .builtin st.testcase) ∨ ∃ g, l = [g] ∧ d = .file g) := by
  unfold command at h
  split at h
  · cases h
  · rename_i l st hp
    refine ⟨l, st, hp, ?_⟩
    split at h
    · cases h
    · split_ifs at h with ht
      cases h
      exact ⟨by simpa using ht, rfl, rfl, rfl, rfl, Or.inr ⟨_, rfl, rfl⟩⟩
    · split_ifs at h with ht
      cases h
      exact ⟨by simpa using ht, rfl, rfl, rfl, rfl, Or.inl ⟨rfl, rfl⟩⟩

/-! ### Stops -/

theorem process_stop (c : Conv) (e : Entry) (v : Str) (st : St) (x : Stop) (h : process c e v st = .error x) :
    (e.act = .info ∧ x = .exit 0) ∨ x = .exit 2 ∨ x = .raised := by
  unfold process at h
  split at h
  · left; cases h; exact ⟨‹_›, rfl⟩
  · cases h
  · cases h
  · cases h
  · split_ifs at h; cases h; exact Or.inr (Or.inl rfl)
  · cases h
  · cases h
  · right
    split at h
    · rename_i y hy
      cases h
      unfold convert at hy
      split at hy
      · split at hy <;> cases hy; exact Or.inl rfl
      · split at hy <;> cases hy; exact Or.inl rfl
      · split_ifs at hy; cases hy; exact Or.inl rfl
      · cases hy
    · split at h
      · rename_i y hy
        cases h
        unfold callbackValue at hy
        split at hy
        · split_ifs at hy; cases hy; exact Or.inr rfl
        · cases hy
      · cases h

theorem splitEq_back (s : Str) : (splitEq s).2 = none → (splitEq s).1 = s := by
  induction s with
  | nil => intro _; rfl
  | cons ch s ih =>
    rw [splitEq]
    split_ifs
    · intro h; cases h
    · intro h
      simp only at h ⊢
      rw [ih h]

theorem info_entry (opf : Bool) : ∀ e ∈ entries opf, e.act = .info → e = ⟨some 'h', "help".toList, .info⟩ ∨ e = ⟨none, "version".toList, .info⟩ := by
  intro e he ha
  unfold entries at he
  rcases List.mem_append.1 he with h | h
  · rcases List.mem_append.1 h with h | h
    · simp only [common, List.mem_cons, List.not_mem_nil, or_false] at h
      rcases h with rfl | rfl | rfl | rfl | rfl | rfl <;> simp_all
    · split_ifs at h
      · simp only [List.mem_cons, List.not_mem_nil, or_false] at h
        rcases h with rfl | rfl <;> simp at ha
      · simp at h
  · simp only [addOptions, List.mem_map] at h
    obtain ⟨x, hx, rfl⟩ := h
    simp at ha

theorem matchLong_spec (opf : Bool) {s : Str} {e : Entry} (h : matchLong (entries opf) s = some e) : e ∈ entries opf ∧ s ≠ [] ∧ s.isPrefixOf e.long = true := by
  have hne : matchLong (entries opf) [] = none := by
    have : ∀ b, matchLong (entries b) [] = none := by
      set_option maxRecDepth 20000 in
      intro b; cases b <;> decide
    exact this opf
  refine ⟨?_, ?_, ?_⟩
  · unfold matchLong at h
    split at h
    · cases h; exact List.mem_of_find?_eq_some ‹_›
    · split at h
      · cases h
        have : e ∈ (entries opf).filter (fun e => s.isPrefixOf e.long) := by rw [‹(entries opf).filter _ = _›]; exact List.mem_singleton_self _
        exact (List.mem_filter.1 this).1
      · cases h
  · rintro rfl
    rw [hne] at h
    cases h
  · unfold matchLong at h
    split at h
    · rename_i e' he'
      cases h
      have := List.find?_some he'
      simp only [decide_eq_true_eq] at this
      rw [this]
      simp
    · split at h
      · cases h
        have : e ∈ (entries opf).filter (fun e => s.isPrefixOf e.long) := by rw [‹(entries opf).filter _ = _›]; exact List.mem_singleton_self _
        exact (List.mem_filter.1 this).2
      · cases h

theorem parse_stop (opf : Bool) (c : Conv) : ∀ (args l : List Str) (st : St) (x : Stop), parse (entries opf) c args l st = .error x →
    (x = .exit 0 ∧ ∃ a ∈ args, AsksHelp a) ∨ x = .exit 2 ∨ x = .raised := by
  have hlong : ∀ s st, (∀ x, longStep (entries opf) c s st = .done (.error x) → (x = .exit 0 ∧ AsksHelp (dash2 s)) ∨ x = .exit 2 ∨ x = .raised) ∧
      ∀ k, longStep (entries opf) c s st = .want k → ∀ v x, k v = .error x → x = .exit 2 ∨ x = .raised := by
    intro s st
    unfold longStep
    cases hm : matchLong (entries opf) (splitEq s).1 with
    | none => refine ⟨fun x h => ?_, by simp⟩; cases h; exact Or.inr (Or.inl rfl)
    | some e =>
      obtain ⟨he, hs, hp⟩ := matchLong_spec opf hm
      simp only
      by_cases ht : takesValue e.act = true
      · have hni : e.act ≠ .info := by intro h; rw [h] at ht; cases ht
        rw [if_pos ht]
        split
        · refine ⟨fun x h => ?_, by simp⟩
          injection h with h
          rcases process_stop c e _ st x h with h | h
          · exact absurd h.1 hni
          · exact Or.inr h
        · refine ⟨by simp, fun k h v x hk => ?_⟩
          injection h with h
          subst h
          rcases process_stop c e _ st x hk with h | h
          · exact absurd h.1 hni
          · exact h
      · rw [if_neg ht]
        split_ifs with h2
        · refine ⟨fun x h => ?_, by simp⟩; cases h; exact Or.inr (Or.inl rfl)
        · refine ⟨fun x h => ?_, by simp⟩
          injection h with h
          rcases process_stop c e _ st x h with h | h
          · left
            have hb := splitEq_back s (by simpa using h2)
            rw [hb] at hs hp
            refine ⟨h.2, Or.inl ⟨s, hs, ?_, rfl⟩⟩
            rcases info_entry opf e he h.1 with rfl | rfl
            · exact Or.inl hp
            · exact Or.inr hp
          · exact Or.inr h
  have hshort : ∀ s st, (∀ x, shortStep (entries opf) c s st = .done (.error x) → (x = .exit 0 ∧ 'h' ∈ s) ∨ x = .exit 2 ∨ x = .raised) ∧
      ∀ k, shortStep (entries opf) c s st = .want k → ∀ v x, k v = .error x → x = .exit 2 ∨ x = .raised := by
    intro s
    induction s with
    | nil => intro st; exact ⟨by simp [shortStep], by simp [shortStep]⟩
    | cons ch s ih =>
      intro st
      rw [shortStep.eq_def]
      simp only
      cases hm : (entries opf).find? (fun e => e.short = some ch) with
      | none => refine ⟨fun x h => ?_, by simp⟩; cases h; exact Or.inr (Or.inl rfl)
      | some e =>
        have he := List.mem_of_find?_eq_some hm
        have hc := List.find?_some hm
        simp only [decide_eq_true_eq] at hc
        simp only
        by_cases ht : takesValue e.act = true
        · have hni : e.act ≠ .info := by intro h; rw [h] at ht; cases ht
          rw [if_pos ht]
          split
          · refine ⟨by simp, fun k h v x hk => ?_⟩
            injection h with h
            subst h
            rcases process_stop c e _ st x hk with h | h
            · exact absurd h.1 hni
            · exact h
          · refine ⟨fun x h => ?_, by simp⟩
            injection h with h
            rcases process_stop c e _ st x h with h | h
            · exact absurd h.1 hni
            · exact Or.inr h
        · rw [if_neg ht]
          cases hp : process c e [] st with
          | error y =>
            refine ⟨fun x h => ?_, by simp⟩
            cases h
            rcases process_stop c e _ st _ hp with h | h
            · left
              refine ⟨h.2, ?_⟩
              rcases info_entry opf e he h.1 with rfl | rfl
              · simp only [Option.some.injEq] at hc
                rw [← hc]; exact List.mem_cons_self
              · cases hc
            · exact Or.inr h
          | ok st' =>
            obtain ⟨i1, i2⟩ := ih st'
            refine ⟨fun x h => ?_, i2⟩
            rcases i1 x h with ⟨h, h'⟩ | h
            · exact Or.inl ⟨h, List.mem_cons_of_mem _ h'⟩
            · exact Or.inr h
  have hstep : ∀ a st, (∀ x, step (entries opf) c a st = .done (.error x) → (x = .exit 0 ∧ AsksHelp a) ∨ x = .exit 2 ∨ x = .raised) ∧
      ∀ k, step (entries opf) c a st = .want k → ∀ v x, k v = .error x → x = .exit 2 ∨ x = .raised := by
    intro a st
    unfold step
    split
    · simp
    · exact hlong _ _
    · obtain ⟨i1, i2⟩ := hshort (_ :: _) st
      refine ⟨fun x h => ?_, i2⟩
      rcases i1 x h with ⟨h, h'⟩ | h
      · exact Or.inl ⟨h, Or.inr ⟨_, rfl, h'⟩⟩
      · exact Or.inr h
    · simp
  have main : ∀ (n : ℕ) (args l : List Str) (st : St) (x : Stop), args.length ≤ n → parse (entries opf) c args l st = .error x →
      (x = .exit 0 ∧ ∃ a ∈ args, AsksHelp a) ∨ x = .exit 2 ∨ x = .raised := by
    intro n
    induction n with
    | zero =>
      intro args l st x hn h
      cases args with
      | nil => rw [parse] at h; cases h
      | cons a args => simp at hn
    | succ n ih =>
      intro args l st x hn h
      cases args with
      | nil => rw [parse] at h; cases h
      | cons a args =>
        simp only [List.length_cons] at hn
        obtain ⟨s1, s2⟩ := hstep a st
        have wk : ∀ args' : List Str, (∀ b ∈ args', b ∈ a :: args) → ((x = .exit 0 ∧ ∃ a ∈ args', AsksHelp a) ∨ x = .exit 2 ∨ x = .raised) →
            (x = .exit 0 ∧ ∃ b ∈ a :: args, AsksHelp b) ∨ x = .exit 2 ∨ x = .raised := by
          rintro args' hs (⟨h, b, hb, hb'⟩ | h)
          · exact Or.inl ⟨h, b, hs b hb, hb'⟩
          · exact Or.inr h
        rw [parse.eq_def] at h
        simp only at h
        split at h
        · cases h
        · exact wk args (fun b hb => List.mem_cons_of_mem _ hb) (ih _ _ _ _ (by omega) h)
        · cases h
          rcases s1 _ ‹_› with ⟨h, h'⟩ | h
          · exact Or.inl ⟨h, a, List.mem_cons_self, h'⟩
          · exact Or.inr h
        · exact wk args (fun b hb => List.mem_cons_of_mem _ hb) (ih _ _ _ _ (by omega) h)
        · split at h
          · cases h; exact Or.inr (Or.inl rfl)
          · split at h
            · cases h
              exact Or.inr (s2 _ ‹_› _ _ ‹_›)
            · refine wk _ (fun b hb => List.mem_cons_of_mem _ (List.mem_cons_of_mem _ hb)) (ih _ _ _ _ ?_ h)
              simp only [List.length_cons] at hn
              omega
  intro args l st x
  exact main _ args l st x le_rfl

end Verif.Cli
