import Verif.Cli.Lemmas

/-!
# C122: the commands do what their arguments say
-/

namespace Verif.Cli

/-- **C122** (partial: options whose default is a text are excluded, see `C122_text`).  Whatever documented items the command line consists of, in whatever order and
spelling: each option has the value it was last set to and otherwise its default; the function called is the one asked for; it gets the named file or built-in case and the
names of the files to write. -/
theorem C122_options_partial (c : Conv) (opf : Bool) (items : List Item) (hok : ∀ i ∈ items, i.Ok c opf)
    (ht : ∀ n v b, Item.set n v b ∈ items → ∀ d, (n, d) ∈ optionsOf opf → ¬ IsText d) (hf : (filesOf items).length ≤ 1) (hn : ¬ said .test items) :
    ∃ f d o, command opf c (items.flatMap Item.words) = .run f d o (storedOf .fname [] items) (storedOf .solvedcase [] items) ∧
      (∀ e ∈ allOptions, o (upper e.1) = some (valueOf c items e)) ∧
      (opf = false → f = .runpf) ∧
      (opf = true → (said .uopf items → f = .runuopf) ∧ (¬ said .uopf items → said .wres items → f = .runopf_w_res) ∧
        (¬ said .uopf items → ¬ said .wres items → f = .runopf)) ∧
      (filesOf items = [] → d = .builtin (storedOf .testcase "case9".toList items)) ∧ ∀ g, filesOf items = [g] → d = .file g := by
  have hp := parse_items c opf items hok ht [] [] start
  obtain ⟨h1, h2, h3, h4, h5, h6, h7⟩ := fold_spec c opf items hok
  rw [List.append_nil, List.nil_append, parse] at hp
  generalize items.foldl (fun st i => i.apply c opf st) start = st at *
  have ht' : st.test = false := by
    cases h : st.test with
    | false => rfl
    | true => exact absurd (h2.1 h) hn
  have hr : (opf = false → runnerOf opf st = .runpf) ∧
      (opf = true → (said .uopf items → runnerOf opf st = .runuopf) ∧ (¬ said .uopf items → said .wres items → runnerOf opf st = .runopf_w_res) ∧
        (¬ said .uopf items → ¬ said .wres items → runnerOf opf st = .runopf)) := by
    rw [← h3, ← h4]
    refine ⟨?_, ?_⟩
    · rintro rfl; rfl
    · rintro rfl
      refine ⟨fun h => ?_, fun h h' => ?_, fun h h' => ?_⟩
      · simp [runnerOf, h]
      · simp [runnerOf, h, h']
      · simp [runnerOf, h, h']
  unfold command
  rw [hp]
  match hl : filesOf items, hf with
  | [], _ =>
    refine ⟨runnerOf opf st, .builtin st.testcase, st.opts, ?_, h1, hr.1, hr.2, fun _ => by rw [h5], fun g h => by cases h⟩
    simp [ht', h6, h7]
  | [g], _ =>
    refine ⟨runnerOf opf st, .file g, st.opts, ?_, h1, hr.1, hr.2, (fun h => by cases h), (fun g' h => by cases h; rfl)⟩
    simp [ht', h6, h7]

/-- With `--test` the tests are run and nothing else. -/
theorem C122_tests (c : Conv) (opf : Bool) (items : List Item) (hok : ∀ i ∈ items, i.Ok c opf)
    (ht : ∀ n v b, Item.set n v b ∈ items → ∀ d, (n, d) ∈ optionsOf opf → ¬ IsText d) (hf : (filesOf items).length ≤ 1) (hn : said .test items) :
    command opf c (items.flatMap Item.words) = .tests := by
  have hp := parse_items c opf items hok ht [] [] start
  obtain ⟨-, h2, -⟩ := fold_spec c opf items hok
  rw [List.append_nil, List.nil_append, parse] at hp
  generalize items.foldl (fun st i => i.apply c opf st) start = st at *
  have ht' : st.test = true := h2.2 hn
  unfold command
  rw [hp]
  match hl : filesOf items, hf with
  | [], _ => simp [ht']
  | [g], _ => simp [ht']

/-- Errors of use end with code 2 before anything is run: two case files, an option that does not exist, a value that does not fit. -/
theorem C122_usage (c : Conv) (opf : Bool) (items : List Item) (hok : ∀ i ∈ items, i.Ok c opf)
    (ht : ∀ n v b, Item.set n v b ∈ items → ∀ d, (n, d) ∈ optionsOf opf → ¬ IsText d) :
    (1 < (filesOf items).length → command opf c (items.flatMap Item.words) = .stop (.exit 2)) ∧
    (∀ s : Str, s ≠ [] → (∀ e ∈ entries opf, ¬ (splitEq s).1 <+: e.long) → ∀ rest, command opf c (items.flatMap Item.words ++ dash2 s :: rest) = .stop (.exit 2)) ∧
    ∀ n d, (n, d) ∈ optionsOf opf → ¬ IsText d → ∀ v, meaning c d v = none → ∀ b rest,
      command opf c (items.flatMap Item.words ++ ((Item.set n v b).words ++ rest)) = .stop (.exit 2) := by
  refine ⟨fun hl => ?_, fun s hs hm rest => ?_, fun n d hd hnt v hv b rest => ?_⟩
  · have hp := parse_items c opf items hok ht [] [] start
    rw [List.append_nil, List.nil_append, parse] at hp
    unfold command
    rw [hp]
    match hl' : filesOf items, hl with
    | _ :: _ :: _, _ => rfl
  · unfold command
    rw [parse_items c opf items hok ht, parse, step_long _ _ hs]
    have : matchLong (entries opf) (splitEq s).1 = none := by
      cases h : matchLong (entries opf) (splitEq s).1 with
      | none => rfl
      | some e =>
        obtain ⟨h1, -, h3⟩ := matchLong_spec opf h
        exact absurd (List.isPrefixOf_iff_prefix.1 h3) (hm e h1)
    simp only [longStep, this]
  · have hm' := match_option opf _ hd
    obtain ⟨h1, h2⟩ := option_name opf _ hd
    simp only at hm' h1 h2
    unfold command
    rw [parse_items c opf items hok ht]
    have hp : ∀ st, process c ⟨none, n, .callback (tyOf d)⟩ v st = .error (.exit 2) := by
      intro st
      cases d with
      | str s => exact absurd trivial hnt
      | int z =>
        have : c.int v = none := by simpa [meaning] using hv
        simp [process, tyOf, convert, this]
      | float q =>
        have : c.float v = none := by simpa [meaning] using hv
        simp [process, tyOf, convert, this]
      | bool z =>
        have h4 : v ∉ AFFIRMATIVE ∧ v ∉ NEGATIVE := by
          simp only [meaning] at hv
          split_ifs at hv
          exact ⟨‹_›, ‹_›⟩
        simp [process, tyOf, convert, h4.1, h4.2]
    cases b
    · simp only [Item.words, List.cons_append, List.nil_append]
      rw [parse, step_long _ _ h2]
      simp only [longStep, splitEq_none h1, hm', takesValue, if_true, hp]
    · simp only [Item.words, List.cons_append, List.nil_append]
      rw [parse, step_long _ _ (by simp)]
      simp only [longStep, splitEq_some h1, hm', takesValue, if_true, hp]

/-- An option whose default is a text cannot be given a text: the command ends in an uncaught exception. -/
theorem C122_text (c : Conv) (opf : Bool) (items : List Item) (hok : ∀ i ∈ items, i.Ok c opf)
    (ht : ∀ n v b, Item.set n v b ∈ items → ∀ d, (n, d) ∈ optionsOf opf → ¬ IsText d) (n : Str) (d : Val) (hd : (n, d) ∈ optionsOf opf) (hd' : IsText d) (v : Str)
    (hv : v ∉ AFFIRMATIVE ∧ v ∉ NEGATIVE) (b : Bool) (rest : List Str) :
    command opf c (items.flatMap Item.words ++ ((Item.set n v b).words ++ rest)) = .stop .raised := by
  have hm' := match_option opf _ hd
  obtain ⟨h1, h2⟩ := option_name opf _ hd
  simp only at hm' h1 h2
  unfold command
  rw [parse_items c opf items hok ht]
  have hp : ∀ st, process c ⟨none, n, .callback (tyOf d)⟩ v st = .error .raised := by
    intro st
    cases d with
    | str s => simp [process, tyOf, convert, callbackValue, hv.1, hv.2]
    | int z => exact hd'.elim
    | float q => exact hd'.elim
    | bool z => exact hd'.elim
  cases b
  · simp only [Item.words, List.cons_append, List.nil_append]
    rw [parse, step_long _ _ h2]
    simp only [longStep, splitEq_none h1, hm', takesValue, if_true, hp]
  · simp only [Item.words, List.cons_append, List.nil_append]
    rw [parse, step_long _ _ (by simp)]
    simp only [longStep, splitEq_some h1, hm', takesValue, if_true, hp]

/-- Whatever the words on the command line: options the command does not offer keep their defaults in every run, and the others keep the type of their default (texts may
become truth values). -/
theorem C122_safe (c : Conv) (opf : Bool) (args : List Str) (f : Runner) (d : Data) (o : Opts) (x s : Str) (h : command opf c args = .run f d o x s) :
    (f = .runpf ↔ opf = false) ∧
    (∀ e ∈ allOptions, e ∉ optionsOf opf → o (upper e.1) = some e.2) ∧
    ∀ e ∈ allOptions, ∃ w, o (upper e.1) = some w ∧ (¬ IsText e.2 → tyOf w = tyOf e.2) ∧ (IsText e.2 → w = e.2 ∨ w = .bool true ∨ w = .bool false) := by
  obtain ⟨l, st, hp, -, rfl, rfl, -, -, -⟩ := command_run h
  have key := parse_inv (entries opf) c
    (fun st => (∀ e ∈ allOptions, e ∉ optionsOf opf → st.opts (upper e.1) = some e.2) ∧
      ∀ e ∈ allOptions, ∃ w, st.opts (upper e.1) = some w ∧ (¬ IsText e.2 → tyOf w = tyOf e.2) ∧ (IsText e.2 → w = e.2 ∨ w = .bool true ∨ w = .bool false)) ?_
    args [] start (l, st) ?_ hp
  · refine ⟨?_, key⟩
    unfold runnerOf
    cases opf <;> simp
    split_ifs <;> simp
  · rintro e he v st st' ⟨i1, i2⟩ hpr
    have same : st'.opts = st.opts → _ := fun h => (show (∀ e ∈ allOptions, e ∉ optionsOf opf → st'.opts (upper e.1) = some e.2) ∧
      ∀ e ∈ allOptions, ∃ w, st'.opts (upper e.1) = some w ∧ (¬ IsText e.2 → tyOf w = tyOf e.2) ∧ (IsText e.2 → w = e.2 ∨ w = .bool true ∨ w = .bool false) from
        ⟨fun e he he' => by rw [h]; exact i1 e he he', fun e he => by rw [h]; exact i2 e he⟩)
    rcases entry_cases opf e he with ⟨y, hy, rfl⟩ | hna
    · simp only [process] at hpr
      cases hc : convert c (tyOf y.2) v with
      | error z => rw [hc] at hpr; cases hpr
      | ok w =>
        rw [hc] at hpr
        simp only at hpr
        cases hw : callbackValue w with
        | error z => rw [hw] at hpr; cases hpr
        | ok w' =>
          rw [hw] at hpr
          simp only [Except.ok.injEq] at hpr
          subst hpr
          have hne : ∀ z ∈ allOptions, z ≠ y → upper z.1 ≠ upper y.1 := by
            intro z hz hzy hu
            have := upper_inj _ (List.mem_map_of_mem hz) _ (List.mem_map_of_mem (options_sub opf y hy)) hu
            exact hzy (List.inj_on_of_nodup_map names_nodup hz (options_sub opf y hy) this)
          refine ⟨fun z hz hz' => ?_, fun z hz => ?_⟩
          · simp only
            rw [Function.update_of_ne (hne z hz (by rintro rfl; exact hz' hy))]
            exact i1 z hz hz'
          · simp only
            by_cases hzy : z = y
            · subst hzy
              rw [Function.update_self]
              refine ⟨w', rfl, ?_, ?_⟩
              · intro hnt
                cases hz2 : z.2 with
                | str s => rw [hz2] at hnt; exact absurd trivial hnt
                | int q =>
                  rw [hz2] at hc
                  simp only [tyOf, convert] at hc
                  split at hc <;> cases hc
                  simp only [callbackValue, Except.ok.injEq] at hw
                  rw [← hw]; rfl
                | float q =>
                  rw [hz2] at hc
                  simp only [tyOf, convert] at hc
                  split at hc <;> cases hc
                  simp only [callbackValue, Except.ok.injEq] at hw
                  rw [← hw]; rfl
                | bool q =>
                  rw [hz2] at hc
                  simp only [tyOf, convert] at hc
                  split_ifs at hc
                  cases hc
                  simp only [callbackValue] at hw
                  split_ifs at hw <;> cases hw <;> rfl
              · intro hte
                right
                cases hz2 : z.2 with
                | str s =>
                  rw [hz2] at hc
                  simp only [tyOf, convert] at hc
                  cases hc
                  simp only [callbackValue] at hw
                  split_ifs at hw <;> cases hw
                  · exact Or.inl rfl
                  · exact Or.inr rfl
                | int q => rw [hz2] at hte; exact hte.elim
                | float q => rw [hz2] at hte; exact hte.elim
                | bool q => rw [hz2] at hte; exact hte.elim
            · rw [Function.update_of_ne (hne z hz hzy)]
              exact i2 z hz
    · apply same
      unfold process at hpr
      split at hpr
      · cases hpr
      · cases hpr; rfl
      · cases hpr; rfl
      · cases hpr; rfl
      · split_ifs at hpr; cases hpr; rfl
      · cases hpr; rfl
      · cases hpr; rfl
      · exact absurd ‹_› (hna _)
  · exact ⟨fun e he _ => defaults_at e he, fun e he => ⟨e.2, defaults_at e he, fun _ => rfl, fun _ => Or.inl rfl⟩⟩

set_option maxRecDepth 20000 in
/-- Consequences: `opf` never solves a DC problem, the feasibility tolerance is always an integer, and no linear solver can be named, in any run of the commands. -/
theorem C122_never (c : Conv) (opf : Bool) (args : List Str) (f : Runner) (d : Data) (o : Opts) (x s : Str) (h : command opf c args = .run f d o x s) :
    (f ≠ .runpf → o "PF_DC".toList = some (.bool false)) ∧ (∃ z, o "PDIPM_FEASTOL".toList = some (.int z)) ∧
      ∀ t, o "PF_LIN_SOLVER_NR".toList = some (.str t) → t = [] := by
  obtain ⟨h1, h2, h3⟩ := C122_safe c opf args f d o x s h
  refine ⟨fun hf => ?_, ?_, fun t ht => ?_⟩
  · have ho : opf = true := by cases opf with | true => rfl | false => exact absurd (h1.2 rfl) hf
    subst ho
    refine h2 ("pf_dc".toList, .bool false) (by unfold allOptions PF_OPTIONS; simp) ?_
    intro hm
    have : "pf_dc".toList ∈ (optionsOf true).map Prod.fst := List.mem_map_of_mem hm
    revert this; decide
  · obtain ⟨w, hw, hty, -⟩ := h3 ("pdipm_feastol".toList, .int 0) (by unfold allOptions PDIPM_OPTIONS; simp)
    have := hty (fun h => h)
    cases w with
    | int z => exact ⟨z, hw⟩
    | float q => cases this
    | bool b => cases this
    | str s => cases this
  · obtain ⟨w, hw, -, hs⟩ := h3 ("pf_lin_solver_nr".toList, .str []) (by unfold allOptions PF_OPTIONS; simp)
    have hw' : o "PF_LIN_SOLVER_NR".toList = some w := hw
    rw [ht] at hw'
    cases hw'
    rcases hs trivial with h | h | h
    · cases h; rfl
    · cases h
    · cases h

/-- The exit code is 0 only if the run succeeded, the tests passed, or help or the version was asked for; a run that does not succeed gives 2, and a run that does gives 0. -/
theorem C122_exit (c : Conv) (opf : Bool) (args : List Str) (tests : ℕ) (runs : Runner → Data → Opts → Str → Str → Option Bool) :
    (exitCode tests runs (command opf c args) = 0 →
      (∃ f d o x s, command opf c args = .run f d o x s ∧ runs f d o x s = some true) ∨ (command opf c args = .tests ∧ tests = 0) ∨ ∃ a ∈ args, AsksHelp a) ∧
    ∀ f d o x s, command opf c args = .run f d o x s →
      (runs f d o x s = some true ↔ exitCode tests runs (command opf c args) = 0) ∧ (runs f d o x s = some false ↔ exitCode tests runs (command opf c args) = 2) := by
  refine ⟨fun h => ?_, fun f d o x s h => ?_⟩
  · cases hc : command opf c args with
    | stop y =>
      rw [hc] at h
      right; right
      unfold command at hc
      split at hc
      · rename_i y' hp
        cases hc
        rcases parse_stop opf c _ _ _ _ hp with ⟨-, h'⟩ | rfl | rfl
        · exact h'
        · simp [exitCode] at h
        · simp [exitCode] at h
      · split at hc
        · cases hc; simp [exitCode] at h
        · split_ifs at hc
        · split_ifs at hc
    | tests => rw [hc] at h; exact Or.inr (Or.inl ⟨rfl, h⟩)
    | run f d o x s =>
      rw [hc] at h
      left
      refine ⟨f, d, o, x, s, rfl, ?_⟩
      simp only [exitCode] at h
      split at h <;> simp_all
  · rw [h]
    simp only [exitCode]
    rcases runs f d o x s with _ | _ | _ <;> simp

/-! ### The hypotheses are met -/

/-- A reader of numerals that knows two words. -/
def exConv : Conv := ⟨fun s => if s = "2".toList then some 2 else none, fun s => if s = "0.5".toList then some (1 / 2) else none⟩

/-- `pf --pf_alg 2 grid.py --pf_dc=yes -o out.txt --pf_tol=0.5 --pf_dc no` -/
def exItems : List Item :=
  [.set "pf_alg".toList "2".toList false, .file "grid.py".toList, .set "pf_dc".toList "yes".toList true, .store .fname "out.txt".toList true,
   .set "pf_tol".toList "0.5".toList true, .set "pf_dc".toList "no".toList false]

theorem exItems_ok : ∀ i ∈ exItems, i.Ok exConv false := by
  intro i hi
  simp only [exItems, List.mem_cons, List.not_mem_nil, or_false] at hi
  rcases hi with rfl | rfl | rfl | rfl | rfl | rfl
  · exact ⟨.int 1, by simp [optionsOf, PF_OPTIONS], by decide⟩
  · simp [Item.Ok]
  · exact ⟨.bool false, by simp [optionsOf, PF_OPTIONS], by decide⟩
  · trivial
  · exact ⟨.float (1 / 10 ^ 8), by simp [optionsOf, PF_OPTIONS], by simp [meaning, exConv]⟩
  · exact ⟨.bool false, by simp [optionsOf, PF_OPTIONS], by decide⟩

set_option maxRecDepth 20000 in
theorem exItems_text : ∀ n v b, Item.set n v b ∈ exItems → ∀ d, (n, d) ∈ optionsOf false → ¬ IsText d := by
  intro n v b hm d hd ht
  have e : ∀ n d', (n, d') ∈ optionsOf false → (n, d) ∈ optionsOf false → d = d' := by
    intro n d' h1 h2
    have a1 : (optionsOf false).find? (fun x => x.1 = n) = some (n, d') := find_option false (n, d') h1
    have a2 : (optionsOf false).find? (fun x => x.1 = n) = some (n, d) := find_option false (n, d) h2
    have := a1.symm.trans a2
    simp only [Option.some.injEq, Prod.mk.injEq, true_and] at this
    exact this.symm
  simp only [exItems, List.mem_cons, List.not_mem_nil, or_false, Item.set.injEq, reduceCtorEq, false_or] at hm
  rcases hm with ⟨rfl, -, -⟩ | ⟨rfl, -, -⟩ | ⟨rfl, -, -⟩ | ⟨rfl, -, -⟩
  · rw [e _ (.int 1) (by simp [optionsOf, PF_OPTIONS]) hd] at ht; exact ht
  · rw [e _ (.bool false) (by simp [optionsOf, PF_OPTIONS]) hd] at ht; exact ht
  · rw [e _ (.float (1 / 10 ^ 8)) (by simp [optionsOf, PF_OPTIONS]) hd] at ht; exact ht
  · rw [e _ (.bool false) (by simp [optionsOf, PF_OPTIONS]) hd] at ht; exact ht

/-- The command line is accepted and the later setting of `pf_dc` counts. -/
example : (∃ o, command false exConv (exItems.flatMap Item.words) = .run .runpf (.file "grid.py".toList) o "out.txt".toList [] ∧ o "PF_ALG".toList = some (.int 2) ∧
    o "PF_DC".toList = some (.bool false) ∧ o "PF_TOL".toList = some (.float (1 / 2)) ∧ o "PF_MAX_IT".toList = some (.int 10)) := by
  obtain ⟨f, d, o, h, ho, hf, -, -, hd⟩ := C122_options_partial exConv false exItems exItems_ok exItems_text (by simp [exItems, filesOf]) (by simp [said, exItems])
  rw [hf rfl, hd "grid.py".toList rfl] at h
  refine ⟨o, h, ho ("pf_alg".toList, .int 1) ?_, ho ("pf_dc".toList, .bool false) ?_, ho ("pf_tol".toList, .float (1 / 10 ^ 8)) ?_, ho ("pf_max_it".toList, .int 10) ?_⟩ <;>
    unfold allOptions PF_OPTIONS <;> simp

/-- `pf --pf_lin_solver_nr pyrlu` ends in an exception. -/
example : command false exConv ["--pf_lin_solver_nr".toList, "pyrlu".toList] = .stop .raised :=
  C122_text exConv false [] (by simp) (by simp) "pf_lin_solver_nr".toList (.str []) (by simp [optionsOf, PF_OPTIONS]) trivial "pyrlu".toList (by decide) false []

/-- `opf --pf_dc yes` ends with code 2: there is no such option. -/
example : command true exConv ["--pf_dc".toList, "yes".toList] = .stop (.exit 2) :=
  (C122_usage exConv true [] (by simp) (by simp)).2.1 "pf_dc".toList (by simp) (by decide) _

end Verif.Cli
