import Verif.ExtReport.Model
import Verif.Userfcn.Props
import Verif.NumPyLemmas

/-!
# C119: reports and files of cases with reserves, interface limits or DC lines
-/

open Verif.NumPy (find gather)

namespace Verif.ExtReport

open Dcline (DcLine Mu)
open Printpf (PrintOpt)
open Userfcn (callbacks chain)
open scoped Classical

variable {A : Type}

/-! ### Lemmas -/

theorem mapM_some {α β : Type} (f : α → Option β) (g : α → β) (l : List α) (h : ∀ x ∈ l, f x = some (g x)) : l.mapM f = some (l.map g) := by
  induction l with
  | nil => rfl
  | cons a l ih =>
    rw [List.mapM_cons, h a List.mem_cons_self, ih fun x hx => h x (List.mem_cons_of_mem _ hx)]
    rfl

theorem mapM_none {α β : Type} (f : α → Option β) (l : List α) {a : α} (ha : a ∈ l) (h : f a = none) : l.mapM f = none := by
  induction l with
  | nil => cases ha
  | cons b l ih =>
    rw [List.mapM_cons]
    rcases List.mem_cons.1 ha with rfl | ha
    · rw [h]; rfl
    · rw [ih ha]
      cases f b <;> rfl

theorem offLine_none (k : ℕ) (d : DcLine) : offLine k d = none := rfl

/-- The callbacks of the user leave the data of the extensions alone. -/
def Leaves (user : ℕ → State → Option State) : Prop := ∀ n s s', user n s = some s' → s'.dc = s.dc ∧ s'.lims = s.lims ∧ s'.res = s.res

theorem call4_leaves {user : ℕ → State → Option State} (hu : Leaves user) {f : Fcn} {s s' : State} {o : PrintOpt} {a : List A} (h : (calls user).call4 f s () o a = some s') :
    s'.dc = s.dc ∧ s'.lims = s.lims ∧ s'.res = s.res := by
  cases f with
  | stage n => cases h
  | user n => exact hu n s s' h
  | resPrint =>
    obtain ⟨p, -, h2⟩ := Option.bind_eq_some_iff.1 h
    obtain ⟨r, -, rfl⟩ := Option.map_eq_some_iff.1 h2
    exact ⟨rfl, rfl, rfl⟩
  | ifPrint =>
    obtain ⟨p, -, h2⟩ := Option.bind_eq_some_iff.1 h
    obtain ⟨r, -, rfl⟩ := Option.map_eq_some_iff.1 h2
    exact ⟨rfl, rfl, rfl⟩
  | dcPrint =>
    obtain ⟨p, -, h2⟩ := Option.bind_eq_some_iff.1 h
    obtain ⟨r, -, rfl⟩ := Option.map_eq_some_iff.1 h2
    exact ⟨rfl, rfl, rfl⟩
  | resSave =>
    obtain ⟨p, -, h2⟩ := Option.bind_eq_some_iff.1 h
    obtain ⟨r, -, rfl⟩ := Option.map_eq_some_iff.1 h2
    exact ⟨rfl, rfl, rfl⟩
  | ifSave =>
    obtain ⟨p, -, h2⟩ := Option.bind_eq_some_iff.1 h
    obtain ⟨r, -, rfl⟩ := Option.map_eq_some_iff.1 h2
    exact ⟨rfl, rfl, rfl⟩
  | dcSave =>
    obtain ⟨p, -, h2⟩ := Option.bind_eq_some_iff.1 h
    obtain ⟨r, -, rfl⟩ := Option.map_eq_some_iff.1 h2
    exact ⟨rfl, rfl, rfl⟩

/-- One callback that raises whatever was printed before makes the stage raise. -/
theorem chain_none {user : ℕ → State → Option State} (hu : Leaves user) {o : PrintOpt} {l : List (Fcn × List A)} {p : Fcn × List A} (hp : p ∈ l) {s : State}
    (h : ∀ s' : State, s'.dc = s.dc → s'.lims = s.lims → s'.res = s.res → (calls user).call4 p.1 s' () o p.2 = none) : chain (fun f s a => (calls user).call4 f s () o a) l s = none := by
  induction l generalizing s with
  | nil => cases hp
  | cons q l ih =>
    unfold chain
    rcases List.mem_cons.1 hp with rfl | hp
    · rw [h s rfl rfl rfl]; rfl
    · cases hq : (calls user).call4 q.1 s () o q.2 with
      | none => rfl
      | some s' =>
        obtain ⟨e1, e2, e3⟩ := call4_leaves hu hq
        exact ih hp fun s'' a1 a2 a3 => h s'' (a1.trans e1) (a2.trans e2) (a3.trans e3)

/-! ### Printing -/

/-- Is the extension's report among the registered ones? -/
def Registered (reg : Userfcn.Reg Fcn A) (stage : String) (f : Fcn) : Prop := ∃ p ∈ callbacks reg stage, p.1 = f

/-- **C119 (power flows).**  If the case has a registry of user functions, even an empty one, then printing the results of a power flow raises an exception. -/
theorem C119_pf (area : List ℝ → ℤ) (user : ℕ → State → Option State) (o : PrintOpt) (ho : o.OUT_ALL ≠ 0) (base : ℝ) (t : Index.Case Opf.Tables) (d : Userfcn.Dict Fcn A) (s : State) :
    printAll area user o false base t (some d) s = none := by
  unfold printAll
  rw [if_neg ho]
  have : printTail user o false (some d) s = none := rfl
  rw [this]
  cases Printpf.printpf area o false base t <;> rfl

/-- **C119 (switched off again).**  This is so for a case that never had a user function, once an extension was switched on and off again; before, it was printed. -/
theorem C119_left (area : List ℝ → ℤ) (user : ℕ → State → Option State) (o : PrintOpt) (ho : o.OUT_ALL ≠ 0) (base : ℝ) (t : Index.Case Opf.Tables) (s : State)
    (k : Userfcn.Checks) (hk : k.pass = true) (x : Userfcn.Ext Fcn) :
    ∃ r₁ r₂ : Userfcn.Reg Fcn A, Userfcn.turnOn k x none = some r₁ ∧ Userfcn.turnOff x r₁ = some r₂ ∧ printAll area user o false base t r₂ s = none ∧
      printAll area user o false base t (none : Userfcn.Reg Fcn A) s = (Printpf.printpf area o false base t).map fun p => (p, s) := by
  obtain ⟨r1, r2, h1, h2, -⟩ := Userfcn.C47 (A := A) k hk x none
  refine ⟨r1, r2, h1, h2, ?_, ?_⟩
  · have : ∃ d, r2 = some d := by
      have last : ∀ (r r' : Userfcn.Reg Fcn A) (stage : String) (f : Fcn), Userfcn.remove r stage f = some r' → ∃ d, r' = some d := by
        intro r r' stage f h
        unfold Userfcn.remove at h
        split at h
        · cases h
        · split at h
          · cases h
          · cases h; exact ⟨_, rfl⟩
      unfold Userfcn.turnOff at h2
      obtain ⟨a1, -, h2⟩ := Option.bind_eq_some_iff.1 h2
      obtain ⟨a2, -, h2⟩ := Option.bind_eq_some_iff.1 h2
      obtain ⟨a3, -, h2⟩ := Option.bind_eq_some_iff.1 h2
      obtain ⟨a4, -, h2⟩ := Option.bind_eq_some_iff.1 h2
      exact last _ _ _ _ h2
    obtain ⟨d, rfl⟩ := this
    exact C119_pf area user o ho base t d s
  · unfold printAll
    rw [if_neg ho]
    cases Printpf.printpf area o false base t <;> rfl

/-- **C119 (no output wanted).**  With `OUT_ALL` 0 nothing is printed and nothing is called. -/
theorem C119_quiet (area : List ℝ → ℤ) (user : ℕ → State → Option State) (o : PrintOpt) (ho : o.OUT_ALL = 0) (isOPF : Bool) (base : ℝ) (t : Index.Case Opf.Tables)
    (reg : Userfcn.Reg Fcn A) (s : State) : printAll area user o isOPF base t reg s = some ((t, none), s) := by
  unfold printAll
  rw [if_pos ho]

/-- A report that raises in every state with the same data makes the printing raise. -/
theorem print_none (area : List ℝ → ℤ) {user : ℕ → State → Option State} (hu : Leaves user) (o : PrintOpt) (ho : o.OUT_ALL ≠ 0) (isOPF : Bool) (base : ℝ)
    (t : Index.Case Opf.Tables) {reg : Userfcn.Reg Fcn A} {f : Fcn} (hr : Registered reg "printpf" f) {s : State}
    (h : ∀ (s' : State) (a : List A), s'.dc = s.dc → s'.lims = s.lims → s'.res = s.res → (calls user).call4 f s' () o a = none) : printAll area user o isOPF base t reg s = none := by
  obtain ⟨p, hp, rfl⟩ := hr
  cases reg with
  | none => cases hp
  | some d =>
    unfold printAll
    rw [if_neg ho]
    have : printTail user o isOPF (some d) s = none := by
      unfold printTail
      dsimp only
      rw [Userfcn.C46_run_print _ d "printpf" (by simp), chain_none hu hp fun s' a1 a2 a3 => h s' p.2 a1 a2 a3]
      cases isOPF <;> rfl
    rw [this]
    cases Printpf.printpf area o isOPF base t <;> rfl

/-- **C119 (interface limits).**  With interface limits switched on, and at least one interface, printing any results raises an exception. -/
theorem C119_iflims (area : List ℝ → ℤ) {user : ℕ → State → Option State} (hu : Leaves user) (o : PrintOpt) (ho : o.OUT_ALL ≠ 0) (isOPF : Bool) (base : ℝ)
    (t : Index.Case Opf.Tables) {reg : Userfcn.Reg Fcn A} (hr : Registered reg "printpf" .ifPrint) {s : State} {lims : List Iflims.LimRow} {m : List Iflims.MapRow}
    (hs : s.lims = some (lims, m)) (hne : lims ≠ []) : printAll area user o isOPF base t reg s = none := by
  refine print_none area hu o ho isOPF base t hr fun s' a _ e _ => ?_
  have hz : 0 ∈ List.range (Iflims.ifidx lims).length := by
    rw [List.mem_range]
    unfold Iflims.ifidx
    rw [List.length_insertionSort, List.length_pos_iff]
    intro hnil
    obtain ⟨x, hx⟩ := List.exists_mem_of_ne_nil _ hne
    have : x.1 ∈ (lims.map Prod.fst).dedup := List.mem_dedup.2 (List.mem_map_of_mem hx)
    rw [hnil] at this
    cases this
  have : ifPrint o lims = none := by
    unfold ifPrint
    rw [if_neg ho]
    exact mapM_none _ _ hz rfl
  show (s'.lims.bind fun p => (ifPrint o p.1).map fun r => { s' with out := s'.out ++ [Section.ifl r] }) = none
  rw [e, hs, Option.bind_some, this]
  rfl

/-- **C119 (DC lines out of service).**  With DC lines switched on, one of them out of service and the branch section wanted, printing raises an exception. -/
theorem C119_dc_off (area : List ℝ → ℤ) {user : ℕ → State → Option State} (hu : Leaves user) (o : PrintOpt) (ho : o.OUT_ALL = 1 ∨ o.OUT_ALL = -1 ∧ o.OUT_BRANCH = true) (isOPF : Bool)
    (base : ℝ) (t : Index.Case Opf.Tables) {reg : Userfcn.Reg Fcn A} (hr : Registered reg "printpf" .dcPrint) {s : State} {dc : List DcLine} {mu : Option (List Mu)}
    (hs : s.dc = some (dc, mu)) {d : DcLine} (hd : d ∈ dc) (hoff : d.status = 0) : printAll area user o isOPF base t reg s = none := by
  refine print_none area hu o (by rcases ho with h | ⟨h, -⟩ <;> rw [h] <;> decide) isOPF base t hr fun s' a e _ _ => ?_
  have hflag : o.flag (·.OUT_BRANCH) = true := by
    unfold PrintOpt.flag
    rcases ho with h | ⟨h, h'⟩
    · simp [h]
    · simp [h, h']
  obtain ⟨k, hk⟩ := List.getElem?_of_mem hd
  have hm : (d, k) ∈ dc.zipIdx := by
    rw [List.mem_zipIdx_iff_getElem?]; exact hk
  have : dataSection o dc = none := by
    unfold dataSection
    rw [if_pos hflag, mapM_none _ _ hm]
    · rfl
    · show dataLine k d = none
      unfold dataLine
      rw [if_neg (by simpa using hoff), offLine_none]
  show (s'.dc.bind fun p => (dcPrint o p.1 p.2).map fun r => { s' with out := s'.out ++ [Section.dc r] }) = none
  rw [e, hs, Option.bind_some]
  unfold dcPrint
  rw [this]
  rfl

/-! ### What is printed of DC lines -/

/-- The line of a DC line in service: number, buses, flows, loss and reactive injections. -/
noncomputable def dcShown (k : ℕ) (d : DcLine) : Line := [num k, num d.fbus, num d.tbus, num d.pf, num d.pt, num (d.pf - d.pt), num d.qf, num d.qt]

/-- The line of a DC line in the constraint section. -/
noncomputable def dcLimShown (k : ℕ) (d : DcLine) (m : Mu) : Line := [num k, num d.fbus, num d.tbus, muCell m.pmin, num d.pmin, num d.pf, num d.pmax, muCell m.pmax]

theorem totalLoss_sum (dc : List DcLine) (h : ∀ d ∈ dc, d.status ≠ 0) : totalLoss dc = (dc.map fun d => d.pf - d.pt).sum := by
  have key : ∀ (l : List DcLine) (a : ℝ), (∀ d ∈ l, d.status ≠ 0) → l.foldl (fun a d => if d.status ≠ 0 then a + d.pf - d.pt else a) a = a + (l.map fun d => d.pf - d.pt).sum := by
    intro l
    induction l with
    | nil => intro a _; simp
    | cons d l ih =>
      intro a hl
      rw [List.foldl_cons, if_pos (hl d List.mem_cons_self), ih _ fun e he => hl e (List.mem_cons_of_mem _ he), List.map_cons, List.sum_cons]
      ring
  unfold totalLoss
  rw [key dc 0 h, zero_add]

/-- **C119 (DC lines in service), partial.**  If all DC lines are in service and the table has its multipliers, the report is printed: a line for each DC line and their total loss if
branches are wanted; in the constraint section exactly the lines at their upper limit or with a shadow price, or all of them, as the options say.  Missing for the full statement:
lines out of service (`C119_dc_off`). -/
theorem C119_dc_partial (o : PrintOpt) (dc : List DcLine) (ms : List Mu) (hon : ∀ d ∈ dc, d.status ≠ 0) :
    ∃ r, dcPrint o dc (some ms) = some r ∧
      r.data = (if o.OUT_ALL = 1 ∨ o.OUT_ALL = -1 ∧ o.OUT_BRANCH = true then some (dc.zipIdx.map fun p => dcShown p.2 p.1, (dc.map fun d => d.pf - d.pt).sum) else none) ∧
      (o.lim (·.OUT_LINE_LIM) = 0 → r.limits = none) ∧
      (o.lim (·.OUT_LINE_LIM) = 2 → r.limits = some ((dc.zip ms).zipIdx.map fun p => dcLimShown p.2 p.1.1 p.1.2)) ∧
      (o.lim (·.OUT_LINE_LIM) = 1 → ms.length = dc.length →
        r.limits.getD [] = (((dc.zip ms).zipIdx.filter fun p => decide (p.1.1.pf > p.1.1.pmax - o.OPF_VIOLATION ∨ p.1.2.pmin > ptol ∨ p.1.2.pmax > ptol)).map
          fun p => dcLimShown p.2 p.1.1 p.1.2)) := by
  have hdata : dataSection o dc =
      some (if o.OUT_ALL = 1 ∨ o.OUT_ALL = -1 ∧ o.OUT_BRANCH = true then some (dc.zipIdx.map fun p => dcShown p.2 p.1, (dc.map fun d => d.pf - d.pt).sum) else none) := by
    unfold dataSection
    have hflag : (o.flag (·.OUT_BRANCH) = true) ↔ (o.OUT_ALL = 1 ∨ o.OUT_ALL = -1 ∧ o.OUT_BRANCH = true) := by
      unfold PrintOpt.flag
      simp
    by_cases hf : o.flag (·.OUT_BRANCH) = true
    · rw [if_pos hf, if_pos (hflag.1 hf), mapM_some _ (fun p : DcLine × ℕ => dcShown p.2 p.1), totalLoss_sum dc hon]
      · rfl
      · intro p hp
        have : p.1 ∈ dc := by
          have := List.mem_zipIdx_iff_getElem?.1 hp
          exact List.mem_of_getElem? this
        exact if_pos (hon _ this)
    · rw [if_neg hf, if_neg fun c => hf (hflag.2 c)]
  have hline : ∀ (lim : ℕ) (ctol : ℝ), limLines lim ctol dc (some ms) =
      some (((dc.zip ms).zipIdx.filter fun p => decide (lim = 2 ∨ lim = 1 ∧ binding ctol p.1.1 p.1.2)).map fun p => dcLimShown p.2 p.1.1 p.1.2) := by
    intro lim ctol
    have hz : ∀ p ∈ (dc.zip ms).zipIdx, p.1.1.status ≠ 0 := by
      intro p hp
      exact hon _ (List.of_mem_zip (List.mem_of_getElem? (List.mem_zipIdx_iff_getElem?.1 hp))).1
    unfold limLines
    rw [Option.bind_some, mapM_some _ (fun p : (DcLine × Mu) × ℕ => if lim = 2 ∨ lim = 1 ∧ binding ctol p.1.1 p.1.2 then some (dcLimShown p.2 p.1.1 p.1.2) else none)]
    · rw [Option.map_some]
      congr 1
      clear hz
      induction (dc.zip ms).zipIdx with
      | nil => rfl
      | cons p l ih =>
        rw [List.map_cons]
        by_cases hc : lim = 2 ∨ lim = 1 ∧ binding ctol p.1.1 p.1.2
        · rw [if_pos hc, List.filter_cons_of_pos (by simpa using hc), List.map_cons, List.reduceOption_cons_of_some, ih]
        · rw [if_neg hc, List.filter_cons_of_neg (by simpa using hc), List.reduceOption_cons_of_none, ih]
    · intro p hp
      unfold limLine
      by_cases hc : lim = 2 ∨ lim = 1 ∧ binding ctol p.1.1 p.1.2
      · rw [if_pos hc, if_pos hc, if_pos (hz p hp)]; rfl
      · rw [if_neg hc, if_neg hc]
  have hsec : ∃ b, limSection (o.lim (·.OUT_LINE_LIM)) o.OPF_VIOLATION dc (some ms) = some b ∧ (o.lim (·.OUT_LINE_LIM) = 0 → b = none) ∧
      (o.lim (·.OUT_LINE_LIM) = 2 → b = some ((dc.zip ms).zipIdx.map fun p => dcLimShown p.2 p.1.1 p.1.2)) ∧
      (o.lim (·.OUT_LINE_LIM) = 1 → ms.length = dc.length →
        b.getD [] = (((dc.zip ms).zipIdx.filter fun p => decide (p.1.1.pf > p.1.1.pmax - o.OPF_VIOLATION ∨ p.1.2.pmin > ptol ∨ p.1.2.pmax > ptol)).map
          fun p => dcLimShown p.2 p.1.1 p.1.2)) := by
    generalize o.lim (·.OUT_LINE_LIM) = lim
    unfold limSection
    by_cases h2 : lim = 2
    · subst h2
      refine ⟨_, by rw [show limHeader 2 o.OPF_VIOLATION dc (some ms) = some true from if_pos rfl, Option.bind_some, if_pos rfl, hline]; rfl, by simp, ?_, by simp⟩
      intro _
      congr 2
      rw [List.filter_eq_self]
      intro a _
      simp
    · by_cases h1 : lim = 1
      · subst h1
        have hf : ((dc.zip ms).zipIdx.filter fun p => decide ((1 : ℕ) = 2 ∨ (1 : ℕ) = 1 ∧ binding o.OPF_VIOLATION p.1.1 p.1.2)) =
            (dc.zip ms).zipIdx.filter fun p => decide (p.1.1.pf > p.1.1.pmax - o.OPF_VIOLATION ∨ p.1.2.pmin > ptol ∨ p.1.2.pmax > ptol) := by
          apply List.filter_congr
          intro p _
          rw [decide_eq_decide]
          unfold binding
          simp
        have hh : ∃ c, limHeader 1 o.OPF_VIOLATION dc (some ms) = some c ∧ (c = false → ms.length = dc.length →
            ∀ p ∈ (dc.zip ms).zipIdx, ¬ (p.1.1.pf > p.1.1.pmax - o.OPF_VIOLATION ∨ p.1.2.pmin > ptol ∨ p.1.2.pmax > ptol)) := by
          unfold limHeader
          rw [if_neg (by decide), if_pos rfl]
          split_ifs with hex
          · exact ⟨true, rfl, by simp⟩
          · refine ⟨_, rfl, fun hc _ p hp hb => ?_⟩
            have hz := List.mem_of_getElem? (List.mem_zipIdx_iff_getElem?.1 hp)
            have hm := (List.of_mem_zip hz).1
            rcases hb with hb | hb
            · exact hex ⟨_, hm, hon _ hm, hb⟩
            · exact of_decide_eq_false hc ⟨_, hz, hon _ hm, hb⟩
        obtain ⟨c, hc, hcf⟩ := hh
        rw [hc, Option.bind_some]
        cases c
        · refine ⟨none, by simp, by simp, by simp, fun _ hl => ?_⟩
          rw [Option.getD_none, List.filter_eq_nil_iff.2, List.map_nil]
          intro p hp
          simpa using hcf rfl hl p hp
        · refine ⟨_, by rw [if_pos rfl, hline, hf]; rfl, by simp, by simp, fun _ _ => rfl⟩
      · refine ⟨none, ?_, by simp, by simp [h2], by simp [h1]⟩
        unfold limHeader
        rw [if_neg h2, if_neg h1]
        rfl
  obtain ⟨b, hb, b0, b2, b1⟩ := hsec
  refine ⟨⟨_, b⟩, ?_, rfl, b0, b2, b1⟩
  unfold dcPrint
  rw [hdata, Option.bind_some, hb]
  rfl

/-- **C119 (DC lines without multipliers).**  If the table has no multipliers and the constraint section is wanted for all lines, the report raises. -/
theorem C119_dc_mu (o : PrintOpt) (dc : List DcLine) (hl : o.lim (·.OUT_LINE_LIM) = 1 ∨ o.lim (·.OUT_LINE_LIM) = 2) : dcPrint o dc none = none := by
  have : limSection (o.lim (·.OUT_LINE_LIM)) o.OPF_VIOLATION dc none = none := by
    unfold limSection limHeader limLines
    rcases hl with h | h <;> rw [h]
    · rw [if_neg (by decide), if_pos rfl]
      split_ifs <;> rfl
    · rfl
  unfold dcPrint
  rw [this]
  cases dataSection o dc <;> rfl

/-! ### What is printed of reserves -/

/-- The vectors have an entry for each of the `ng` generators, the providers are generators, each zone has a row with an entry per generator and a multiplier. -/
structure ResOk (ng : ℕ) (r : ResData) : Prop where
  bus : r.bus.length = ng
  status : r.status.length = ng
  R : r.R.length = ng
  Rmin : r.Rmin.length = ng
  Rmax : r.Rmax.length = ng
  muL : r.muL.length = ng
  muU : r.muU.length = ng
  muPmax : r.muPmax.length = ng
  prc : r.prc.length = ng
  igr : ∀ k ∈ r.igr, k < ng
  zones : r.zones.length = r.req.length
  row : ∀ row ∈ r.zones, row.length = ng
  mu : r.mu.length = r.req.length

theorem gather_sum (xs : List ℝ) (idx : List ℕ) (h : ∀ i ∈ idx, i < xs.length) : gather xs idx = some (idx.map fun i => xs.getD i 0) := by
  induction idx with
  | nil => rfl
  | cons i idx ih =>
    have hi : xs[i]? = some (xs.getD i 0) := by
      rw [List.getD_eq_getElem?_getD, List.getElem?_eq_getElem (h i List.mem_cons_self)]
      rfl
    unfold gather
    rw [hi, ih fun j hj => h j (List.mem_cons_of_mem _ hj)]
    rfl

/-- **C119 (reserves).**  The report of reserves is printed for all results of the right sizes: a line for each provider with its reserve (if it is in service and the reserve is not
negligible), its price and its zones, another with its limits and shadow prices, a line for each zone with the sum of the reserves of its generators, and the total over all providers. -/
theorem C119_reserves (o : PrintOpt) (ho : o.OUT_ALL ≠ 0) {ng : ℕ} {r : ResData} (hr : ResOk ng r) :
    ∃ rep, resPrint o r = some (some rep) ∧ rep.total = (r.igr.map fun k => r.R.getD k 0).sum ∧ rep.total' = rep.total ∧ rep.cost = r.totalcost ∧
      rep.gens = r.igr.map (fun k : ℕ =>
        [num k, num (r.bus.getD k 0), num (r.status.getD k 0), (if 0 < r.status.getD k 0 ∧ |r.R.getD k 0| > 1e-6 then num (r.R.getD k 0) else dash), num (r.prc.getD k 0)] ++
          ((List.range r.req.length).filter fun z => decide ((r.zones.getD z []).getD k 0 ≠ 0)).map fun z : ℕ => num z) ∧
      rep.zones = (List.range r.req.length).map (fun z : ℕ =>
        [num z, num (((List.range ng).filter fun i => decide ((r.zones.getD z []).getD i 0 ≠ 0)).map fun i => r.R.getD i 0).sum, num (r.mu.getD z 0 / r.base)]) ∧
      rep.limits = r.igr.map (fun k : ℕ =>
        [num k, num (r.bus.getD k 0), num (r.status.getD k 0), (if 0 < r.status.getD k 0 ∧ r.muL.getD k 0 > 1e-6 then num (r.muL.getD k 0) else dash), .num (r.Rmin.getD k 0),
          (if 0 < r.status.getD k 0 ∧ |r.R.getD k 0| > 1e-6 then num (r.R.getD k 0) else dash), .num (r.Rmax.getD k 0),
          (if 0 < r.status.getD k 0 ∧ r.muU.getD k 0 > 1e-6 then num (r.muU.getD k 0) else dash),
          (if 0 < r.status.getD k 0 ∧ r.muPmax.getD k 0 > 1e-6 then num (r.muPmax.getD k 0) else dash)]) := by
  have get : ∀ {α : Type} (l : List α) (x : α) (k : ℕ), k < l.length → l[k]? = some (l.getD k x) := by
    intro α l x k hk
    rw [List.getD_eq_getElem?_getD, List.getElem?_eq_getElem hk]
    rfl
  have find_eq : ∀ (bs : List Bool), find bs = (List.range bs.length).filter fun i => decide (bs[i]? = some true) := by
    intro bs
    apply List.Pairwise.eq_of_mem_iff (r := (· < ·)) (NumPy.find_pairwise bs) (List.Pairwise.filter _ List.pairwise_lt_range)
    intro i
    rw [NumPy.mem_find, List.mem_filter, List.mem_range, decide_eq_true_eq]
    exact ⟨fun h => ⟨(List.getElem?_eq_some_iff.1 h).1, h⟩, fun h => h.2⟩
  have hz : ∀ k, Reserves.zonesOf r.zones k = (List.range r.req.length).filter fun z => decide ((r.zones.getD z []).getD k 0 ≠ 0) := by
    intro k
    unfold Reserves.zonesOf
    rw [find_eq, List.length_map, hr.zones]
    apply List.filter_congr
    intro z hzm
    rw [List.mem_range, ← hr.zones] at hzm
    rw [List.getElem?_map, get r.zones [] z hzm]
    simp
  have hg : r.igr.mapM (genLine r) = some (r.igr.map (fun k : ℕ =>
        [num k, num (r.bus.getD k 0), num (r.status.getD k 0), (if 0 < r.status.getD k 0 ∧ |r.R.getD k 0| > 1e-6 then num (r.R.getD k 0) else dash), num (r.prc.getD k 0)] ++
          ((List.range r.req.length).filter fun z => decide ((r.zones.getD z []).getD k 0 ≠ 0)).map fun z : ℕ => num z)) := by
    apply mapM_some
    intro k hk
    have hlt := hr.igr k hk
    unfold genLine
    rw [get r.bus 0 k (by rw [hr.bus]; exact hlt), get r.status 0 k (by rw [hr.status]; exact hlt), get r.R 0 k (by rw [hr.R]; exact hlt), get r.prc 0 k (by rw [hr.prc]; exact hlt), hz]
    rfl
  have hzl : (List.range r.req.length).mapM (zoneLine r) = some ((List.range r.req.length).map (fun z : ℕ =>
        [num z, num (((List.range ng).filter fun i => decide ((r.zones.getD z []).getD i 0 ≠ 0)).map fun i => r.R.getD i 0).sum, num (r.mu.getD z 0 / r.base)])) := by
    apply mapM_some
    intro z hzm
    have hlt := List.mem_range.1 hzm
    have hrow : r.zones.getD z [] ∈ r.zones := List.mem_of_getElem? (get r.zones [] z (by rw [hr.zones]; exact hlt))
    have hfind : find ((r.zones.getD z []).map fun v => decide (v ≠ 0)) = (List.range ng).filter fun i => decide ((r.zones.getD z []).getD i 0 ≠ 0) := by
      rw [find_eq, List.length_map, hr.row _ hrow]
      apply List.filter_congr
      intro i hi
      rw [List.mem_range] at hi
      rw [List.getElem?_map, get (r.zones.getD z []) 0 i (by rw [hr.row _ hrow]; exact hi)]
      simp
    unfold zoneLine
    rw [get r.zones [] z (by rw [hr.zones]; exact hlt), get r.mu 0 z (by rw [hr.mu]; exact hlt)]
    simp only [Option.bind_eq_bind, Option.bind_some]
    rw [hfind, gather_sum]
    · rfl
    · intro i hi
      rw [hr.R]
      exact List.mem_range.1 (List.mem_filter.1 hi).1
  have hl : r.igr.mapM (resLimLine r) = some (r.igr.map (fun k : ℕ =>
        [num k, num (r.bus.getD k 0), num (r.status.getD k 0), (if 0 < r.status.getD k 0 ∧ r.muL.getD k 0 > 1e-6 then num (r.muL.getD k 0) else dash), .num (r.Rmin.getD k 0),
          (if 0 < r.status.getD k 0 ∧ |r.R.getD k 0| > 1e-6 then num (r.R.getD k 0) else dash), .num (r.Rmax.getD k 0),
          (if 0 < r.status.getD k 0 ∧ r.muU.getD k 0 > 1e-6 then num (r.muU.getD k 0) else dash),
          (if 0 < r.status.getD k 0 ∧ r.muPmax.getD k 0 > 1e-6 then num (r.muPmax.getD k 0) else dash)])) := by
    apply mapM_some
    intro k hk
    have hlt := hr.igr k hk
    unfold resLimLine
    rw [get r.bus 0 k (by rw [hr.bus]; exact hlt), get r.status 0 k (by rw [hr.status]; exact hlt), get r.R 0 k (by rw [hr.R]; exact hlt), get r.Rmin 0 k (by rw [hr.Rmin]; exact hlt),
      get r.Rmax 0 k (by rw [hr.Rmax]; exact hlt), get r.muL 0 k (by rw [hr.muL]; exact hlt), get r.muU 0 k (by rw [hr.muU]; exact hlt), get r.muPmax 0 k (by rw [hr.muPmax]; exact hlt)]
    rfl
  refine ⟨⟨_, _, _, _, _, _⟩, ?_, rfl, rfl, rfl, rfl, rfl, rfl⟩
  unfold resPrint
  rw [if_neg ho, hg, hzl, hl, gather_sum r.R r.igr fun i hi => by rw [hr.R]; exact hr.igr i hi]
  rfl

/-! ### Optimal power flows -/

/-- **C119 (optimal power flows), partial.**  If only the reports of reserves and of DC lines are registered and both can be made, the results of an optimal power flow are printed with one section
for each registered report, in the order in which they were registered.  Missing for the full statement: interface limits (`C119_iflims`), DC lines out of service (`C119_dc_off`), power flows
(`C119_pf`). -/
theorem C119_opf_partial (user : ℕ → State → Option State) (o : PrintOpt) (reg : Userfcn.Reg Fcn A) (hr : ∀ p ∈ callbacks reg "printpf", p.1 = .resPrint ∨ p.1 = .dcPrint) (s : State)
    {dc : List DcLine} {ms : Option (List Mu)} {d : DcReport} (hdc : s.dc = some (dc, ms)) (hd : dcPrint o dc ms = some d) {r : ResData} {rep : Option ResReport} (hres : s.res = some r)
    (hrep : resPrint o r = some rep) :
    printTail user o true reg s = some { s with out := s.out ++ (callbacks reg "printpf").map fun p => if p.1 = .resPrint then .res rep else .dc d } := by
  have key : ∀ (l : List (Fcn × List A)) (s : State), (∀ p ∈ l, p.1 = .resPrint ∨ p.1 = .dcPrint) → s.dc = some (dc, ms) → s.res = some r →
      chain (fun f s a => (calls user).call4 f s () o a) l s = some { s with out := s.out ++ l.map fun p => if p.1 = .resPrint then .res rep else .dc d } := by
    intro l
    induction l with
    | nil => intro s _ _ _; simp [chain]
    | cons p l ih =>
      intro s hl h1 h2
      unfold chain
      rcases hl p List.mem_cons_self with hp | hp
      · have : (calls user).call4 p.1 s () o p.2 = some { s with out := s.out ++ [Section.res rep] } := by
          rw [hp]
          show (s.res.bind fun p => (resPrint o p).map fun r => { s with out := s.out ++ [Section.res r] }) = _
          rw [h2, Option.bind_some, hrep]; rfl
        rw [this]
        refine (ih { s with out := s.out ++ [Section.res rep] } (fun q hq => hl q (List.mem_cons_of_mem _ hq)) h1 h2).trans ?_
        simp [hp]
      · have : (calls user).call4 p.1 s () o p.2 = some { s with out := s.out ++ [Section.dc d] } := by
          rw [hp]
          show (s.dc.bind fun p => (dcPrint o p.1 p.2).map fun r => { s with out := s.out ++ [Section.dc r] }) = _
          rw [h1, Option.bind_some]
          dsimp only
          rw [hd]; rfl
        rw [this]
        refine (ih { s with out := s.out ++ [Section.dc d] } (fun q hq => hl q (List.mem_cons_of_mem _ hq)) h1 h2).trans ?_
        simp [hp]
  cases reg with
  | none => simp [printTail, callbacks]
  | some g =>
    unfold printTail
    dsimp only
    rw [if_pos rfl, Option.bind_some, Userfcn.C46_run_print _ g "printpf" (by simp), key _ s hr hdc hres]

/-! ### Saving -/

/-- **C119 (saving).**  With reserves, interface limits or DC lines switched on, and their data there, the case cannot be saved to a Python file. -/
theorem C119_save {user : ℕ → State → Option State} (hu : Leaves user) (o : PrintOpt) {reg : Userfcn.Reg Fcn A} {f : Fcn} (hf : f = .resSave ∨ f = .ifSave ∨ f = .dcSave)
    (hr : Registered reg "savecase" f) (s : State) (text : String) : saveTail user o reg s text = none := by
  obtain ⟨p, hp, rfl⟩ := hr
  cases reg with
  | none => cases hp
  | some d =>
    unfold saveTail
    dsimp only
    rw [Userfcn.C46_run_print _ d "savecase" (by simp), chain_none hu hp]
    · rfl
    · intro s' _ _ _
      rcases hf with hf | hf | hf <;> rw [hf]
      · show (s'.res.bind fun _ => resSave.map fun _ => s') = none
        cases s'.res <;> rfl
      · show (s'.lims.bind fun p => (ifSave p.2).map fun _ => s') = none
        have : ∀ m, ifSave m = none := by
          intro m
          unfold ifSave percent
          cases convert .d (.table (m.map fun r => [(r.1 : ℝ), (r.2 : ℝ)])) <;> rfl
        cases s'.lims with
        | none => rfl
        | some q => rw [Option.bind_some, this]; rfl
      · show (s'.dc.bind fun p => (dcSave p.1).map fun _ => s') = none
        cases s'.dc <;> rfl

/-- **C119 (saving, switched on).**  In particular after `toggle_reserves`, `toggle_iflims` or `toggle_dcline`, whatever was registered before. -/
theorem C119_save_on {user : ℕ → State → Option State} (hu : Leaves user) (o : PrintOpt) (k : Userfcn.Checks) (x : Userfcn.Ext Fcn) (hx : x = reserves ∨ x = iflims ∨ x = dcline)
    (r r' : Userfcn.Reg Fcn A) (h : Userfcn.turnOn k x r = some r') (s : State) (text : String) : saveTail user o r' s text = none := by
  have hk : k.pass = true := by
    by_contra hk
    unfold Userfcn.turnOn at h
    rw [if_neg hk] at h
    cases h
  obtain ⟨r'', h1, h2⟩ := Userfcn.C47_on k hk x r
  obtain rfl : r'' = r' := by rw [h1] at h; exact Option.some.inj h
  refine C119_save hu o (f := x.savecase) (by rcases hx with rfl | rfl | rfl <;> simp [reserves, iflims, dcline]) ⟨(x.savecase, []), ?_, rfl⟩ s text
  rw [h2, List.mem_append]
  right
  simp [Userfcn.Ext.at]

/-- **C119 (saving, nothing registered).**  Without callbacks at this stage the file ends with `return ppc`. -/
theorem C119_save_off (user : ℕ → State → Option State) (o : PrintOpt) (reg : Userfcn.Reg Fcn A) (hr : callbacks reg "savecase" = []) (s : State) (text : String) :
    saveTail user o reg s text = some (text ++ "\n    return ppc\n") := by
  cases reg with
  | none => rfl
  | some d =>
    unfold saveTail
    dsimp only
    rw [Userfcn.C46_run_print _ d "savecase" (by simp), hr]
    rfl

end Verif.ExtReport
