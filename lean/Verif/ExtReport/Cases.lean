import Verif.ExtReport.Props
import Verif.Printpf.Examples

/-!
# C119: cases that meet the hypotheses, and what is false
-/

namespace Verif.ExtReport

open Dcline (DcLine Mu)
open Printpf (PrintOpt)
open Userfcn (callbacks)

/-- A user without callbacks. -/
def exUser : ℕ → State → Option State := fun _ s => some s

theorem ex_leaves : Leaves exUser := by
  rintro n s s' h
  cases h
  exact ⟨rfl, rfl, rfl⟩

/-- All sections. -/
noncomputable def exOpt : PrintOpt := { Printpf.exAll with OUT_ALL := 1, OUT_ALL_LIM := 1 }

theorem ex_printed : ∃ p, Printpf.printpf Printpf.exArea exOpt false 100 Printpf.exTab = some p := by
  obtain ⟨t', rep, h, -⟩ := (Printpf.C95_partial (area := Printpf.exArea) (o := exOpt) (isOPF := false) (base := 100) Printpf.exTab_refs (by simp [Printpf.exTab]) (by simp [Printpf.exTab])
    (by simp [Printpf.exTab])).2 (by decide)
  exact ⟨_, h⟩

/-- **C119 (negation, printing).**  A power flow whose results are printed, but not any more once reserves were switched on and off again. -/
theorem C119_negation : ∃ (area : List ℝ → ℤ) (user : ℕ → State → Option State) (o : PrintOpt) (base : ℝ) (t : Index.Case Opf.Tables) (s : State) (r₁ r₂ : Userfcn.Reg Fcn Unit),
    Userfcn.turnOn (.reserves true) reserves none = some r₁ ∧ Userfcn.turnOff reserves r₁ = some r₂ ∧
      (printAll area user o false base t (none : Userfcn.Reg Fcn Unit) s).isSome ∧ printAll area user o false base t r₂ s = none := by
  obtain ⟨r1, r2, h1, h2, h3, h4⟩ := C119_left (A := Unit) Printpf.exArea exUser exOpt (by decide) 100 Printpf.exTab ⟨none, none, none, []⟩ (.reserves true) rfl reserves
  refine ⟨_, _, _, _, _, _, r1, r2, h1, h2, ?_, h3⟩
  obtain ⟨p, hp⟩ := ex_printed
  rw [h4, hp]
  rfl

/-- **C119 (negation, saving).**  Each of the three extensions can be switched on for a case that could be saved, and then it cannot be saved. -/
theorem C119_save_negation (x : Userfcn.Ext Fcn) (hx : x = reserves ∨ x = iflims ∨ x = dcline) : ∃ (k : Userfcn.Checks) (user : ℕ → State → Option State) (r : Userfcn.Reg Fcn Unit),
    Userfcn.turnOn k x none = some r ∧ ∀ o s text, (saveTail user o (none : Userfcn.Reg Fcn Unit) s text).isSome ∧ saveTail user o r s text = none := by
  obtain ⟨r, h, -⟩ := Userfcn.C47_on (A := Unit) (.reserves true) rfl x none
  exact ⟨_, exUser, r, h, fun o s text => ⟨rfl, C119_save_on ex_leaves o _ x hx none r h s text⟩⟩

/-- Two DC lines in service, the second at its limit. -/
noncomputable def exDc : List DcLine := [⟨1, 2, 1, 10, 9, 0, 0, 1, 1, 0, 50, 0, 0, 0, 0, 1, 0⟩, ⟨3, 2, 1, 20, 18, 0, 0, 1, 1, 0, 20, 0, 0, 0, 0, 0, 0.1⟩]
noncomputable def exMu : List Mu := [⟨0, 0, 0, 0, 0, 0⟩, ⟨0, 7, 0, 0, 0, 0⟩]

theorem exDc_on : ∀ d ∈ exDc, d.status ≠ 0 := by
  simp [exDc]

/-- They are printed, with a total loss of 3 MW. -/
example : ∃ r, dcPrint exOpt exDc (some exMu) = some r ∧ r.data.map Prod.snd = some 3 := by
  obtain ⟨r, h, hd, -⟩ := C119_dc_partial exOpt exDc exMu exDc_on
  refine ⟨r, h, ?_⟩
  rw [hd, if_pos (show exOpt.OUT_ALL = 1 ∨ exOpt.OUT_ALL = -1 ∧ exOpt.OUT_BRANCH = true from Or.inl rfl)]
  simp only [exDc, Option.map_some, List.map_cons, List.map_nil, List.sum_cons, List.sum_nil]
  norm_num

/-- One of them out of service. -/
example : ∃ dc : List DcLine, ∃ d ∈ dc, d.status = 0 := ⟨_, { exDc.headD ⟨1, 2, 1, 10, 9, 0, 0, 1, 1, 0, 50, 0, 0, 0, 0, 1, 0⟩ with status := 0 }, List.mem_singleton.2 rfl, rfl⟩

/-- Reserves of three generators, two of which provide them in two zones. -/
noncomputable def exRes : ResData where
  base := 100
  bus := [1, 2, 5]
  status := [1, 1, 0]
  igr := [0, 2]
  zones := [[1, 1, 1], [0, 0, 1]]
  req := [30, 10]
  R := [25, 0, 10]
  Rmin := [0, 0, 0]
  Rmax := [25, ⊤, 20]
  muL := [0, 0, 0]
  muU := [3, 0, 0]
  muPmax := [0, 0, 1]
  prc := [5, 0, 6]
  mu := [200, 0]
  totalcost := 100

theorem exRes_ok : ResOk 3 exRes := ⟨rfl, rfl, rfl, rfl, rfl, rfl, rfl, rfl, rfl, by simp [exRes], rfl, by simp [exRes], rfl⟩

/-- Their report: 35 MW in all. -/
example : ∃ rep, resPrint exOpt exRes = some (some rep) ∧ rep.total = 35 := by
  obtain ⟨rep, h, ht, -⟩ := C119_reserves exOpt (by decide) exRes_ok
  refine ⟨rep, h, ?_⟩
  rw [ht]
  simp only [exRes, List.map_cons, List.map_nil, List.sum_cons, List.sum_nil]
  norm_num

/-- Reserves and DC lines switched on: both reports are registered. -/
example : ∃ r₁ r₂ : Userfcn.Reg Fcn Unit, Userfcn.turnOn (.reserves true) reserves none = some r₁ ∧ Userfcn.turnOn (.dcline (some (17, [0, 1])) none) dcline r₁ = some r₂ ∧
    callbacks r₂ "printpf" = [(.resPrint, []), (.dcPrint, [])] := by
  obtain ⟨r1, h1, e1⟩ := Userfcn.C47_on (A := Unit) (.reserves true) rfl reserves none
  obtain ⟨r2, h2, e2⟩ := Userfcn.C47_on (A := Unit) (.dcline (some (17, [0, 1])) none) rfl dcline r1
  refine ⟨r1, r2, h1, h2, ?_⟩
  rw [e2, e1]
  rfl

/-- Interface limits switched on for one interface. -/
example : ∃ (r : Userfcn.Reg Fcn Unit) (lims : List Iflims.LimRow), Userfcn.turnOn (.iflims true) iflims none = some r ∧ Registered r "printpf" .ifPrint ∧ lims ≠ [] := by
  obtain ⟨r1, h1, e1⟩ := Userfcn.C47_on (A := Unit) (.iflims true) rfl iflims none
  refine ⟨r1, [(1, -10, 20)], h1, ⟨(.ifPrint, []), ?_, rfl⟩, by simp⟩
  rw [e1]
  simp [callbacks, Userfcn.Ext.at, iflims]

end Verif.ExtReport
