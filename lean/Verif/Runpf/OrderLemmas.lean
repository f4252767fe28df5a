import Verif.Runpf.TableDc
import Verif.Opf.RentProps
import Verif.Runpf.OrderSpec

/-! Lemmas for C132: the DC power flow of a case as equations on its tables, and their uniqueness. -/

namespace Verif.Runpf

open Verif.Index (BusRow GenRow BranchRow IsArgsort WF GenInService BranchInService Connected HasBus)
open Verif.Opf (Tables BusD GenD BrD asBranch genAt fromAt toAt dcBalance onSum sum_swap sum_filter_if sum_map_sub' pick)
open Verif.Network

noncomputable section
open Classical

/-- Flow out of bus number `n` over the branches in service. -/
def netOut (c : Index.Case Tables) (θ : ℕ → ℝ) (n : ℕ) : ℝ :=
  onSum c fun l => ((if l.f = n then 1 else 0) - (if l.t = n then 1 else 0)) * dcFlow (asBranch l) θ

/-- The angle difference weighted by susceptances. -/
theorem net_energy {c : Index.Case Tables} (hnd : (c.bus.map BusRow.num).Nodup) (hind : Inductive c) (θ1 θ2 : ℕ → ℝ) :
    (c.bus.map fun b => (if b.typ = 4 then 0 else θ1 b.num - θ2 b.num) * (netOut c θ1 b.num - netOut c θ2 b.num)).sum =
      onSum c fun l => ((θ1 l.f - θ2 l.f) - (θ1 l.t - θ2 l.t)) ^ 2 / (l.data.x * (if l.data.tap = 0 then 1 else l.data.tap)) := by
  set a : BusRow BusD → ℝ := fun b => if b.typ = 4 then 0 else θ1 b.num - θ2 b.num with ha
  have hend : ∀ n, Connected c n → (c.bus.map fun b => a b * if n = b.num then 1 else 0).sum = θ1 n - θ2 n := by
    rintro n ⟨b, hbm, rfl, ht⟩
    rw [pick _ hnd b hbm a]
    simp only [a, if_neg ht]
  have e : ∀ b : BusRow BusD, a b * (netOut c θ1 b.num - netOut c θ2 b.num) = (c.branch.map fun l => if BranchInService c l then
      a b * (((if l.f = b.num then 1 else 0) - (if l.t = b.num then 1 else 0)) * (dcFlow (asBranch l) θ1 - dcFlow (asBranch l) θ2)) else 0).sum := by
    intro b
    unfold netOut onSum
    rw [sum_map_sub', ← List.sum_map_mul_left]
    refine congrArg List.sum (List.map_congr_left fun l _ => ?_)
    by_cases hon : BranchInService c l
    · simp only [if_pos hon]
      ring
    · simp [hon]
  rw [show (fun b : BusRow BusD => (if b.typ = 4 then 0 else θ1 b.num - θ2 b.num) * (netOut c θ1 b.num - netOut c θ2 b.num)) = fun b => _ from funext e, sum_swap]
  unfold onSum
  refine congrArg List.sum (List.map_congr_left fun l hl => ?_)
  by_cases hon : BranchInService c l
  · simp only [if_pos hon]
    obtain ⟨h1, h2, h3⟩ := hind l hl hon
    have hD : dcFlow (asBranch l) θ1 - dcFlow (asBranch l) θ2 = ((θ1 l.f - θ2 l.f) - (θ1 l.t - θ2 l.t)) / (l.data.x * (if l.data.tap = 0 then 1 else l.data.tap)) := by
      unfold dcFlow asBranch
      simp only [h1, Int.cast_one, one_ne_zero, if_false]
      ring
    rw [hD]
    have e2 := hend _ hon.2.1
    have e3 := hend _ hon.2.2
    have : (c.bus.map fun b => a b * (((if l.f = b.num then 1 else 0) - (if l.t = b.num then 1 else 0)) *
        (((θ1 l.f - θ2 l.f) - (θ1 l.t - θ2 l.t)) / (l.data.x * (if l.data.tap = 0 then 1 else l.data.tap))))).sum =
        ((c.bus.map fun b => a b * if l.f = b.num then 1 else 0).sum - (c.bus.map fun b => a b * if l.t = b.num then 1 else 0).sum) *
        (((θ1 l.f - θ2 l.f) - (θ1 l.t - θ2 l.t)) / (l.data.x * (if l.data.tap = 0 then 1 else l.data.tap))) := by
      rw [sum_map_sub', ← List.sum_map_mul_right]
      refine congrArg List.sum (List.map_congr_left fun b _ => ?_)
      ring
    rw [this, e2, e3]
    ring
  · simp [hon]

/-- Angles are determined by the flows out of the buses other than slack buses. -/
theorem net_unique {c : Index.Case Tables} (hnd : (c.bus.map BusRow.num).Nodup) (hind : Inductive c) (htied : Tied c) (θ1 θ2 : ℕ → ℝ)
    (hslack : ∀ (i : ℕ) b, c.bus[i]? = some b → IsSlack c i → θ1 b.num = θ2 b.num)
    (hnet : ∀ (i : ℕ) b, c.bus[i]? = some b → b.typ ≠ 4 → ¬ IsSlack c i → netOut c θ1 b.num = netOut c θ2 b.num) :
    ∀ b ∈ c.bus, b.typ ≠ 4 → θ1 b.num = θ2 b.num := by
  have hz : (c.bus.map fun b => (if b.typ = 4 then 0 else θ1 b.num - θ2 b.num) * (netOut c θ1 b.num - netOut c θ2 b.num)).sum = 0 := by
    refine List.sum_eq_zero fun x hx => ?_
    obtain ⟨b, hb, rfl⟩ := List.mem_map.1 hx
    obtain ⟨i, hi⟩ := List.getElem?_of_mem hb
    split_ifs with h4
    · simp
    · by_cases hs : IsSlack c i
      · rw [hslack i b hi hs]; simp
      · rw [hnet i b hi h4 hs]; simp
  rw [net_energy hnd hind] at hz
  unfold onSum at hz
  have hnn : ∀ l ∈ c.branch, BranchInService c l → 0 < l.data.x * (if l.data.tap = 0 then 1 else l.data.tap) := by
    intro l hl hon
    obtain ⟨h1, h2, h3⟩ := hind l hl hon
    refine mul_pos h2 ?_
    split_ifs with h
    · exact one_pos
    · exact lt_of_le_of_ne h3 (Ne.symm h)
  have hall : ∀ x ∈ (c.branch.map fun l => if BranchInService c l then
      ((θ1 l.f - θ2 l.f) - (θ1 l.t - θ2 l.t)) ^ 2 / (l.data.x * (if l.data.tap = 0 then 1 else l.data.tap)) else 0), x = 0 := by
    refine fun x hx => List.all_zero_of_le_zero_le_of_sum_eq_zero ?_ hz hx
    intro x hx
    obtain ⟨l, hl, rfl⟩ := List.mem_map.1 hx
    by_cases hon : BranchInService c l
    · simp only [if_pos hon]
      exact div_nonneg (sq_nonneg _) (hnn l hl hon).le
    · simp only [if_neg hon, le_refl]
  have hstep : ∀ m n, JoinedOn c m n → θ1 m - θ2 m = θ1 n - θ2 n := by
    rintro m n ⟨l, hl, hon, hmn⟩
    have := hall _ (List.mem_map.2 ⟨l, hl, rfl⟩)
    dsimp only at this
    rw [if_pos hon, div_eq_zero_iff] at this
    have h0 : (θ1 l.f - θ2 l.f) - (θ1 l.t - θ2 l.t) = 0 := by
      rcases this with h | h
      · exact pow_eq_zero_iff (two_ne_zero) |>.1 h
      · exact absurd h (hnn l hl hon).ne'
    rcases hmn with ⟨rfl, rfl⟩ | ⟨rfl, rfl⟩ <;> linarith
  intro b hb h4
  obtain ⟨i, s, hs, hsl, hpath⟩ := htied b hb h4
  have h0 := hslack i s hs hsl
  have : ∀ n, Relation.ReflTransGen (JoinedOn c) s.num n → θ1 n - θ2 n = 0 := by
    intro n hn
    induction hn with
    | refl => rw [h0, sub_self]
    | tail _ hj ih => rw [← hstep _ _ hj]; exact ih
  exact sub_eq_zero.1 (this _ hpath)

/-! ### A run as equations on the tables -/

/-- A row of results at the angles `θ` (radians, by bus number). -/
def busAt (θ : ℕ → ℝ) (b : BusRow BusD) : BusRow BusD := if b.typ = 4 then b else { b with data := { b.data with VM := 1, VA := θ b.num * (180 / Real.pi) } }
def brAt (base : ℝ) (c : Index.Case Tables) (θ : ℕ → ℝ) (l : BranchRow BrD) : BranchRow BrD :=
  if BranchInService c l then { l with data := { l.data with PF := base * dcFlow (asBranch l) θ, PT := -(base * dcFlow (asBranch l) θ), QF := 0, QT := 0 } }
  else { l with data := { l.data with PF := 0, QF := 0, PT := 0, QT := 0 } }

theorem brd_eq {d d0 : BrD} {P Q P' Q' : ℝ} (h1 : d.PF = P) (h2 : d.QF = Q) (h3 : d.PT = P') (h4 : d.QT = Q') (h5 : d.r = d0.r) (h6 : d.x = d0.x)
    (h7 : d.b = d0.b) (h8 : d.rateA = d0.rateA) (h9 : d.tap = d0.tap) (h10 : d.shift = d0.shift) (h11 : d.MU_SF = d0.MU_SF) (h12 : d.MU_ST = d0.MU_ST)
    (h13 : d.MU_ANGMIN = d0.MU_ANGMIN) (h14 : d.MU_ANGMAX = d0.MU_ANGMAX) (h15 : d.rest = d0.rest) : d = { d0 with PF := P, QF := Q, PT := P', QT := Q' } := by
  cases d; cases d0; simp_all

/-- A generator row of results when each bus has at most one generator in service: `P` is the output of each bus. -/
def genRow (c : Index.Case Tables) (P : ℕ → ℝ) (g : GenRow GenD) : GenRow GenD :=
  if GenInService c g then { g with data := { g.data with PG := P g.bus } } else { g with data := { g.data with PG := 0, QG := 0 } }

theorem genRow_on {c : Index.Case Tables} {P : ℕ → ℝ} {g : GenRow GenD} (h : GenInService c g) : genRow c P g = { g with data := { g.data with PG := P g.bus } } := if_pos h
theorem genRow_off {c : Index.Case Tables} {P : ℕ → ℝ} {g : GenRow GenD} (h : ¬ GenInService c g) : genRow c P g = { g with data := { g.data with PG := 0, QG := 0 } } := if_neg h

/-- `R` is the result of a DC power flow of `c` with angles `θ`. -/
structure DcSol (base : ℝ) (c R : Index.Case Tables) (θ : ℕ → ℝ) : Prop where
  bus : R.bus = c.bus.map (busAt θ)
  branch : R.branch = c.branch.map (brAt base c θ)
  slack : ∀ (i : ℕ) b, c.bus[i]? = some b → IsSlack c i → θ b.num = b.data.VA * (Real.pi / 180)
  net : ∀ b ∈ c.bus, b.typ ≠ 4 → base * netOut c θ b.num = genAt R b.num GenD.PG - b.data.PD - b.data.GS
  gen : ∀ (i : ℕ) b, c.bus[i]? = some b → ¬ IsSlack c i → genAt R b.num GenD.PG = genOnAt c b.num GenD.PG
  gens : OnePerBus c → R.gen = c.gen.map (genRow c fun n => genAt R n GenD.PG)

section
variable {srt : List ℕ → List ℕ} (hs : IsArgsort srt) {base : ℝ} (hb : base ≠ 0) {lib : DcLib} (hlib : Solves lib) {c : Index.Case Tables} (h : WF c)
  {ok : Bool} {R : Index.Case Tables} (hrun : runpfDc srt base lib c = some ⟨ok, some R⟩) (hind : Inductive c) (htied : Tied c)
include hs hb hlib h hrun hind htied

theorem dc_sol (hst : ∀ l ∈ c.branch, l.status = 0 ∨ l.status = 1) : ∃ θ, DcSol base c R θ := by
  obtain ⟨nb, ng, nl, p, Va, PG, bp, gp, lp, B, hVa, hPG⟩ := dc_bridge hs h hrun
  obtain ⟨d, D, hbase, hbus, hva, hbr, hgen⟩ := B.bridge
  obtain ⟨-, hbal, hsl⟩ := C87_dc hs hb hlib h hrun hind htied
  obtain ⟨⟨sg, hdisp⟩, -⟩ := C87_dc_dispatch hs h hrun
  have hnd : (R.bus.map BusRow.num).Nodup := by rw [D.nums]; exact h.busNodup
  obtain ⟨θ, hθ⟩ : ∃ θ : ℕ → ℝ, ∀ b ∈ R.bus, θ b.num = b.data.VA * (Real.pi / 180) := by
    refine ⟨fun n => if hn : ∃ b ∈ R.bus, b.num = n then (choose hn).data.VA * (Real.pi / 180) else 0, fun b hbm => ?_⟩
    have hn : ∃ b' ∈ R.bus, b'.num = b.num := ⟨b, hbm, rfl⟩
    simp only [dif_pos hn]
    rw [List.inj_on_of_nodup_map hnd (choose_spec hn).1 hbm (choose_spec hn).2]
  have hfl := C87_dc_flows hs h hrun hst θ hθ
  have hpi := Real.pi_ne_zero
  have hB : R.bus = c.bus.map (busAt θ) := by
    refine List.ext_getElem (by simp [D.busLen]) fun i h1 h2 => ?_
    have h0 := List.getElem?_eq_getElem h1
    obtain ⟨b0, e1, e2, e3, e4, e5⟩ := D.bus_at h0
    obtain ⟨h3, rfl⟩ := List.getElem?_eq_some_iff.1 e1
    rw [List.getElem_map]
    unfold busAt
    split_ifs with h4
    · exact e5 h4
    · have e6 := hθ _ (List.mem_of_getElem? h0)
      rw [e2] at e6
      obtain ⟨k, -, ek⟩ := e4 h4
      rw [e6, ek]
      have : (dcUpd p Va PG).bus k c.bus[i].data = { c.bus[i].data with VM := 1, VA := Va k * (180 / Real.pi) } := rfl
      rw [this]
      dsimp only
      congr 2
      field_simp
  have hon : ∀ l0 l : BranchRow BrD, l.f = l0.f → l.t = l0.t → l.status = l0.status → (BranchInService R l ↔ BranchInService c l0) := by
    intro l0 l h1 h2 h3
    unfold BranchInService
    rw [h1, h2, h3, D.connected, D.connected]
  have hL : R.branch = c.branch.map (brAt base c θ) := by
    refine List.ext_getElem (by simp [D.brLen]) fun i h1 h2 => ?_
    have hi : i < c.branch.length := by rw [← D.brLen]; exact h1
    have h0 := List.getElem?_eq_getElem hi
    rw [List.getElem_map]
    unfold brAt
    by_cases hin : BranchInService c c.branch[i]
    · rw [if_pos hin]
      obtain ⟨k, rfl⟩ := D.brOn i _ h0 hin
      obtain ⟨l, e1, -, e2, -⟩ := D.branch k
      rw [h0] at e1
      injection e1 with e1
      rw [← e1] at e2
      have hmem := List.mem_of_getElem? e2
      obtain ⟨f1, f2, f3, f4⟩ := hfl _ hmem ((hon c.branch[lp k] _ rfl rfl rfl).2 hin)
      have e3 : R.branch[lp k] = _ := (List.getElem?_eq_some_iff.1 e2).2
      rw [e3]
      rw [f1] at f2
      dsimp only at f1 f2 f3 f4
      have e5 := brd_eq (d0 := c.branch[lp k].data) f1 f3 f2 f4 rfl rfl rfl rfl rfl rfl rfl rfl rfl rfl rfl
      rw [e5]
      rfl
    · rw [if_neg hin]
      have := D.brOff i _ h0 hin
      exact (List.getElem?_eq_some_iff.1 this).2
  refine ⟨θ, hB, hL, ?_, ?_, ?_, ?_⟩
  · intro i b hi hsi
    obtain ⟨h1, rfl⟩ := List.getElem?_eq_some_iff.1 hi
    have h2 : i < R.bus.length := by rw [D.busLen]; exact h1
    have h3 := List.getElem?_eq_getElem h2
    have e := hsl i _ _ h3 hi hsi
    have e2 := hθ _ (List.mem_of_getElem? h3)
    obtain ⟨b0, e3, e4, -⟩ := D.bus_at h3
    rw [hi] at e3; cases e3
    rw [← e4, e2, e]
  · intro b hbm h4
    have hm : busAt θ b ∈ R.bus := by rw [hB]; exact List.mem_map_of_mem hbm
    have e : busAt θ b = { b with data := { b.data with VM := 1, VA := θ b.num * (180 / Real.pi) } } := if_neg h4
    rw [e] at hm
    have := (hbal _ hm h4).1
    have hnet : fromAt R b.num BrD.PF + toAt R b.num BrD.PT = base * netOut c θ b.num := by
      unfold fromAt toAt netOut onSum
      rw [hL, sum_filter_if, sum_filter_if, List.map_map, List.map_map, ← List.sum_map_add, ← List.sum_map_mul_left]
      refine congrArg List.sum (List.map_congr_left fun l _ => ?_)
      simp only [Function.comp, brAt]
      by_cases hin : BranchInService c l
      · simp only [if_pos hin, beq_iff_eq]
        ring
      · simp only [if_neg hin]
        ring
    unfold dcBalance at this
    dsimp only at this
    linarith
  · intro i b hi hns
    unfold genAt genOnAt
    rw [sum_filter_if, sum_filter_if]
    refine congrArg List.sum (List.ext_getElem (by simp [D.genLen]) fun j h1 h2 => ?_)
    rw [List.getElem_map, List.getElem_map]
    have hj : j < R.gen.length := by simpa using h1
    have hg := List.getElem?_eq_getElem hj
    obtain ⟨g0, e1, e2, e3, e4, e5⟩ := D.gen_at hg
    obtain ⟨h3, rfl⟩ := List.getElem?_eq_some_iff.1 e1
    by_cases hin : GenInService c c.gen[j]
    · rw [e2]
      by_cases hbn : c.gen[j].bus = b.num
      · have : R.gen[j].data.PG = c.gen[j].data.PG := by
          by_contra hne
          obtain ⟨i', b', f1, f2, f3, -⟩ := hdisp j _ _ hg e1 hin hne
          have : b' = b := List.inj_on_of_nodup_map h.busNodup (List.mem_of_getElem? f1) (List.mem_of_getElem? hi) (f3.trans hbn)
          subst this
          obtain ⟨g1, g2⟩ := List.getElem?_eq_some_iff.1 f1
          obtain ⟨g3, g4⟩ := List.getElem?_eq_some_iff.1 hi
          have hnd' : c.bus.Nodup := List.Nodup.of_map _ h.busNodup
          have : i' = i := (hnd'.getElem_inj_iff).1 (g2.trans g4.symm)
          subst this
          exact hns f2
        rw [this]
        simp [hbn, hin]
      · simp [hbn]
    · have e6 := e5 hin
      have e7 : R.gen[j].data.PG = 0 := by rw [e6]; rfl
      rw [e7]
      simp [hin]
  · intro hone
    refine List.ext_getElem (by simp [D.genLen]) fun j h1 h2 => ?_
    rw [List.getElem_map]
    have hg := List.getElem?_eq_getElem h1
    obtain ⟨g0, e1, e2, e3, e4, e5⟩ := D.gen_at hg
    obtain ⟨h3, rfl⟩ := List.getElem?_eq_some_iff.1 e1
    by_cases hin : GenInService c c.gen[j]
    · rw [genRow_on hin]
      obtain ⟨k, -, e6⟩ := e4 hin
      have e7 : genAt R c.gen[j].bus GenD.PG = R.gen[j].data.PG := by
        unfold genAt
        rw [sum_filter_if, ← Fin.sum_univ_fun_getElem, Finset.sum_eq_single (⟨j, h1⟩ : Fin R.gen.length)]
        · simp [e2]
        · rintro ⟨m, hm⟩ - hne
          have hne' : m ≠ j := fun h => hne (Fin.ext h)
          obtain ⟨g1, q1, q2, q3, q4, q5⟩ := D.gen_at (List.getElem?_eq_getElem hm)
          obtain ⟨h6, rfl⟩ := List.getElem?_eq_some_iff.1 q1
          dsimp only
          split_ifs with hb1
          · have hb2 : c.gen[m].bus = c.gen[j].bus := by rw [← q2]; exact beq_iff_eq.1 hb1
            by_cases hin' : GenInService c c.gen[m]
            · exfalso
              have hp := List.pairwise_iff_getElem.1 hone
              rcases Nat.lt_or_gt_of_ne hne' with hlt | hlt
              · exact hp m j h6 h3 hlt hin' hin hb2
              · exact hp j m h3 h6 hlt hin hin' hb2.symm
            · rw [q5 hin']; exact zero_mul _
          · exact mul_zero _
        · simp
      beta_reduce
      rw [e7]
      generalize R.gen[j] = x at e6 ⊢
      rw [e6]
      rfl
    · rw [genRow_off hin, e5 hin]
      rfl

end

/-! ### Reordering rows -/

section
variable {c1 c2 : Index.Case Tables} (r : Reordered c1 c2)
include r

theorem Reordered.symm : Reordered c2 c1 := ⟨r.bus.symm, r.gen.symm, r.branch.symm⟩

theorem Reordered.connected (n : ℕ) : Connected c2 n ↔ Connected c1 n := by
  simp only [Connected, r.bus.mem_iff]

theorem Reordered.genIn (g : GenRow GenD) : GenInService c2 g ↔ GenInService c1 g := by
  simp only [GenInService, r.connected]

theorem Reordered.brIn (l : BranchRow BrD) : BranchInService c2 l ↔ BranchInService c1 l := by
  simp only [BranchInService, r.connected]

theorem Reordered.hasGen (n : ℕ) : HasGenOn c2 n ↔ HasGenOn c1 n := by
  simp only [HasGenOn, r.gen.mem_iff, r.genIn]

theorem Reordered.one : OnePerBus c1 → OnePerBus c2 := by
  intro h
  have h' : c2.gen.Pairwise fun g g' => GenInService c1 g → GenInService c1 g' → g.bus ≠ g'.bus :=
    r.gen.symm.pairwise h fun {a b} hab h1 h2 h3 => hab h2 h1 h3.symm
  exact h'.imp fun {a b} hab h1 h2 => hab ((r.genIn a).1 h1) ((r.genIn b).1 h2)

theorem Reordered.genOnAt (n : ℕ) (f : GenD → ℝ) : Runpf.genOnAt c2 n f = Runpf.genOnAt c1 n f := by
  unfold Runpf.genOnAt
  have : (fun g : GenRow GenD => g.bus == n && @decide (GenInService c2 g) (dec _)) = fun g => g.bus == n && @decide (GenInService c1 g) (dec _) := by
    funext g
    congr 1
    exact decide_eq_decide.2 (r.genIn g)
  rw [this]
  exact ((r.gen.filter _).map _).sum_eq

theorem Reordered.netOut (θ : ℕ → ℝ) (n : ℕ) : Runpf.netOut c2 θ n = Runpf.netOut c1 θ n := by
  unfold Runpf.netOut onSum
  simp only [r.brIn]
  exact (r.branch.map _).sum_eq

end

/-- Slack buses when a REF bus has a generator in service. -/
theorem isSlack_iff {c : Index.Case Tables} (href : ∃ b ∈ c.bus, b.typ = 3 ∧ HasGenOn c b.num) {i : ℕ} {b : BusRow BusD} (hi : c.bus[i]? = some b) :
    IsSlack c i ↔ b.typ = 3 ∧ HasGenOn c b.num := by
  constructor
  · rintro ⟨b', h1, h2, h3⟩
    rw [hi] at h1; cases h1
    rcases h3 with h3 | ⟨-, h3, -⟩
    · exact ⟨h3, h2⟩
    · exact absurd href h3
  · rintro ⟨h1, h2⟩
    exact ⟨b, hi, h2, Or.inl h1⟩

theorem netOut_congr {c : Index.Case Tables} {θ1 θ2 : ℕ → ℝ} (h : ∀ b ∈ c.bus, b.typ ≠ 4 → θ1 b.num = θ2 b.num) (n : ℕ) : netOut c θ1 n = netOut c θ2 n := by
  unfold netOut onSum
  refine congrArg List.sum (List.map_congr_left fun l _ => ?_)
  by_cases hon : BranchInService c l
  · obtain ⟨-, ⟨b1, h1, h2, h3⟩, ⟨b2, h4, h5, h6⟩⟩ := id hon
    have e1 := h b1 h1 h3
    have e2 := h b2 h4 h6
    rw [h2] at e1; rw [h5] at e2
    simp only [if_pos hon]
    congr 1
    unfold dcFlow asBranch
    simp only [e1, e2]
  · simp [hon]

theorem brAt_congr {base : ℝ} {c1 c2 : Index.Case Tables} (r : Reordered c1 c2) {θ1 θ2 : ℕ → ℝ} (h : ∀ b ∈ c1.bus, b.typ ≠ 4 → θ1 b.num = θ2 b.num)
    (l : BranchRow BrD) : brAt base c2 θ2 l = brAt base c1 θ1 l := by
  unfold brAt
  by_cases hon : BranchInService c1 l
  · obtain ⟨-, ⟨b1, h1, h2, h3⟩, ⟨b2, h4, h5, h6⟩⟩ := id hon
    have e1 := h b1 h1 h3
    have e2 := h b2 h4 h6
    rw [h2] at e1; rw [h5] at e2
    have : dcFlow (asBranch l) θ2 = dcFlow (asBranch l) θ1 := by
      unfold dcFlow asBranch
      simp only [e1, e2]
    rw [if_pos hon, if_pos ((r.brIn l).2 hon), this]
  · rw [if_neg hon, if_neg fun h => hon ((r.brIn l).1 h)]

theorem sol_unique {base : ℝ} (hb : base ≠ 0) {c1 c2 R1 R2 : Index.Case Tables} (r : Reordered c1 c2) (hnd : (c1.bus.map BusRow.num).Nodup) (hind : Inductive c1)
    (htied : Tied c1) (href : ∃ b ∈ c1.bus, b.typ = 3 ∧ HasGenOn c1 b.num) {θ1 θ2 : ℕ → ℝ} (s1 : DcSol base c1 R1 θ1) (s2 : DcSol base c2 R2 θ2) :
    R2.bus.Perm R1.bus ∧ R2.branch.Perm R1.branch ∧ (∀ b ∈ c1.bus, genAt R2 b.num GenD.PG = genAt R1 b.num GenD.PG) ∧ (OnePerBus c1 → R2.gen.Perm R1.gen) := by
  have href2 : ∃ b ∈ c2.bus, b.typ = 3 ∧ HasGenOn c2 b.num := by
    obtain ⟨b, h1, h2, h3⟩ := href
    exact ⟨b, r.bus.mem_iff.2 h1, h2, (r.hasGen _).2 h3⟩
  have hslk : ∀ {i j : ℕ} {b}, c1.bus[i]? = some b → c2.bus[j]? = some b → (IsSlack c2 j ↔ IsSlack c1 i) := by
    intro i j b hi hj
    rw [isSlack_iff href hi, isSlack_iff href2 hj, r.hasGen]
  have hrow : ∀ {b}, b ∈ c1.bus → ∃ j : ℕ, c2.bus[j]? = some b := fun hbm => List.getElem?_of_mem (r.bus.mem_iff.2 hbm)
  have hgen : ∀ (i : ℕ) b, c1.bus[i]? = some b → ¬ IsSlack c1 i → genAt R2 b.num GenD.PG = genAt R1 b.num GenD.PG := by
    intro i b hi hns
    obtain ⟨j, hj⟩ := hrow (List.mem_of_getElem? hi)
    rw [s1.gen i b hi hns, s2.gen j b hj fun h => hns ((hslk hi hj).1 h), r.genOnAt]
  have hθ := net_unique hnd hind htied θ1 θ2
    (fun i b hi hsl => by
      obtain ⟨j, hj⟩ := hrow (List.mem_of_getElem? hi)
      rw [s1.slack i b hi hsl, s2.slack j b hj ((hslk hi hj).2 hsl)])
    (fun i b hi h4 hns => by
      have hm := List.mem_of_getElem? hi
      have e1 := s1.net b hm h4
      have e2 := s2.net b (r.bus.mem_iff.2 hm) h4
      rw [r.netOut, hgen i b hi hns] at e2
      exact mul_left_cancel₀ hb (e1.trans e2.symm))
  have hG : ∀ b ∈ c1.bus, genAt R2 b.num GenD.PG = genAt R1 b.num GenD.PG := by
    intro b hbm
    by_cases h4 : b.typ = 4
    · obtain ⟨i, hi⟩ := List.getElem?_of_mem hbm
      refine hgen i b hi fun h => ?_
      rw [isSlack_iff href hi, h4] at h
      exact absurd h.1 (by decide)
    · have e1 := s1.net b hbm h4
      have e2 := s2.net b (r.bus.mem_iff.2 hbm) h4
      rw [r.netOut, ← netOut_congr hθ] at e2
      linarith
  refine ⟨?_, ?_, hG, ?_⟩
  · rw [s1.bus, s2.bus]
    refine (r.bus.map _).trans ?_
    rw [List.map_congr_left (g := busAt θ1)]
    intro b hbm
    unfold busAt
    split_ifs with h4
    · rfl
    · rw [hθ b hbm h4]
  · rw [s1.branch, s2.branch]
    refine (r.branch.map _).trans ?_
    rw [List.map_congr_left fun l _ => brAt_congr r hθ l]
  · intro hone
    rw [s1.gens hone, s2.gens (r.one hone)]
    refine (r.gen.map _).trans ?_
    rw [List.map_congr_left (g := genRow c1 fun n => genAt R1 n GenD.PG)]
    intro g _
    by_cases hin : GenInService c1 g
    · rw [genRow_on hin, genRow_on ((r.genIn g).2 hin)]
      obtain ⟨-, b, h1, h2, -⟩ := hin
      have := hG b h1
      rw [h2] at this
      beta_reduce
      rw [this]
    · rw [genRow_off hin, genRow_off fun h => hin ((r.genIn g).1 h)]

end

end Verif.Runpf
