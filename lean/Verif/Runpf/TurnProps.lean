import Verif.Runpf.TurnLemmas
import Verif.Runpf.TableDc

/-!
# C136: the direction in which a branch is entered
-/

namespace Verif.Runpf

open Verif.Network Verif.Pfsoln Verif.Solvers
open Verif.Index (BusRow GenRow BranchRow IsArgsort WF GenInService BranchInService Connected posOf)
open Verif.Opf (Tables BusD GenD BrD Upd write zeroOff readCase bridge_at bridge_exists)

noncomputable section

theorem branch_eq {B : Type} {a b : Branch B} (h1 : b.f = a.f) (h2 : b.t = a.t) (h3 : b.r = a.r) (h4 : b.x = a.x) (h5 : b.b = a.b) (h6 : b.tap = a.tap) (h7 : b.shift = a.shift)
    (h8 : b.stat = a.stat) : b = a := by
  cases a; cases b; simp_all

section
variable {srt : List ℕ → List ℕ} (hs : IsArgsort srt) {base : ℝ} {c1 c2 : Index.Case Tables} (w1 : WF c1) (w2 : WF c2) (h : Turned c1 c2)

/-- Corresponding internal rows. -/
def pairUp {n m : ℕ} (e : n = m) : Fin n ≃ Fin m := finCongr e

include h in
theorem Turned.rows {c' : Index.Case Tables} (hbr : c'.branch = Index.brI c1) {ar gc A N o}
    {d : Opf.Case c'.bus.length c'.gen.length c'.branch.length} (hd : readCase base c' = some d)
    {d2 : Opf.Case c'.bus.length c'.gen.length (Index.brI c2).length}
    (hd2 : readCase base { c' with branch := Index.brI c2, areas := ar, gencost := gc, A := A, N := N, order := o } = some d2)
    (e : c'.branch.length = (Index.brI c2).length) (k : Fin c'.branch.length) :
    ∃ i l1 l2, (posOf srt c1 .branch)[(k : ℕ)]? = some i ∧ c1.branch[i]? = some l1 ∧ c2.branch[i]? = some l2 ∧ (SameLine l1 l2 ∨ TurnedLine l1 l2) ∧
      (SameLine l1 l2 → d2.branch (pairUp e k) = d.branch k) ∧ (TurnedLine l1 l2 → Turn (d.branch k) (d2.branch (pairUp e k))) ∧
      (ratio l1.data = 1 → tapRatio (d.branch k) = 1) := by
  obtain ⟨-, -, hf1, hf2⟩ := readPf_with hd hd2
  have hk : (k : ℕ) < (NumPy.find (c1.branch.map (Index.brK c1.bus))).length := by
    rw [← brI_length, ← hbr]; exact k.isLt
  have hi := List.getElem?_eq_getElem hk
  obtain ⟨l1, e1, -⟩ := Index.find_get_some hi
  obtain ⟨l2, e2, hl⟩ := h.at e1
  have r1 := brI_at hi e1
  have r2 := brI_at (c := c2) (by rw [h.mask]; exact hi) e2
  have x1 : c'.branch[(k : ℕ)]? = some c'.branch[k] := List.getElem?_eq_getElem k.isLt
  have x2 : (Index.brI c2)[(k : ℕ)]? = some (Index.brI c2)[pairUp e k] := List.getElem?_eq_getElem (pairUp e k).isLt
  have y1 : c'.branch[(k : ℕ)]? = (Index.brI c1)[(k : ℕ)]? := congrArg (fun l => l[(k : ℕ)]?) hbr
  have q1 := Option.some.inj (x1.symm.trans (y1.trans r1))
  have q2 := Option.some.inj (x2.symm.trans r2)
  obtain ⟨a1, a2, a3, a4, a5, a6, a7, a8⟩ := hf1 k
  obtain ⟨b1, b2, b3, b4, b5, b6, b7, b8⟩ := hf2 (pairUp e k)
  rw [q1] at a1 a2 a3 a4 a5 a6 a7 a8
  rw [q2] at b1 b2 b3 b4 b5 b6 b7 b8
  have t1 : tapRatio (d.branch k) = ratio l1.data := by unfold tapRatio ratio; rw [a6]
  have t2 : tapRatio (d2.branch (pairUp e k)) = ratio l2.data := by unfold tapRatio ratio; rw [b6]
  rw [h.i2e] at b1 b2
  refine ⟨_, l1, l2, hi, e1, e2, hl, fun hsl => ?_, fun htl => ?_, fun h1 => t1.trans h1⟩
  · refine branch_eq (Fin.ext ?_) (Fin.ext ?_) ?_ ?_ ?_ ?_ ?_ ?_
    · rw [b1, a1]; simp only [hsl.f]
    · rw [b2, a2]; simp only [hsl.t]
    · rw [b3, a3]; exact hsl.r
    · rw [b4, a4]; exact hsl.x
    · rw [b5, a5]; exact hsl.b
    · rw [b6, a6]; exact hsl.tap
    · rw [b7, a7]; exact hsl.shift
    · rw [b8, a8]; simp only [hsl.status]
  · refine ⟨Fin.ext ?_, Fin.ext ?_, ?_, ?_, ?_, ?_, ?_, ?_⟩
    · rw [b1, a2]; simp only [htl.f]
    · rw [b2, a1]; simp only [htl.t]
    · rw [b3, a3, t1]; exact htl.r
    · rw [b4, a4, t1]; exact htl.x
    · rw [b5, a5, t1]; exact htl.b
    · rw [t1, t2]; exact htl.tap
    · rw [b7, a7]; exact htl.shift
    · rw [b8, a8]; simp only [htl.status]

include hs w1 w2 h

/-- The results of the two internal cases, put back. -/
theorem Turned.results {c' : Index.Case Tables} (he1 : Index.ext2int srt c1 = some c') (hbr : c'.branch = Index.brI c1) {ar gc A N o}
    (he2 : Index.ext2int srt c2 = some { c' with branch := Index.brI c2, areas := ar, gencost := gc, A := A, N := N, order := o })
    {d : Opf.Case c'.bus.length c'.gen.length c'.branch.length} (hd : readCase base c' = some d)
    {d2 : Opf.Case c'.bus.length c'.gen.length (Index.brI c2).length}
    (hd2 : readCase base { c' with branch := Index.brI c2, areas := ar, gencost := gc, A := A, N := N, order := o } = some d2)
    (e : c'.branch.length = (Index.brI c2).length)
    (u1 : Upd c'.bus.length c'.gen.length c'.branch.length) (u2 : Upd c'.bus.length c'.gen.length (Index.brI c2).length)
    (hub : u2.bus = u1.bus) (hug : u2.gen = u1.gen)
    (hsame : ∀ k x y, d2.branch (pairUp e k) = d.branch k → (u2.branch (pairUp e k) y).PF = (u1.branch k x).PF ∧ (u2.branch (pairUp e k) y).QF = (u1.branch k x).QF ∧
      (u2.branch (pairUp e k) y).PT = (u1.branch k x).PT ∧ (u2.branch (pairUp e k) y).QT = (u1.branch k x).QT)
    (hturn : ∀ k x y, Turn (d.branch k) (d2.branch (pairUp e k)) → (u2.branch (pairUp e k) y).PF = (u1.branch k x).PT ∧ (u2.branch (pairUp e k) y).QF = (u1.branch k x).QT ∧
      (u2.branch (pairUp e k) y).PT = (u1.branch k x).PF ∧ (u2.branch (pairUp e k) y).QT = (u1.branch k x).QF)
    {r1 r2 : Index.Case Tables} (hr1 : Index.int2ext (write c' u1) = some r1)
    (hr2 : Index.int2ext (write { c' with branch := Index.brI c2, areas := ar, gencost := gc, A := A, N := N, order := o } u2) = some r2) :
    SameFlows c1 c2 (zeroOff pfOff r1) (zeroOff pfOff r2) := by
  obtain ⟨bp1, gp1, lp1, B1, -, -, -, -, -, pb1, pg1, pl1⟩ := bridge_at hs w1 he1 hd u1 hr1 pfOff
  obtain ⟨bp2, gp2, lp2, B2, -, -, -, -, -, pb2, pg2, pl2⟩ := bridge_at hs w2 he2 hd2 u2 hr2 pfOff
  have pb : posOf srt c2 .bus = posOf srt c1 .bus := by simp only [posOf, h.bus]
  have hg : Index.genU c2 = Index.genU c1 := by unfold Index.genU; rw [h.gen, h.bus, h.i2e]
  have pg : posOf srt c2 .gen = posOf srt c1 .gen := by simp only [posOf, h.bus, h.gen, hg]
  have pl : posOf srt c2 .branch = posOf srt c1 .branch := by simp only [posOf, h.mask]
  have ebp : ∀ k, bp2 k = bp1 k := by
    intro k
    have q1 := pb1 k
    have q2 := pb2 k
    rw [pb] at q2
    exact Option.some.inj (q2.symm.trans q1)
  have egp : ∀ k, gp2 k = gp1 k := by
    intro k
    have q1 := pg1 k
    have q2 := pg2 k
    rw [pg] at q2
    exact Option.some.inj (q2.symm.trans q1)
  have elp : ∀ k, lp2 (pairUp e k) = lp1 k := by
    intro k
    have q1 := pl1 k
    have q2 := pl2 (pairUp e k)
    rw [pl] at q2
    exact Option.some.inj (q2.symm.trans q1)
  have hgin : ∀ g, GenInService c2 g ↔ GenInService c1 g := by
    intro g; unfold Index.GenInService Index.Connected; rw [h.bus]
  -- both results at a row
  have key : ∀ (i : ℕ) l1 l2 q1 q2, c1.branch[i]? = some l1 → c2.branch[i]? = some l2 → (zeroOff pfOff r1).branch[i]? = some q1 → (zeroOff pfOff r2).branch[i]? = some q2 →
      (¬ BranchInService c1 l1 ∧ q1.data = pfOff.branch l1.data ∧ q2.data = pfOff.branch l2.data) ∨
      ∃ k, lp1 k = i ∧ q1.data = u1.branch k l1.data ∧ q2.data = u2.branch (pairUp e k) l2.data := by
    intro i l1 l2 q1 q2 e1 e2 e3 e4
    obtain ⟨l2', e2', hl⟩ := h.at e1
    rw [e2] at e2'; cases e2'
    have hon := SameLine.on h.bus hl
    by_cases hin : BranchInService c1 l1
    · right
      obtain ⟨k, hk⟩ := B1.brOn i l1 e1 hin
      obtain ⟨l, f1, -, f2, -⟩ := B1.branch k
      rw [hk, e1] at f1; cases f1
      rw [hk, e3] at f2
      obtain ⟨l', f3, -, f4, -⟩ := B2.branch (pairUp e k)
      rw [elp, hk, e2] at f3; cases f3
      rw [elp, hk, e4] at f4
      refine ⟨k, hk, ?_, ?_⟩
      · injection f2 with f2; rw [f2]
      · injection f4 with f4; rw [f4]
    · left
      have f1 := B1.brOff i l1 e1 hin
      have f2 := B2.brOff i l2 e2 (fun hc => hin (hon.1 hc))
      rw [e3] at f1
      rw [e4] at f2
      injection f1 with f1
      injection f2 with f2
      exact ⟨hin, by rw [f1], by rw [f2]⟩
  refine ⟨?_, ?_, ⟨B1.brLen, B2.brLen⟩, ?_, ?_⟩
  · refine List.ext_getElem? fun i => ?_
    cases hx : c1.bus[i]? with
    | none =>
      rw [List.getElem?_eq_none_iff] at hx
      rw [List.getElem?_eq_none_iff.2 (by rw [B2.busLen, h.bus]; exact hx), List.getElem?_eq_none_iff.2 (by rw [B1.busLen]; exact hx)]
    | some b =>
      have hx2 : c2.bus[i]? = some b := by rw [h.bus]; exact hx
      by_cases ht : b.typ = 4
      · rw [B1.busOff i b hx ht, B2.busOff i b hx2 ht]
      · obtain ⟨k, rfl⟩ := B1.busOn i b hx ht
        obtain ⟨b', e1, -, e2, -⟩ := B1.bus k
        rw [hx] at e1; cases e1
        obtain ⟨b', e3, -, e4, -⟩ := B2.bus k
        rw [ebp, hx2] at e3; cases e3
        rw [ebp] at e4
        rw [e2, e4, hub]
  · refine List.ext_getElem? fun i => ?_
    cases hx : c1.gen[i]? with
    | none =>
      rw [List.getElem?_eq_none_iff] at hx
      rw [List.getElem?_eq_none_iff.2 (by rw [B2.genLen, h.gen]; exact hx), List.getElem?_eq_none_iff.2 (by rw [B1.genLen]; exact hx)]
    | some g =>
      have hx2 : c2.gen[i]? = some g := by rw [h.gen]; exact hx
      by_cases hin : GenInService c1 g
      · obtain ⟨k, rfl⟩ := B1.genOn i g hx hin
        obtain ⟨b', e1, -, e2, -⟩ := B1.gen k
        rw [hx] at e1; cases e1
        obtain ⟨b', e3, -, e4, -⟩ := B2.gen k
        rw [egp, hx2] at e3; cases e3
        rw [egp] at e4
        rw [e2, e4, hug]
      · rw [B1.genOff i g hx hin, B2.genOff i g hx2 (fun hc => hin ((hgin g).1 hc))]
  · intro i l1 l2 q1 q2 e1 e2 e3 e4 hsl
    rcases key i l1 l2 q1 q2 e1 e2 e3 e4 with ⟨-, f1, f2⟩ | ⟨k, hk, f1, f2⟩
    · rw [f1, f2]; exact ⟨rfl, rfl, rfl, rfl⟩
    · rw [f1, f2]
      obtain ⟨i', m1, m2, g1, g2, g3, -, g4, -⟩ := h.rows (srt := srt) hbr hd hd2 e k
      have hi : i' = i := by
        have := pl1 k
        rw [g1, hk] at this
        exact Option.some.inj this
      subst hi
      rw [e1] at g2; cases g2
      rw [e2] at g3; cases g3
      exact hsame k _ _ (g4 hsl)
  · intro i l1 l2 q1 q2 e1 e2 e3 e4 hsl
    rcases key i l1 l2 q1 q2 e1 e2 e3 e4 with ⟨-, f1, f2⟩ | ⟨k, hk, f1, f2⟩
    · rw [f1, f2]; exact ⟨rfl, rfl, rfl, rfl⟩
    · rw [f1, f2]
      obtain ⟨i', m1, m2, g1, g2, g3, -, -, g4, -⟩ := h.rows (srt := srt) hbr hd hd2 e k
      have hi : i' = i := by
        have := pl1 k
        rw [g1, hk] at this
        exact Option.some.inj this
      subst hi
      rw [e1] at g2; cases g2
      rw [e2] at g3; cases g3
      exact hturn k _ _ (g4 hsl)

/-- **C136 (AC power flow).**  Entering branches in the opposite direction (ends exchanged, shift negated, a transformer's impedance referred to its other side) only exchanges the columns
of their flows: with Newton's method or Gauss-Seidel the run raises, diverges or succeeds as before, with the same voltages and outputs and the same power at each end of each branch.  With the
fast decoupled methods it holds when the branches turned have ratio 1 (lines, phase shifters): `B'` ignores ratios and so depends on the side an impedance is referred to. -/
theorem C136_ac (o : PfOpt) (lib : PfLib)
    (hfd : o.alg = 2 ∨ o.alg = 3 → ∀ (i : ℕ) l1 l2, c1.branch[i]? = some l1 → c2.branch[i]? = some l2 → SameLine l1 l2 ∨ ratio l1.data = 1) :
    Option.Rel (SameTurned c1 c2) (runpfAc srt base o lib c1) (runpfAc srt base o lib c2) := by
  obtain ⟨c', d, he1, hd, hex1⟩ := bridge_exists hs base w1
  obtain ⟨hbr, ar, gc, A, N, od, he2⟩ := h.internal hs w1 w2 he1
  obtain ⟨_, d2, he', hd2, hex2⟩ := bridge_exists hs base w2
  rw [he2] at he'; cases he'
  have e : c'.branch.length = (Index.brI c2).length := by rw [hbr, brI_length, brI_length, h.mask]
  obtain ⟨hp2, hpb, -⟩ := readPf_with hd hd2
  unfold runpfAc
  rw [he1, he2]
  simp only [Option.bind_eq_bind, Option.bind_some]
  rw [hp2]
  cases hp : readPf base c' with
  | none => exact .none
  | some p =>
  simp only [Option.map_some, Option.bind_some]
  have hb := hpb p hp
  have hrel : ∀ k, d2.branch (pairUp e k) = p.branch k ∨ Turn (p.branch k) (d2.branch (pairUp e k)) := by
    intro k
    rw [hb]
    obtain ⟨i, l1, l2, -, -, -, hl, h1, h2, -⟩ := h.rows (srt := srt) hbr hd hd2 e k
    exact hl.imp h1 h2
  have hY : Ybus p.baseMVA p.bus d2.branch = Ybus p.baseMVA p.bus p.branch := Ybus_turn (pairUp e) hrel _ _
  have hsolver : pickSolver o lib (withBranch p d2.branch) = pickSolver o lib p := by
    unfold pickSolver
    rw [show Ybus (withBranch p d2.branch).baseMVA (withBranch p d2.branch).bus (withBranch p d2.branch).branch = Ybus p.baseMVA p.bus p.branch from hY]
    funext S V0
    by_cases hal : o.alg = 2 ∨ o.alg = 3
    · have h1 : ∀ k, d2.branch (pairUp e k) = p.branch k ∨ tapRatio (p.branch k) = 1 := by
        intro k
        rw [hb]
        obtain ⟨i, l1, l2, -, g1, g2, -, h1, -, h2⟩ := h.rows (srt := srt) hbr hd hd2 e k
        exact (hfd hal i l1 l2 g1 g2).imp h1 h2
      have hB : ∀ alg, Bp (withBranch p d2.branch).baseMVA (withBranch p d2.branch).bus (withBranch p d2.branch).branch alg = Bp p.baseMVA p.bus p.branch alg :=
        fun alg => Bp_turn (pairUp e) hrel h1 _ _ alg
      have hB2 : ∀ alg, Bpp (withBranch p d2.branch).baseMVA (withBranch p d2.branch).bus (withBranch p d2.branch).branch alg = Bpp p.baseMVA p.bus p.branch alg :=
        fun alg => Bpp_turn (pairUp e) hrel h1 _ _ alg
      simp only [hB, hB2]
      rfl
    · simp only [hal, if_false]
      rfl
  have hrun := runAC_with o.EPS o.viol o.qlim (pickSolver o lib p) p d2.branch hY
  have hrun' : runAC o.EPS o.viol o.qlim (pickSolver o lib (withBranch p d2.branch)) (withBranch p d2.branch) =
      (runAC o.EPS o.viol o.qlim (pickSolver o lib p) p).map (reflowR p.baseMVA d2.branch) := by rw [hsolver]; exact hrun
  rw [hrun']
  cases hq : runAC o.EPS o.viol o.qlim (pickSolver o lib p) p with
  | none => exact .none
  | some q =>
  cases q with
  | nan s => exact .some ⟨rfl, .none⟩
  | ok s =>
  simp only [Option.map_some, Option.bind_some, reflowR]
  obtain ⟨hf, ht⟩ := runAC_flows hq
  obtain ⟨r1, hr1⟩ := hex1 (acUpd s)
  obtain ⟨r2, hr2⟩ := hex2 (acUpd (reflow p.baseMVA d2.branch s))
  have hfl := h.results hs w1 w2 he1 hbr he2 hd hd2 e (acUpd s) (acUpd (reflow p.baseMVA d2.branch s)) rfl rfl
    (fun k x y hk => by
      rw [← hb] at hk
      simp only [acUpd, reflow, hf, ht, brFrom_same hk, brTo_same hk, and_self])
    (fun k x y hk => by
      rw [← hb] at hk
      simp only [acUpd, reflow, hf, ht, brFrom_turn hk, brTo_turn hk, and_self]) hr1 hr2
  rw [hr1, hr2]
  exact .some ⟨rfl, .some hfl⟩

/-- **C136 (DC power flow).**  The same, whatever the linear solver returns. -/
theorem C136_dc (lib : DcLib) : Option.Rel (SameTurned c1 c2) (runpfDc srt base lib c1) (runpfDc srt base lib c2) := by
  obtain ⟨c', d, he1, hd, hex1⟩ := bridge_exists hs base w1
  obtain ⟨hbr, ar, gc, A, N, od, he2⟩ := h.internal hs w1 w2 he1
  obtain ⟨_, d2, he', hd2, hex2⟩ := bridge_exists hs base w2
  rw [he2] at he'; cases he'
  have e : c'.branch.length = (Index.brI c2).length := by rw [hbr, brI_length, brI_length, h.mask]
  obtain ⟨hp2, hpb, -⟩ := readPf_with hd hd2
  unfold runpfDc
  rw [he1, he2]
  simp only [Option.bind_eq_bind, Option.bind_some]
  rw [hp2]
  cases hp : readPf base c' with
  | none => exact .none
  | some p =>
  simp only [Option.map_some, Option.bind_some]
  have hb := hpb p hp
  have hrel : ∀ k, d2.branch (pairUp e k) = p.branch k ∨ Turn (p.branch k) (d2.branch (pairUp e k)) := by
    intro k
    rw [hb]
    obtain ⟨i, l1, l2, -, -, -, hl, h1, h2, -⟩ := h.rows (srt := srt) hbr hd hd2 e k
    exact hl.imp h1 h2
  have hB : Bbus (withBranch p d2.branch).branch = Bbus p.branch := Bbus_turn (pairUp e) hrel
  have hP : Pfsoln.dcPbus (withBranch p d2.branch).baseMVA (withBranch p d2.branch).bus (withBranch p d2.branch).gen (withBranch p d2.branch).branch =
      Pfsoln.dcPbus p.baseMVA p.bus p.gen p.branch := by
    funext i
    unfold Pfsoln.dcPbus
    rw [show Pbusinj (withBranch p d2.branch).branch = Pbusinj p.branch from Pbusinj_turn (pairUp e) hrel]
    rfl
  rw [hB, hP]
  have hVa' : Pfsoln.dcpf (· ∈ (withBranch p d2.branch).ref) lib (Bbus p.branch) (Pfsoln.dcPbus p.baseMVA p.bus p.gen p.branch) (fun k => (withBranch p d2.branch).VA k * (Real.pi / 180)) =
    Pfsoln.dcpf (· ∈ p.ref) lib (Bbus p.branch) (Pfsoln.dcPbus p.baseMVA p.bus p.gen p.branch) (fun k => p.VA k * (Real.pi / 180)) := rfl
  rw [hVa']
  generalize hVa : Pfsoln.dcpf (· ∈ p.ref) lib (Bbus p.branch) (Pfsoln.dcPbus p.baseMVA p.bus p.gen p.branch) (fun k => p.VA k * (Real.pi / 180)) = Va
  have hG : Pfsoln.dcPG (withBranch p d2.branch).baseMVA (withBranch p d2.branch).bus (withBranch p d2.branch).gen (withBranch p d2.branch).branch (withBranch p d2.branch).ref Va =
      Pfsoln.dcPG p.baseMVA p.bus p.gen p.branch p.ref Va := by
    unfold Pfsoln.dcPG
    rw [hB, hP]
    rfl
  rw [hG]
  cases Pfsoln.dcPG p.baseMVA p.bus p.gen p.branch p.ref Va with
  | none => exact .none
  | some PG =>
  simp only [Option.bind_some]
  obtain ⟨r1, hr1⟩ := hex1 (dcUpd p Va PG)
  obtain ⟨r2, hr2⟩ := hex2 (dcUpd (withBranch p d2.branch) Va PG)
  have hfl := h.results hs w1 w2 he1 hbr he2 hd hd2 e (dcUpd p Va PG) (dcUpd (withBranch p d2.branch) Va PG) rfl rfl
    (fun k x y hk => by
      rw [← hb] at hk
      simp only [dcUpd, withBranch, dcPF_same hk, and_self])
    (fun k x y hk => by
      rw [← hb] at hk
      simp only [dcUpd, withBranch, dcPF_turn hk, neg_neg, and_self]) hr1 hr2
  have hr2' : Index.int2ext (write { c' with branch := Index.brI c2, areas := ar, gencost := gc, A := A, N := N, order := od } (dcUpd (withBranch p d2.branch) Va PG)) = some r2 := hr2
  rw [hr1, hr2']
  exact .some ⟨rfl, .some hfl⟩

end

/-- A line, a transformer with ratio 0.5 and shift 30 degrees, and a branch to a bus that is off. -/
def exAhead : Index.Case Tables := { Opf.exTables with
  branch := [⟨9, 2, 1, ⟨0.01, 0.1, 0.02, 60, 0, 0, 0, 0, 0, 0, 0, 0, 0, 0, []⟩⟩, ⟨9, 2, 1, ⟨0.04, 0.4, 0.01, 60, 0.5, 30, 0, 0, 0, 0, 0, 0, 0, 0, []⟩⟩,
    ⟨7, 2, 1, ⟨0.01, 0.1, 0.02, 60, 0, 0, 0, 0, 0, 0, 0, 0, 0, 0, []⟩⟩] }

/-- The first two entered from the other end. -/
def exAround : Index.Case Tables := { Opf.exTables with
  branch := [⟨2, 9, 1, ⟨0.01, 0.1, 0.02, 60, 1, 0, 0, 0, 0, 0, 0, 0, 0, 0, []⟩⟩, ⟨2, 9, 1, ⟨0.01, 0.1, 0.04, 60, 2, -30, 0, 0, 0, 0, 0, 0, 0, 0, []⟩⟩,
    ⟨7, 2, 1, ⟨0.01, 0.1, 0.02, 60, 0, 0, 0, 0, 0, 0, 0, 0, 0, 0, []⟩⟩] }

example : WF exAhead ∧ WF exAround ∧ Turned exAhead exAround := by
  have w := Opf.exTables_wf
  refine ⟨⟨w.busNodup, w.typValid, w.someOn, w.genRef, ?_, ?_, w.areaRef, w.costRows, w.aCols, w.nCols, w.notInternal⟩,
    ⟨w.busNodup, w.typValid, w.someOn, w.genRef, ?_, ?_, w.areaRef, w.costRows, w.aCols, w.nCols, w.notInternal⟩, ⟨rfl, rfl, ?_⟩⟩
  · simp [exAhead, Opf.exTables, Index.HasBus]
  · simp [exAhead, Opf.exTables, Index.HasBus]
  · simp [exAround, Opf.exTables, Index.HasBus]
  · simp [exAround, Opf.exTables, Index.HasBus]
  · refine .cons (.inr ?_) (.cons (.inr ?_) (.cons (.inl ?_) .nil))
    · constructor <;> norm_num [ratio]
    · constructor <;> norm_num [ratio]
    · constructor <;> rfl

end

end Verif.Runpf
