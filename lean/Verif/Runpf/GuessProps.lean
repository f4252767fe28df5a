import Verif.Runpf.GuessLemmas
import Verif.Opf.RunProps

/-!
# C139: stored results that an AC power flow does not start from
-/

namespace Verif.Runpf

open Verif.Network Verif.Pfsoln Verif.Solvers
open Verif.Index (BusRow GenRow BranchRow IsArgsort WF GenInService)
open Verif.Opf (Tables BusD GenD BrD Upd write zeroOff readCase bridge_exists readAs exists_as map_eq_len)

noncomputable section

/-- **C139.**  Two cases that differ only in stored results which an AC power flow does not start from: every algorithm raises, diverges or succeeds alike, and returns the same
bus, generator and branch rows. -/
theorem C139_unused_guesses {srt : List ℕ → List ℕ} (hs : IsArgsort srt) (base : ℝ) {c1 c2 : Index.Case Tables} (w : WF c1) (w2 : WF c2) (h : OtherGuess c1 c2) (o : PfOpt) (lib : PfLib) :
    Option.Rel (fun r1 r2 : PfRet => r2.success = r1.success ∧
      Option.Rel (fun R1 R2 : Index.Case Tables => R2.bus = R1.bus ∧ R2.gen = R1.gen ∧ R2.branch = R1.branch) r1.tables r2.tables)
      (runpfAc srt base o lib c1) (runpfAc srt base o lib c2) := by
  have S := h.same
  obtain ⟨c1', c2', he1, he2, S'⟩ := S.internal hs w w2
  obtain ⟨_, d, he', hd, -⟩ := bridge_exists hs base w
  rw [he1] at he'; cases he'
  obtain ⟨_, d2', he', hd2', -⟩ := bridge_exists hs base w2
  rw [he2] at he'; cases he'
  have hb : c2'.bus.length = c1'.bus.length := (map_eq_len S'.bus).symm
  have hg : c2'.gen.length = c1'.gen.length := (map_eq_len S'.gen).symm
  have hl : c2'.branch.length = c1'.branch.length := (map_eq_len S'.branch).symm
  obtain ⟨d2, hd2⟩ := readAs_exists ⟨d2', hd2'⟩ hb hg hl
  have hread := read_same (base := base) S' hb hg hl
  rw [runpfAc_via he1 rfl rfl rfl, runpfAc_via he2 hb hg hl]
  show Option.Rel _ ((readPf base c1').bind _) _
  cases hp : readPf base c1' with
  | none =>
    rw [hread, hp]
    exact .none
  | some p =>
  rw [hp, Option.map_some] at hread
  rw [hread]
  simp only [Option.bind_some]
  -- the two internal cases
  set u0 : Upd c1'.bus.length c1'.gen.length c1'.branch.length := ⟨fun _ b => b, fun _ g => g, fun _ l => l⟩
  obtain ⟨r01, hr01⟩ := exists_as hs w he1 (hb := rfl) (hg := rfl) (hl := rfl) u0
  obtain ⟨r02, hr02⟩ := exists_as hs w2 he2 (hb := hb) (hg := hg) (hl := hl) u0
  obtain ⟨bp, gp, lp, B, pb1, pg1, -⟩ := pf_bridge_as hs w he1 (hb := rfl) (hg := rfl) (hl := rfl) hp u0 hr01
  obtain ⟨bp2, gp2, lp2, B2, pb2, pg2, -⟩ := pf_bridge_as hs w2 he2 hread u0 hr02
  have ebp : ∀ i, bp2 i = bp i := fun i => Option.some.inj ((pb2 i).symm.trans (by rw [← S.pos]; exact pb1 i))
  have egp : ∀ i, gp2 i = gp i := fun i => Option.some.inj ((pg2 i).symm.trans (by rw [← S.pos]; exact pg1 i))
  obtain ⟨d0, D, -, -, -, -, hgen⟩ := B.bridge
  have hbusgen : ∀ k, (d0.gen k).bus = (p.gen k).bus := fun k => by rw [hgen k]
  have huniq : ∀ (i j : ℕ) (x y : BusRow BusD), c1.bus[i]? = some x → c1.bus[j]? = some y → x.num = y.num → i = j := by
    intro i j x y hx hy hn
    exact Opf.num_inj w hx hy hn
  have hVA : (fun k : Fin c1'.bus.length => (c2'.bus[(k : ℕ)]'(k.isLt.trans_eq hb.symm)).data.VA) = p.VA := by
    funext k
    obtain ⟨b1, x1, -, x3⟩ := B.vm k
    obtain ⟨b2, y1, -, y3⟩ := B2.vm k
    rw [ebp] at y1
    exact y3.trans ((h.angle _ b1 b2 x1 y1).trans x3.symm)
  rw [hVA]
  rw [runAC_guess o lib p _ _ _ (fun b hb hr => ?_) (fun k => ?_) (fun g => ?_) (fun g => ?_)]
  · cases hq : runAC o.EPS o.viol o.qlim (pickSolver o lib p) p with
    | none => exact .none
    | some q =>
    cases q with
    | nan s => exact .some ⟨rfl, .none⟩
    | ok s =>
    simp only [Option.bind_some]
    obtain ⟨r1, hr1⟩ := exists_as hs w he1 (hb := rfl) (hg := rfl) (hl := rfl) (acUpd s)
    obtain ⟨r2, hr2⟩ := exists_as hs w2 he2 (hb := hb) (hg := hg) (hl := hl) (acUpd s)
    have hfin := same_results hs w w2 S he1 he2 (h1b := rfl) (h1g := rfl) (h1l := rfl) hd hd2 (acUpd s)
      (fun i b1 b2 x1 x2 ht => by
        obtain ⟨y, y1, y2⟩ := key_at h.busData x1
        rw [x2] at y1; cases y1
        have hvm : b2.data.VM = b1.data.VM := by
          rcases h.magnitude i b1 b2 x1 x2 with hv | hv
          · exact hv
          · obtain ⟨⟨b, z1, z2, -⟩, -⟩ := hv
            rw [x1] at z1; cases z1
            omega
        have hva := h.angle i b1 b2 x1 x2
        have := congrArg (fun b : BusRow BusD => ({ b with data := { b.data with VM := b1.data.VM, VA := b1.data.VA } } : BusRow BusD)) y2
        refine Eq.trans ?_ this.symm
        show b2 = { b2 with data := { b2.data with VM := b1.data.VM, VA := b1.data.VA } }
        rw [← hvm, ← hva])
      (fun k b1 b2 e => (congrArg (fun b : BusRow BusD => ({ b with data := { b.data with VM := s.VM k, VA := s.VA k } } : BusRow BusD)) e).symm)
      (fun k b1 b2 e => (congrArg (fun b : GenRow GenD => ({ b with data := { b.data with PG := s.PG k, QG := s.QG k } } : GenRow GenD)) e).symm)
      (fun k b1 b2 e => (congrArg (fun b : BranchRow BrD => ({ b with data := { b.data with PF := (s.Sf k).re, QF := (s.Sf k).im, PT := (s.St k).re, QT := (s.St k).im } } : BranchRow BrD)) e).symm)
      hr1 hr2
    rw [hr1, hr2]
    exact .some ⟨rfl, .some hfin⟩
  · rw [B.ref] at hr
    rcases hb with hb | hb
    · exact ((B.pv b).1 hb).2 hr
    · obtain ⟨x, x1, x2, x3⟩ := hr
      exact (B.pq b).1 hb ⟨x, x1, x3.elim Or.inr fun x => Or.inl x.1, x2⟩
  · obtain ⟨b1, x1, x2, -⟩ := B.vm k
    obtain ⟨b2, y1, y2, -⟩ := B2.vm k
    rw [ebp] at y1
    have y2' : (c2'.bus[(k : ℕ)]'(k.isLt.trans_eq hb.symm)).data.VM = b2.data.VM := y2
    rw [y2', x2]
    refine (h.magnitude _ b1 b2 x1 y1).imp id fun ⟨z1, z2, z3⟩ => ⟨?_, z2, z3⟩
    have hpq : k ∉ p.pq := fun hk => (B.pq k).1 hk z1
    obtain ⟨b, q1, -, q2⟩ := z1
    obtain ⟨g, g1, g2⟩ := (B.hasGen k b q1).2 q2
    refine List.ne_nil_of_mem (a := g) (List.mem_filter.2 ⟨?_, by simp [g2, hpq]⟩)
    exact List.mem_filter.2 ⟨List.mem_finRange g, by simpa using g1⟩
  · obtain ⟨g1, x1, -, x2, -⟩ := B.gen g
    obtain ⟨g2, y1, -, y2, -⟩ := B2.gen g
    rw [egp] at y1
    have y2' : (c2'.gen[(g : ℕ)]'(g.isLt.trans_eq hg.symm)).data.PG = g2.data.PG := y2
    rw [y2', x2]
    obtain ⟨g', z1, z2, -, ⟨b, z3, z4⟩, -⟩ := D.gen g
    rw [x1] at z1; cases z1
    refine (h.active _ g1 g2 x1 y1 z2).imp id fun ⟨⟨k, b', q1, q2, q3⟩, q4⟩ => ?_
    have hk : k = bp (p.gen g).bus := by
      rw [← hbusgen]
      exact huniq _ _ _ _ q1 z3 (q2.trans z4.symm)
    refine ⟨(B.ref _).2 (hk ▸ q3), ?_⟩
    have hall : ∀ x ∈ refgen p.gen (p.gen g).bus, x = g := by
      intro x hx
      have hxb := ((mem_refgen p.gen _ x).1 hx).2
      obtain ⟨gx, t1, t2, -, ⟨bx, t3, t4⟩, -⟩ := D.gen x
      apply D.gInj
      apply q4 _ gx t1 t2
      rw [hbusgen, hxb, ← hbusgen, z3] at t3
      rw [← t4, ← z4, Option.some.inj t3]
    have hmem : g ∈ refgen p.gen (p.gen g).bus := (mem_refgen p.gen _ g).2 ⟨B.stat g, rfl⟩
    have hnd := refgen_nodup p.gen (p.gen g).bus
    cases hr : refgen p.gen (p.gen g).bus with
    | nil => rw [hr] at hmem; simp at hmem
    | cons a t =>
      rw [hr] at hall hnd
      have ha := hall a List.mem_cons_self
      cases t with
      | nil => rw [ha]
      | cons b t =>
        have hb' := hall b (by simp)
        rw [ha, hb'] at hnd
        simp at hnd
  · obtain ⟨g1, x1, -, -, x2⟩ := B.gen g
    obtain ⟨g2, y1, -, -, y2⟩ := B2.gen g
    rw [egp] at y1
    have y2' : (c2'.gen[(g : ℕ)]'(g.isLt.trans_eq hg.symm)).data.QG = g2.data.QG := y2
    rw [y2', x2]
    obtain ⟨g', z1, z2, -, ⟨b, z3, z4⟩, -⟩ := D.gen g
    rw [x1] at z1; cases z1
    refine (h.reactive _ g1 g2 x1 y1 z2).imp id fun ⟨k, b', q1, q2, q3⟩ => ?_
    have hk : k = bp (p.gen g).bus := by
      rw [← hbusgen]
      exact huniq _ _ _ _ q1 z3 (q2.trans z4.symm)
    exact fun hpq => (B.pq _).1 hpq (hk ▸ q3)

/-! ### A concrete case -/

/-- `exTables` with other stored results: the voltage magnitude and the outputs of the generator at the slack bus, the outputs of two generators out of service, and flows. -/
def exGuess : Index.Case Tables where
  bus := [⟨9, 3, ⟨0, 0, 0, 0, 1.07, 5, 1.1, 0.9, 0, 0, 0, 0, []⟩⟩, ⟨7, 4, ⟨10, 5, 0, 0, 1, 0, 1.1, 0.9, 0, 0, 0, 0, []⟩⟩,
    ⟨2, 1, ⟨90, 30, 1, 2, 1, 0, 1.1, 0.9, 0, 0, 0, 0, [345]⟩⟩]
  gen := [⟨2, 1, ⟨10, 0, 50, -50, 1, 100, 10, 0, 0, 0, 0, []⟩⟩, ⟨7, 1, ⟨0, 0, 50, -50, 1, 100, 10, 0, 0, 0, 0, []⟩⟩,
    ⟨9, 1, ⟨12, 34, 50, -50, 1, 200, 10, 0, 0, 0, 0, []⟩⟩, ⟨9, 0, ⟨56, 78, 50, -50, 1, 100, 10, 4, 0, 0, 0, []⟩⟩]
  branch := [⟨9, 2, 1, ⟨0.01, 0.1, 0.02, 60, 0, 0, 1, 2, 3, 4, 0, 0, 0, 0, []⟩⟩, ⟨9, 7, 1, ⟨0.01, 0.1, 0.02, 60, 0, 0, 0, 0, 0, 0, 0, 0, 0, 0, []⟩⟩,
    ⟨2, 9, 0, ⟨0.01, 0.1, 0.02, 60, 0, 0, 0, 0, 0, 0, 0, 0, 0, 0, []⟩⟩]
  areas := none
  gencost := none
  A := none
  N := none
  order := none

theorem exGuess_wf : WF exGuess where
  busNodup := by simp [exGuess]
  typValid := by simp [exGuess]
  someOn := ⟨_, List.mem_cons_self, by decide⟩
  genRef := by simp [exGuess, Index.HasBus]
  fRef := by simp [exGuess, Index.HasBus]
  tRef := by simp [exGuess, Index.HasBus]
  areaRef := by simp [exGuess]
  costRows := by simp [exGuess]
  aCols := by simp [exGuess]
  nCols := by simp [exGuess]
  notInternal := by simp [exGuess]

example : OtherGuess Opf.exTables exGuess := by
  have hon : HasGenOn Opf.exTables 9 := ⟨⟨9, 1, ⟨80, 0, 50, -50, 1, 200, 10, 0, 0, 0, 0, []⟩⟩, by simp [Opf.exTables],
    by simp [GenInService, Index.Connected, Opf.exTables], rfl⟩
  have hc : IsControlled Opf.exTables 0 := ⟨_, rfl, Or.inr rfl, hon⟩
  have hsl : IsSlack Opf.exTables 0 := ⟨_, rfl, hon, Or.inl rfl⟩
  refine ⟨by simp [Opf.exTables, exGuess, pfBusInput], by simp [Opf.exTables, exGuess, pfGenInput], by simp [Opf.exTables, exGuess, pfBranchInput], rfl, rfl, rfl, ?_, ?_, ?_, ?_⟩
  · rintro (_ | _ | _ | i) b1 b2 h1 h2 <;> simp [Opf.exTables, exGuess] at h1 h2 <;> subst h1 h2 <;> rfl
  · rintro (_ | _ | _ | i) b1 b2 h1 h2 <;> simp [Opf.exTables, exGuess] at h1 h2 <;> subst h1 h2
    · exact Or.inr ⟨hc, by norm_num, by norm_num⟩
    · exact Or.inl rfl
    · exact Or.inl rfl
  · rintro (_ | _ | _ | _ | i) g1 g2 h1 h2 hin <;> simp [Opf.exTables, exGuess] at h1 h2 <;> subst h1 h2
    · exact Or.inl rfl
    · simp [GenInService, Index.Connected, Opf.exTables] at hin
    · refine Or.inr ⟨⟨0, _, rfl, rfl, hsl⟩, ?_⟩
      rintro (_ | _ | _ | _ | j) g hg hgin hgb <;> simp [Opf.exTables] at hg <;> subst hg
      · simp at hgb
      · simp at hgb
      · rfl
      · simp [GenInService] at hgin
    · simp [GenInService] at hin
  · rintro (_ | _ | _ | _ | i) g1 g2 h1 h2 hin <;> simp [Opf.exTables, exGuess] at h1 h2 <;> subst h1 h2
    · exact Or.inl rfl
    · simp [GenInService, Index.Connected, Opf.exTables] at hin
    · exact Or.inr ⟨0, _, rfl, rfl, hc⟩
    · simp [GenInService] at hin

end

end Verif.Runpf
