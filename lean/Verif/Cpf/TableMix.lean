import Verif.Cpf.TableLemmas

/-!
# The case at a loading between base and target, in the rows of the caller and in internal numbering
-/

open Matrix ComplexConjugate

namespace Verif.Cpf

open Verif.Opf (Tables readCase Upd write Off zeroOff Bridge BusD GenD BrD)
open Verif.Index (BusRow GenRow BranchRow IsArgsort WF GenInService BranchInService Connected posOf)
open Verif.Runpf (Case Out readPf initialV pfOff PfBridge HasGenOn IsControlled IsSlack runAC Guarantee Writes solution setters flat)
open Verif.Network Verif.Solvers Verif.Pfsoln

theorem map_len {α β : Type} {f : α → β} {xs ys : List α} (h : ys.map f = xs.map f) : ys.length = xs.length := by
  simpa using congrArg List.length h

theorem zip_map {α β : Type} {f : α → α → α} {π : α → β} (hf : ∀ a b, π (f a b) = π b) : ∀ {xs ys : List α}, xs.length = ys.length →
    (List.zipWith f xs ys).map π = ys.map π
  | [], [], _ => rfl
  | x :: xs, y :: ys, h => by
    simp only [List.zipWith_cons_cons, List.map_cons, hf]
    rw [zip_map hf (by simpa using h)]

theorem zip_at {α : Type} {f : α → α → α} {xs ys : List α} {i : ℕ} {x y : α} (hx : xs[i]? = some x) (hy : ys[i]? = some y) :
    (List.zipWith f xs ys)[i]? = some (f x y) := by
  rw [List.getElem?_zipWith, hx, hy]

theorem zip_get {α : Type} {f : α → α → α} {xs ys : List α} {i : ℕ} {z : α} (h : (List.zipWith f xs ys)[i]? = some z) :
    ∃ x y, xs[i]? = some x ∧ ys[i]? = some y ∧ z = f x y := by
  rw [List.getElem?_zipWith_eq_some] at h
  obtain ⟨x, y, h1, h2, h3⟩ := h
  exact ⟨x, y, h1, h2, h3.symm⟩

theorem busAt_key (lam : ℝ) (b t : BusRow BusD) : ((busAt lam b t).num, (busAt lam b t).typ) = (t.num, t.typ) := by
  unfold busAt; split_ifs <;> rfl

theorem genAt_key (lam : ℝ) (ct : Index.Case Tables) (b t : GenRow GenD) : netGen (genAt lam ct b t) = netGen t := by
  unfold genAt; split_ifs <;> rfl

theorem at_rows (lam : ℝ) {cb ct : Index.Case Tables} (h : SameNet cb ct) : SameRows ct (atLoading lam cb ct) :=
  ⟨zip_map (busAt_key lam) (map_len h.bus).symm, zip_map (genAt_key lam ct) (map_len h.gen).symm⟩

theorem SameRows.hasBus {c1 c2 : Index.Case Tables} (h : SameRows c1 c2) {n : ℕ} (hc : Index.HasBus c1 n) : Index.HasBus c2 n := by
  obtain ⟨b, hb, h1⟩ := hc
  obtain ⟨y, hy, e⟩ := map_mem h.bus hb
  simp only [Prod.mk.injEq] at e
  exact ⟨y, hy, by rw [e.1]; exact h1⟩

theorem at_wf (lam : ℝ) {cb ct : Index.Case Tables} (h : SameNet cb ct) (hw : WF ct) : WF (atLoading lam cb ct) := by
  have hr := at_rows lam h
  refine ⟨?_, ?_, ?_, ?_, ?_, ?_, ?_, ?_, ?_, ?_, ?_⟩
  · have := congrArg (List.map Prod.fst) hr.bus
    simp only [List.map_map, Function.comp_def] at this
    rw [this]
    exact hw.busNodup
  · intro b hb
    obtain ⟨y, hy, e⟩ := map_mem hr.bus.symm hb
    simp only [Prod.mk.injEq] at e
    rw [← e.2]; exact hw.typValid y hy
  · obtain ⟨b, hb, h4⟩ := hw.someOn
    obtain ⟨y, hy, e⟩ := map_mem hr.bus hb
    simp only [Prod.mk.injEq] at e
    exact ⟨y, hy, by rw [e.2]; exact h4⟩
  · intro g hg
    obtain ⟨y, hy, e⟩ := map_mem hr.gen.symm hg
    simp only [netGen, Prod.mk.injEq] at e
    rw [← e.1]
    exact hr.hasBus (hw.genRef y hy)
  · exact fun l hl => hr.hasBus (hw.fRef l hl)
  · exact fun l hl => hr.hasBus (hw.tRef l hl)
  all_goals (intro x hx; cases hx)

/-- The internal case at the loading `lam`: network, classes, initial voltages and set points of the base case, demand and outputs in between, reactive limits of
the target. -/
noncomputable def caseAt {nb ng nl nl' : ℕ} (p : Case (Fin nb) (Fin nl) ng) (t : Target nb ng nl') (lam : ℝ) : Case (Fin nb) (Fin nl) ng :=
  { p with
    bus := loadAt p.bus t lam
    gen := fun k => ⟨{ (p.gen k).toGen with PG := schedAt p.gen t lam k, QG := (p.gen k).QG + lam * ((t.gen k).QG - (p.gen k).QG) }, (t.gen k).QMIN, (t.gen k).QMAX⟩ }

section same
variable {base : ℝ} {cb ct Rb R : Index.Case Tables} {nb ng nl : ℕ} {p : Case (Fin nb) (Fin nl) ng} {ub u : Upd nb ng nl} {bp : Fin nb → ℕ} {gp : Fin ng → ℕ}
  {lp : Fin nl → ℕ} {d : Opf.Case nb ng nl} (hN : SameNet cb ct) (hb : WF cb) (Bb : PfBridge cb Rb base p ub bp gp lp) (Bt : Bridge ct R pfOff d u bp gp lp)

include hN hb Bb Bt

omit hb in
theorem same_bus (k : Fin nb) : (d.bus k).GS = (p.bus k).GS ∧ (d.bus k).BS = (p.bus k).BS := by
  obtain ⟨d0, D, hbase, hbus, hva, hbr, hgen⟩ := Bb.bridge
  obtain ⟨b, h1, -, -, h2, -⟩ := D.bus k
  obtain ⟨t, h3, -, -, h4, -⟩ := Bt.bus k
  obtain ⟨y, h5, h6⟩ := map_at hN.bus h1
  rw [h3] at h5; cases h5
  simp only [netBus, Prod.mk.injEq] at h6
  rw [hbus, h2, h4]
  exact ⟨h6.2.2.1, h6.2.2.2⟩

omit Bt in
theorem same_at {i j : Fin nb} {x y : BusRow BusD} (hx : cb.bus[bp i]? = some x) (hy : ct.bus[bp j]? = some y) (hn : y.num = x.num) : j = i := by
  obtain ⟨d0, D, -⟩ := Bb.bridge
  obtain ⟨z, h1, h2⟩ := map_at hN.bus.symm hy
  simp only [netBus, Prod.mk.injEq] at h2
  exact (D.sameBus hb h1 hx).1 (h2.1.trans hn)

theorem same_gen (k : Fin ng) : (d.gen k).bus = (p.gen k).bus ∧ (d.gen k).stat = (p.gen k).stat := by
  obtain ⟨d0, D, hbase, hbus, hva, hbr, hgen⟩ := Bb.bridge
  obtain ⟨b, h1, -, -, ⟨x, hx, hxn⟩, h2, -⟩ := D.gen k
  obtain ⟨t, h3, -, -, ⟨y, hy, hyn⟩, h4, -⟩ := Bt.gen k
  obtain ⟨z, h5, h6⟩ := map_at hN.gen h1
  rw [h3] at h5; cases h5
  simp only [netGen, Prod.mk.injEq] at h6
  rw [hgen]
  exact ⟨same_at hN hb Bb hx hy (by rw [hxn, hyn, h6.1]), by rw [h4, h6.2]; exact h2.symm⟩

theorem same_branch : d.branch = p.branch := by
  obtain ⟨d0, D, hbase, hbus, hva, hbr, hgen⟩ := Bb.bridge
  funext k
  obtain ⟨b, h1, -, -, ⟨x, hx, hxn⟩, ⟨x', hx', hxn'⟩, a1, a2, a3, a4, a5, a6, -⟩ := D.branch k
  obtain ⟨t, h3, -, -, ⟨y, hy, hyn⟩, ⟨y', hy', hyn'⟩, b1, b2, b3, b4, b5, b6, -⟩ := Bt.branch k
  obtain ⟨z, h5, h6⟩ := map_at hN.branch h1
  rw [h3] at h5; cases h5
  simp only [netBr, Prod.mk.injEq] at h6
  obtain ⟨e1, e2, e3, e4, e5, e6, e7, e8⟩ := h6
  have ef := same_at hN hb Bb hx hy (by rw [hxn, hyn, e1])
  have et := same_at hN hb Bb hx' hy' (by rw [hxn', hyn', e2])
  rw [hbr]
  have ext : ∀ a b : Branch (Fin nb), a.f = b.f → a.t = b.t → a.r = b.r → a.x = b.x → a.b = b.b → a.tap = b.tap → a.shift = b.shift → a.stat = b.stat → a = b := by
    rintro ⟨⟩ ⟨⟩ rfl rfl rfl rfl rfl rfl rfl rfl; rfl
  exact ext _ _ ef et (by rw [b1, e4, a1]) (by rw [b2, e5, a2]) (by rw [b3, e6, a3]) (by rw [b4, e7, a4]) (by rw [b5, e8, a5]) (by rw [b6, e3, a6])

end same

/-- The bridge of the case at the loading. -/
theorem mix {base lam : ℝ} {cb ct Rb R : Index.Case Tables} {nb ng nl : ℕ} {p : Case (Fin nb) (Fin nl) ng} {ub : Upd nb ng nl} {bp : Fin nb → ℕ}
    {gp : Fin ng → ℕ} {lp : Fin nl → ℕ} {d : Opf.Case nb ng nl} (hN : SameNet cb ct) (hb : WF cb) (Bb : PfBridge cb Rb base p ub bp gp lp)
    {s : Out (Fin nb) (Fin nl) ng} {t : Target nb ng nl} (htb : t.bus = d.bus) (htg : t.gen = fun k => ⟨d.gen k, d.qmin k, d.qmax k⟩)
    (Bt : Bridge ct R pfOff d (cpfUpd rfl rfl (loadAt p.bus t lam) s) bp gp lp)
    (hpq : ∀ k, ∃ g : GenRow GenD, ct.gen[gp k]? = some g ∧ (d.gen k).PG = g.data.PG ∧ (d.gen k).QG = g.data.QG) :
    ∃ uX, PfBridge (atLoading lam cb ct) R base (caseAt p t lam) uX bp gp lp ∧ Writes uX s := by
  obtain ⟨d0, D, hbase, hbus, hva, hbr, hgen⟩ := Bb.bridge
  have hX := at_rows lam hN
  have hBX : SameRows cb (atLoading lam cb ct) := ⟨hX.bus.trans hN.rows.bus, hX.gen.trans hN.rows.gen⟩
  have inX : ∀ {g g' : GenRow GenD}, netGen g' = netGen g → GenInService ct g → GenInService (atLoading lam cb ct) g' := fun {g g'} e ⟨h1, h2⟩ => by
    simp only [netGen, Prod.mk.injEq] at e
    exact ⟨by rw [e.2]; exact h1, by rw [e.1]; exact hX.connected h2⟩
  have inX' : ∀ {g g' : GenRow GenD}, netGen g' = netGen g → GenInService (atLoading lam cb ct) g' → GenInService ct g := fun {g g'} e ⟨h1, h2⟩ => by
    simp only [netGen, Prod.mk.injEq] at e
    exact ⟨by rw [← e.2]; exact h1, by rw [← e.1]; exact hX.symm.connected h2⟩
  have brX : ∀ {l : BranchRow BrD}, BranchInService ct l ↔ BranchInService (atLoading lam cb ct) l := fun {l} =>
    ⟨fun ⟨h1, h2, h3⟩ => ⟨h1, hX.connected h2, hX.connected h3⟩, fun ⟨h1, h2, h3⟩ => ⟨h1, hX.symm.connected h2, hX.symm.connected h3⟩⟩
  have numX : ∀ {i : ℕ} {y : BusRow BusD}, ct.bus[i]? = some y → ∃ z, (atLoading lam cb ct).bus[i]? = some z ∧ z.num = y.num := fun {i y} h => by
    obtain ⟨z, h1, h2⟩ := map_at hX.bus h
    simp only [Prod.mk.injEq] at h2
    exact ⟨z, h1, h2.1⟩
  let dX : Opf.Case nb ng nl := { d with
    base := base
    bus := loadAt p.bus t lam
    va := p.VA
    gen := fun k => ((caseAt p t lam).gen k).toGen }
  let uX : Upd nb ng nl := ⟨fun k b => { b with VM := s.VM k, VA := s.VA k },
    fun k g => { g with PG := s.PG k, QG := s.QG k, VG := (ct.gen[gp k]?).elim 0 fun g => g.data.VG },
    fun k l => { l with PF := (s.Sf k).re, QF := (s.Sf k).im, PT := (s.St k).re, QT := (s.St k).im }⟩
  -- the rows
  have rowB : ∀ k, ∃ b t0 : BusRow BusD, cb.bus[bp k]? = some b ∧ ct.bus[bp k]? = some t0 ∧ t0.typ ≠ 4 ∧ (atLoading lam cb ct).bus[bp k]? = some (busAt lam b t0) := by
    intro k
    obtain ⟨b, h1, -⟩ := D.bus k
    obtain ⟨t0, h2, h3, -⟩ := Bt.bus k
    exact ⟨b, t0, h1, h2, h3, zip_at h1 h2⟩
  have rowG : ∀ k, ∃ g t0 : GenRow GenD, cb.gen[gp k]? = some g ∧ ct.gen[gp k]? = some t0 ∧ GenInService ct t0 ∧
      (atLoading lam cb ct).gen[gp k]? = some (genAt lam ct g t0) := by
    intro k
    obtain ⟨b, h1, -⟩ := D.gen k
    obtain ⟨t0, h2, h3, -⟩ := Bt.gen k
    exact ⟨b, t0, h1, h2, h3, zip_at h1 h2⟩
  refine ⟨uX, ⟨⟨dX, ?_, hbase, rfl, rfl, (same_branch hN hb Bb Bt).symm, fun k => ?_⟩, ?_, ?_, ?_, ?_, ?_, ?_, ?_, Bb.slack⟩, ?_⟩
  · refine ⟨Bt.bInj, Bt.gInj, Bt.lInj, ?_, ?_, ?_, ?_, ?_, ?_, ?_, ?_, ?_, ?_, ?_, ?_⟩
    · intro k
      obtain ⟨b, t0, h1, h2, h3, h4⟩ := rowB k
      obtain ⟨b', h5, -, -, h6, -, h7, -⟩ := D.bus k
      rw [h1] at h5; cases h5
      obtain ⟨t', h8, -, h9, h10, h11, h12, h13, h14⟩ := Bt.bus k
      rw [h2] at h8; cases h8
      refine ⟨_, h4, ?_, ?_, ?_, ?_, ?_, ?_, ?_⟩
      · unfold busAt; rw [if_neg h3]; exact h3
      · rw [h9]
        unfold busAt
        rw [if_neg h3]
        simp only [cpfUpd, loadAt, htb, h10, hbus, h6, uX, between, Fin.cast_eq_self]
      · unfold busAt
        rw [if_neg h3]
        simp only [dX, loadAt, htb, h10, hbus, h6, between]
      · unfold busAt; rw [if_neg h3]; exact h11
      · unfold busAt; rw [if_neg h3]
        show p.VA k = b.data.VA
        rw [hva, h7]
      · unfold busAt; rw [if_neg h3]; exact h13
      · unfold busAt; rw [if_neg h3]; exact h14
    · intro i x hx ht
      obtain ⟨b, t0, h1, h2, rfl⟩ := zip_get hx
      have := busAt_key lam b t0
      simp only [Prod.mk.injEq] at this
      exact Bt.busOn i t0 h2 (by rw [← this.2]; exact ht)
    · intro i x hx ht
      obtain ⟨b, t0, h1, h2, rfl⟩ := zip_get hx
      have := busAt_key lam b t0
      simp only [Prod.mk.injEq] at this
      have h4 : t0.typ = 4 := by rw [← this.2]; exact ht
      rw [Bt.busOff i t0 h2 h4]
      unfold busAt
      rw [if_pos h4]
    · rw [Bt.busLen]
      exact (map_len hX.bus).symm
    · intro k
      obtain ⟨b, t0, h1, h2, h3, h4⟩ := rowG k
      obtain ⟨t', h8, -, h9, ⟨y, hy, hyn⟩, h11, h12, h13, h14, h15⟩ := Bt.gen k
      rw [h2] at h8; cases h8
      obtain ⟨eb, est⟩ := same_gen hN hb Bb Bt k
      have key := genAt_key lam ct b t0
      refine ⟨_, h4, inX key h3, ?_, ?_, ?_, ?_, ?_, ?_, ?_⟩
      · rw [h9]
        unfold genAt
        rw [if_pos h3]
        simp only [cpfUpd, uX, h2, Option.elim_some, Fin.cast_eq_self]
      · rw [eb] at hy
        obtain ⟨z, hz, hzn⟩ := numX hy
        refine ⟨z, hz, ?_⟩
        simp only [netGen, Prod.mk.injEq] at key
        rw [hzn, hyn, key.1]
      · simp only [netGen, Prod.mk.injEq] at key
        rw [key.2]
        show (p.gen k).stat = _
        rw [← est, h11]
      · unfold genAt; rw [if_pos h3]; exact h12
      · unfold genAt; rw [if_pos h3]; exact h13
      · unfold genAt; rw [if_pos h3]; exact h14
      · unfold genAt; rw [if_pos h3]; exact h15
    · intro i x hx ht
      obtain ⟨b, t0, h1, h2, rfl⟩ := zip_get hx
      exact Bt.genOn i t0 h2 (inX' (genAt_key lam ct b t0) ht)
    · intro i x hx ht
      obtain ⟨b, t0, h1, h2, rfl⟩ := zip_get hx
      have hoff : ¬ GenInService ct t0 := fun hh => ht (inX (genAt_key lam ct b t0) hh)
      rw [Bt.genOff i t0 h2 hoff]
      unfold genAt
      rw [if_neg hoff]
    · rw [Bt.genLen]
      exact (map_len hX.gen).symm
    · intro k
      obtain ⟨l, h1, h2, h3, ⟨y, hy, hyn⟩, ⟨y', hy', hyn'⟩, h4⟩ := Bt.branch k
      obtain ⟨z, hz, hzn⟩ := numX hy
      obtain ⟨z', hz', hzn'⟩ := numX hy'
      exact ⟨l, h1, brX.1 h2, h3, ⟨z, hz, hzn.trans hyn⟩, ⟨z', hz', hzn'.trans hyn'⟩, h4⟩
    · exact fun i l hl hh => Bt.brOn i l hl (brX.2 hh)
    · exact fun i l hl hh => Bt.brOff i l hl fun h' => hh (brX.1 h')
    · exact Bt.brLen
  · show (caseAt p t lam).gen k = ⟨((caseAt p t lam).gen k).toGen, d.qmin k, d.qmax k⟩
    simp only [caseAt, htg]
  · intro k
    obtain ⟨b, t0, h1, h2, h3, h4⟩ := rowB k
    obtain ⟨b', h5, h6, h7⟩ := Bb.vm k
    rw [h1] at h5; cases h5
    refine ⟨_, h4, ?_, ?_⟩
    · unfold busAt; rw [if_neg h3]; exact h6
    · unfold busAt; rw [if_neg h3]; exact h7
  · intro k
    obtain ⟨b, t0, h1, h2, h3, h4⟩ := rowG k
    obtain ⟨b', h5, h6, h7, h8⟩ := Bb.gen k
    rw [h1] at h5; cases h5
    obtain ⟨t', h9, h10, h11⟩ := hpq k
    rw [h2] at h9; cases h9
    refine ⟨_, h4, ?_, ?_, ?_⟩
    · unfold genAt; rw [if_pos h3]; exact h6
    · unfold genAt; rw [if_pos h3]
      simp only [caseAt, schedAt, between, htg, h7, h10]
    · unfold genAt; rw [if_pos h3]
      simp only [caseAt, between, htg, h8, h11]
  · exact Bb.stat
  · intro k x hx
    obtain ⟨b, t0, h1, h2, h3, h4⟩ := rowB k
    rw [hx] at h4; cases h4
    have e : (busAt lam b t0).num = b.num := by
      obtain ⟨z, h5, h6⟩ := map_at hBX.bus h1
      rw [hx] at h5; cases h5
      simp only [Prod.mk.injEq] at h6
      exact h6.1
    rw [e]
    exact (Bb.hasGen k b h1).trans ⟨hBX.hasGenOn, hBX.symm.hasGenOn⟩
  · exact fun k => (Bb.ref k).trans ⟨hBX.slack, hBX.symm.slack⟩
  · exact fun k => (Bb.pq k).trans (not_congr ⟨hBX.controlled, hBX.symm.controlled⟩)
  · exact fun k => (Bb.pv k).trans (and_congr ⟨hBX.controlled, hBX.symm.controlled⟩ (not_congr ⟨hBX.slack, hBX.symm.slack⟩))
  · exact ⟨fun _ _ => ⟨rfl, rfl, rfl, rfl, rfl, rfl⟩, fun _ _ => ⟨rfl, rfl⟩, fun _ _ => ⟨rfl, rfl, rfl, rfl, rfl, rfl, rfl, rfl, rfl⟩⟩

end Verif.Cpf
