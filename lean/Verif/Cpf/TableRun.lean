import Verif.Cpf.TableMix

/-!
# The returned tables of `runcpf` as the result of a power flow at the last loading
-/

open Matrix ComplexConjugate

namespace Verif.Cpf

open Verif.Opf (Tables readCase Upd write Off zeroOff Bridge BusD GenD BrD)
open Verif.Index (BusRow GenRow BranchRow IsArgsort WF GenInService BranchInService Connected posOf)
open Verif.Runpf (Case Out readPf initialV pfOff PfBridge HasGenOn IsControlled IsSlack runAC Guarantee Writes solution setters flat)
open Verif.Network Verif.Solvers Verif.Pfsoln

section gens
variable {nb ng : ℕ} {g1 g2 : Fin ng → GenQ (Fin nb)} (hb : ∀ k, (g1 k).bus = (g2 k).bus) (hs : ∀ k, (g1 k).stat = (g2 k).stat)

include hs in
theorem onList_congr : onList g1 = onList g2 := by
  unfold onList; simp only [hs]

include hb hs in
theorem refgen_congr (r : Fin nb) : refgen g1 r = refgen g2 r := by
  unfold refgen; rw [onList_congr hs]; simp only [hb]

include hb hs in
theorem newPG_congr (base : ℝ) (bus : Fin nb → Bus) (Y : Matrix (Fin nb) (Fin nb) ℂ) (V : Fin nb → ℂ) : ∀ (ref : List (Fin nb)) (PG : Fin ng → ℝ),
    newPG base bus g1 Y V ref PG = newPG base bus g2 Y V ref PG
  | [], PG => rfl
  | r :: rs, PG => by
    unfold newPG slackStep
    rw [refgen_congr hb hs r]
    congr 1
    funext PG'
    exact newPG_congr base bus Y V rs PG'

include hb hs in
theorem atBus_congr {F G : Fin ng → ℝ} (hF : ∀ k, F k = G k) (b : Fin nb) : atBus g1 F b = atBus g2 G b := by
  unfold atBus; simp only [hb, hs, hF]

include hb hs in
theorem newQG_congr (hlo : ∀ k, (g1 k).QMIN = (g2 k).QMIN) (hhi : ∀ k, (g1 k).QMAX = (g2 k).QMAX) (EPS base : ℝ) (bus : Fin nb → Bus)
    (Y : Matrix (Fin nb) (Fin nb) ℂ) (V : Fin nb → ℂ) : newQG EPS base bus g1 Y V = newQG EPS base bus g2 Y V := by
  funext g
  unfold newQG
  simp only [hs, hb, onList_congr hs, atBus_congr hb hs (fun _ => rfl), hlo, hhi]

end gens

theorem ybus_congr {nb nl : ℕ} {base : ℝ} {b1 b2 : Fin nb → Bus} (h : ∀ k, (b1 k).GS = (b2 k).GS ∧ (b1 k).BS = (b2 k).BS) (br : Fin nl → Branch (Fin nb)) :
    Ybus base b1 br = Ybus base b2 br := by
  have : Ysh base b1 = Ysh base b2 := by
    funext k; unfold Ysh; rw [(h k).1, (h k).2]
  unfold Ybus
  rw [this]

section level
variable {nb ng nl : ℕ} (p : Case (Fin nb) (Fin nl) ng) (t : Target nb ng nl) (lam : ℝ)

theorem caseAt_initial : initialV (caseAt p t lam) = initialV p := rfl

theorem caseAt_ybus (h : ∀ k, (t.bus k).GS = (p.bus k).GS ∧ (t.bus k).BS = (p.bus k).BS) :
    Ybus p.baseMVA (caseAt p t lam).bus p.branch = Ybus p.baseMVA p.bus p.branch := ybus_congr h _

theorem caseAt_sbus (hb : ∀ k, (t.gen k).bus = (p.gen k).bus) (hs : ∀ k, (t.gen k).stat = (p.gen k).stat) (b : Fin nb) :
    makeSbus p.baseMVA (caseAt p t lam).bus (fun g => ((caseAt p t lam).gen g).toGen) b =
      makeSbus p.baseMVA p.bus (fun g => (p.gen g).toGen) b + (lam : ℂ) *
        (makeSbus p.baseMVA t.bus (fun g => (t.gen g).toGen) b - makeSbus p.baseMVA p.bus (fun g => (p.gen g).toGen) b) := by
  have ht : makeSbus p.baseMVA t.bus (fun g => (t.gen g).toGen) b =
      ((∑ g with (p.gen g).stat > 0 ∧ (p.gen g).bus = b, ((t.gen g).PG + Complex.I * (t.gen g).QG : ℂ)) - ((t.bus b).PD + Complex.I * (t.bus b).QD)) / p.baseMVA := by
    rw [C27_injections]
    congr 2
    exact Finset.sum_congr (Finset.filter_congr fun g _ => by rw [hb, hs]) fun _ _ => rfl
  have hX : makeSbus p.baseMVA (caseAt p t lam).bus (fun g => ((caseAt p t lam).gen g).toGen) b =
      ((∑ g with (p.gen g).stat > 0 ∧ (p.gen g).bus = b, ((((p.gen g).PG + lam * ((t.gen g).PG - (p.gen g).PG) : ℝ) : ℂ) +
        Complex.I * (((p.gen g).QG + lam * ((t.gen g).QG - (p.gen g).QG) : ℝ) : ℂ))) -
        ((((p.bus b).PD + lam * ((t.bus b).PD - (p.bus b).PD) : ℝ) : ℂ) + Complex.I * (((p.bus b).QD + lam * ((t.bus b).QD - (p.bus b).QD) : ℝ) : ℂ))) / p.baseMVA := by
    rw [C27_injections]
    congr 2
  have hp : makeSbus p.baseMVA p.bus (fun g => (p.gen g).toGen) b =
      ((∑ g with (p.gen g).stat > 0 ∧ (p.gen g).bus = b, ((p.gen g).PG + Complex.I * (p.gen g).QG : ℂ)) - ((p.bus b).PD + Complex.I * (p.bus b).QD)) / p.baseMVA := by
    rw [C27_injections]
  rw [ht, hX, hp]
  rw [← sub_div, ← mul_div_assoc, ← add_div]
  congr 1
  have : ∀ g, (((p.gen g).PG + lam * ((t.gen g).PG - (p.gen g).PG) : ℝ) : ℂ) + Complex.I * (((p.gen g).QG + lam * ((t.gen g).QG - (p.gen g).QG) : ℝ) : ℂ) =
      (((p.gen g).PG : ℂ) + Complex.I * (p.gen g).QG) + lam * ((((t.gen g).PG : ℂ) + Complex.I * (t.gen g).QG) - (((p.gen g).PG : ℂ) + Complex.I * (p.gen g).QG)) := by
    intro g; push_cast; ring
  simp only [this]
  rw [Finset.sum_add_distrib, ← Finset.mul_sum, Finset.sum_sub_distrib]
  push_cast
  ring

/-- What `runcpf` computes at the last point is what `pfsoln` computes for the case at the loading. -/
theorem cpfOut_solution {EPS : ℝ} {V : Fin nb → ℂ} {ok : Bool} {s : Out (Fin nb) (Fin nl) ng} (hy : ∀ k, (t.bus k).GS = (p.bus k).GS ∧ (t.bus k).BS = (p.bus k).BS)
    (hb : ∀ k, (t.gen k).bus = (p.gen k).bus) (hs : ∀ k, (t.gen k).stat = (p.gen k).stat) (hl : t.branch = p.branch)
    (h : cpfOut EPS p.baseMVA p t V lam ok = some s) : solution EPS (caseAt p t lam) V ok = some s := by
  unfold cpfOut at h
  rw [dif_pos le_rfl] at h
  unfold solution
  rw [show Ybus (caseAt p t lam).baseMVA (caseAt p t lam).bus (caseAt p t lam).branch = Ybus p.baseMVA p.bus p.branch from caseAt_ybus p t lam hy]
  rw [← newPG_congr (g1 := t.gen) (g2 := (caseAt p t lam).gen) hb hs, ← newQG_congr (g1 := t.gen) (g2 := (caseAt p t lam).gen) hb hs (fun _ => rfl) fun _ => rfl]
  rw [← h, hl]
  rfl

/-- A solver that knows the answer. -/
noncomputable def oracle (S V0 V : Fin nb → ℂ) (ok : Bool) : Runpf.Solver (Fin nb) := fun S' V0' =>
  @ite _ (S' = S ∧ V0' = V0) (Classical.dec _) (some ⟨some V, ok, 0⟩) none

theorem oracle_guarantee {S V0 V : Fin nb → ℂ} {Y : Matrix (Fin nb) (Fin nb) ℂ} {pv pq : List (Fin nb)} {tol : ℝ} (hs : Solved Y S pv pq tol V)
    (hk : Kept pv pq V0 V) (ok : Bool) : Guarantee (oracle S V0 V ok) Y pv pq fun _ _ => tol := by
  have key : ∀ {S' V0' q}, oracle S V0 V ok S' V0' = some q → S' = S ∧ V0' = V0 ∧ q = ⟨some V, ok, 0⟩ := by
    intro S' V0' q h
    unfold oracle at h
    split_ifs at h with hh
    exact ⟨hh.1, hh.2, (Option.some_injective _ h).symm⟩
  refine ⟨?_, ?_, ?_, ?_⟩
  · rintro S' V0' q h -
    obtain ⟨-, -, rfl⟩ := key h
    exact ⟨V, rfl⟩
  · rintro S' V0' q V' h hV -
    obtain ⟨rfl, rfl, rfl⟩ := key h
    cases hV
    exact hs
  · intro S' V0' q V' h hV b
    obtain ⟨rfl, rfl, rfl⟩ := key h
    cases hV
    exact hk.1 b
  · intro S' V0' q V' h hV b
    obtain ⟨rfl, rfl, rfl⟩ := key h
    cases hV
    exact hk.2 b

theorem oracle_run {EPS viol : ℝ} {c : Case (Fin nb) (Fin nl) ng} {S V0 V : Fin nb → ℂ} {ok : Bool} {s : Out (Fin nb) (Fin nl) ng} (h0 : initialV c = some V0)
    (hS : makeSbus c.baseMVA c.bus (fun g => (c.gen g).toGen) = S) (hs : solution EPS c V ok = some s) :
    runAC EPS viol false (oracle S V0 V ok) c = some (.ok s) := by
  unfold runAC oracle
  rw [h0]
  dsimp only
  rw [if_pos ⟨hS, rfl⟩]
  simp [Runpf.finish, hs]

end level

/-- A point of the curve, with the sizes of the two cases identified. -/
theorem point_core {base lam EPS tol : ℝ} {cb ct Rb R : Index.Case Tables} {nb ng nl nb' ng' nl' : ℕ} (hn : nb' = nb) (hm : ng' = ng) (hl : nl' = nl)
    {p : Case (Fin nb) (Fin nl) ng} {ub : Upd nb ng nl} {bp : Fin nb → ℕ} {gp : Fin ng → ℕ} {lp : Fin nl → ℕ} (hN : SameNet cb ct) (hb : WF cb)
    (Bb : PfBridge cb Rb base p ub bp gp lp) {d : Opf.Case nb' ng' nl'} {t : Target nb ng nl'} (htb : ∀ k, t.bus k = d.bus (k.cast hn.symm))
    (htg : ∀ k, t.gen k = ⟨{ d.gen (k.cast hm.symm) with bus := (d.gen (k.cast hm.symm)).bus.cast hn }, d.qmin (k.cast hm.symm), d.qmax (k.cast hm.symm)⟩)
    (htl : ∀ k, t.branch k = { d.branch k with f := (d.branch k).f.cast hn, t := (d.branch k).t.cast hn }) {s : Out (Fin nb) (Fin nl') ng}
    {bp' : Fin nb' → ℕ} {gp' : Fin ng' → ℕ} {lp' : Fin nl' → ℕ} (Bt : Bridge ct R pfOff d (cpfUpd hn hm (loadAt p.bus t lam) s) bp' gp' lp')
    (hbp : ∀ k, bp' (k.cast hn.symm) = bp k) (hgp : ∀ k, gp' (k.cast hm.symm) = gp k) (hlp : ∀ k, lp' (k.cast hl.symm) = lp k)
    (hpq : ∀ k, ∃ g : GenRow GenD, ct.gen[gp' k]? = some g ∧ (d.gen k).PG = g.data.PG ∧ (d.gen k).QG = g.data.QG)
    {V0 V : Fin nb → ℂ} {ok : Bool} (h0 : initialV p = some V0) (hK : Kept p.pv p.pq V0 V)
    (hC : OnCurve (Ybus p.baseMVA p.bus p.branch) (makeSbus p.baseMVA p.bus fun g => (p.gen g).toGen)
      (fun b => makeSbus base t.bus (fun g => (t.gen g).toGen) b - makeSbus p.baseMVA p.bus (fun g => (p.gen g).toGen) b) p.pv p.pq tol (V, lam))
    (ho : cpfOut EPS base p t V lam ok = some s) :
    ∃ (pX : Case (Fin nb) (Fin nl) ng) (uX : Upd nb ng nl) (sX : Out (Fin nb) (Fin nl) ng) (solve : Runpf.Solver (Fin nb)),
      PfBridge (atLoading lam cb ct) R base pX uX bp gp lp ∧ Writes uX sX ∧ runAC EPS 0 false solve pX = some (.ok sX) ∧
      Guarantee solve (Ybus pX.baseMVA pX.bus pX.branch) pX.pv pX.pq (fun _ _ => tol) ∧ sX.success = ok ∧ sX.V = V := by
  subst hn hm hl
  have htb' : t.bus = d.bus := funext htb
  have htg' : t.gen = fun k => ⟨d.gen k, d.qmin k, d.qmax k⟩ := funext htg
  have htl' : t.branch = d.branch := funext htl
  obtain rfl : bp' = bp := funext hbp
  obtain rfl : gp' = gp := funext hgp
  obtain rfl : lp' = lp := funext hlp
  have hbase : p.baseMVA = base := by obtain ⟨d0, -, hbase, -⟩ := Bb.bridge; exact hbase
  obtain ⟨uX, BX, W⟩ := mix hN hb Bb htb' htg' Bt hpq
  have hy : ∀ k, (t.bus k).GS = (p.bus k).GS ∧ (t.bus k).BS = (p.bus k).BS := fun k => by rw [htb']; exact same_bus hN Bb Bt k
  have hgb : ∀ k, (t.gen k).bus = (p.gen k).bus := fun k => by rw [htg']; exact (same_gen hN hb Bb Bt k).1
  have hgs : ∀ k, (t.gen k).stat = (p.gen k).stat := fun k => by rw [htg']; exact (same_gen hN hb Bb Bt k).2
  have hS : makeSbus (caseAt p t lam).baseMVA (caseAt p t lam).bus (fun g => ((caseAt p t lam).gen g).toGen) = fun b =>
      makeSbus p.baseMVA p.bus (fun g => (p.gen g).toGen) b + (lam : ℂ) *
        (makeSbus base t.bus (fun g => (t.gen g).toGen) b - makeSbus p.baseMVA p.bus (fun g => (p.gen g).toGen) b) := by
    funext b
    rw [← hbase]
    exact caseAt_sbus p t lam hgb hgs b
  rw [← hbase] at ho
  have hsol := cpfOut_solution p t lam hy hgb hgs (htl'.trans (same_branch hN hb Bb Bt)) ho
  have hY : Ybus (caseAt p t lam).baseMVA (caseAt p t lam).bus (caseAt p t lam).branch = Ybus p.baseMVA p.bus p.branch := caseAt_ybus p t lam hy
  refine ⟨caseAt p t lam, uX, s, _, BX, W, oracle_run ((caseAt_initial p t lam).trans h0) hS hsol, ?_, ?_, ?_⟩
  · rw [hY]
    exact oracle_guarantee hC hK ok
  · unfold solution at hsol
    obtain ⟨PG, -, rfl⟩ := Option.map_eq_some_iff.1 hsol
    rfl
  · unfold solution at hsol
    obtain ⟨PG, -, rfl⟩ := Option.map_eq_some_iff.1 hsol
    rfl

theorem readTarget_eq {base : ℝ} {c : Index.Case Tables} {nb ng : ℕ} {t : Target nb ng c.branch.length} (h : readTarget base c nb ng = some t) :
    ∃ (d : Opf.Case c.bus.length c.gen.length c.branch.length) (hn : c.bus.length = nb) (hm : c.gen.length = ng), readCase base c = some d ∧
      (∀ k, t.bus k = d.bus (k.cast hn.symm)) ∧
      (∀ k, t.gen k = ⟨{ d.gen (k.cast hm.symm) with bus := (d.gen (k.cast hm.symm)).bus.cast hn }, d.qmin (k.cast hm.symm), d.qmax (k.cast hm.symm)⟩) ∧
      (∀ k, t.branch k = { d.branch k with f := (d.branch k).f.cast hn, t := (d.branch k).t.cast hn }) := by
  unfold readTarget at h
  simp only [Option.bind_eq_bind, Option.bind_eq_some_iff] at h
  obtain ⟨d, hd, h⟩ := h
  split_ifs at h with hl
  injection h with h
  subst h
  exact ⟨d, hl.1, hl.2, hd, fun _ => rfl, fun _ => rfl, fun _ => rfl⟩

theorem readCase_gen {base : ℝ} {c : Index.Case Tables} {d : Opf.Case c.bus.length c.gen.length c.branch.length} (h : readCase base c = some d) (k : Fin c.gen.length) :
    (d.gen k).PG = c.gen[k].data.PG ∧ (d.gen k).QG = c.gen[k].data.QG := by
  unfold readCase at h
  split at h
  · injection h with h
    rw [← h]
    exact ⟨rfl, rfl⟩
  · simp at h

section
variable {srt : List ℕ → List ℕ} (hs : IsArgsort srt) {cb ct b c : Index.Case Tables} (hwb : WF cb) (hwt : WF ct) (hN : SameNet cb ct)
  (heb : Index.ext2int srt cb = some b) (hec : Index.ext2int srt ct = some c)

include hs hwb hwt hN heb hec in
theorem branch_len : c.branch.length = b.branch.length := by
  obtain ⟨b2, _, pos, _, hb2, _, _, hcb, hpos, _⟩ := Index.ext2int_corr hs hwb
  obtain ⟨c2, _, pos', _, hc2, _, _, hcc, hpos', _⟩ := Index.ext2int_corr hs hwt
  rw [heb] at hb2; cases hb2
  rw [hec] at hc2; cases hc2
  rw [hcb.brLen, hcc.brLen, hpos, hpos', hN.posBranch]

end

/-- A point of the curve of a run. -/
theorem cpf_point {srt : List ℕ → List ℕ} (hs : IsArgsort srt) {cb ct b c r : Index.Case Tables} (hwb : WF cb) (hwt : WF ct) (hN : SameNet cb ct)
    (heb : Index.ext2int srt cb = some b) (hec : Index.ext2int srt ct = some c) {base lam EPS tol : ℝ}
    {p : Case (Fin b.bus.length) (Fin b.branch.length) b.gen.length} (hp : readPf base b = some p) {t : Target b.bus.length b.gen.length c.branch.length}
    (ht : readTarget base c b.bus.length b.gen.length = some t) (hn : c.bus.length = b.bus.length) (hm : c.gen.length = b.gen.length)
    {V0 V : Fin b.bus.length → ℂ} {ok : Bool} {s : Out (Fin b.bus.length) (Fin c.branch.length) b.gen.length} (h0 : initialV p = some V0) (hK : Kept p.pv p.pq V0 V)
    (hC : OnCurve (Ybus p.baseMVA p.bus p.branch) (makeSbus p.baseMVA p.bus fun g => (p.gen g).toGen)
      (fun b => makeSbus base t.bus (fun g => (t.gen g).toGen) b - makeSbus p.baseMVA p.bus (fun g => (p.gen g).toGen) b) p.pv p.pq tol (V, lam))
    (ho : cpfOut EPS base p t V lam ok = some s) (hr : Index.int2ext (write c (cpfUpd hn hm (loadAt p.bus t lam) s)) = some r) :
    ∃ (pX : Case (Fin b.bus.length) (Fin b.branch.length) b.gen.length) (uX : Upd b.bus.length b.gen.length b.branch.length)
      (sX : Out (Fin b.bus.length) (Fin b.branch.length) b.gen.length) (bp : Fin b.bus.length → ℕ) (gp : Fin b.gen.length → ℕ) (lp : Fin b.branch.length → ℕ)
      (solve : Runpf.Solver (Fin b.bus.length)),
      PfBridge (atLoading lam cb ct) (zeroOff pfOff r) base pX uX bp gp lp ∧ Writes uX sX ∧ runAC EPS 0 false solve pX = some (.ok sX) ∧
      Guarantee solve (Ybus pX.baseMVA pX.bus pX.branch) pX.pv pX.pq (fun _ _ => tol) ∧ sX.success = ok ∧ sX.V = V ∧
      ∀ k : Fin b.bus.length, (posOf srt cb .bus)[(k : ℕ)]? = some (bp k) := by
  obtain ⟨b', db, heb', -, hint⟩ := Opf.bridge_exists hs base hwb
  rw [heb] at heb'; cases heb'
  obtain ⟨rb, hrb⟩ := hint ⟨fun _ x => x, fun _ x => x, fun _ x => x⟩
  obtain ⟨bp, gp, lp, Bb, hbp, hgp, hlp⟩ := Runpf.pf_bridge_at hs hwb heb hp _ hrb
  obtain ⟨d, _, _, hd, htb, htg, htl⟩ := readTarget_eq ht
  obtain ⟨bp', gp', lp', Bt, -, -, hgen, -, -, hbp', hgp', hlp'⟩ := Opf.bridge_at hs hwt hec hd _ hr pfOff
  have hl := branch_len hs hwb hwt hN heb hec
  obtain ⟨pX, uX, sX, solve, h1, h2, h3, h4, h5, h6⟩ := point_core hn hm hl hN hwb Bb htb htg htl Bt
    (fun k => by
      have := hbp' (k.cast hn.symm)
      rw [hN.rows.posBus] at this
      exact Option.some_injective _ (this.symm.trans (hbp k)))
    (fun k => by
      have := hgp' (k.cast hm.symm)
      rw [hN.rows.posGen] at this
      exact Option.some_injective _ (this.symm.trans (hgp k)))
    (fun k => by
      have := hlp' (k.cast hl.symm)
      rw [hN.posBranch] at this
      exact Option.some_injective _ (this.symm.trans (hlp k)))
    (fun k => by
      obtain ⟨g, hg1, -, hg2, -⟩ := hgen k
      refine ⟨g, hg1, ?_, ?_⟩
      · rw [(readCase_gen hd k).1, hg2]
      · rw [(readCase_gen hd k).2, hg2]) h0 hK hC ho
  exact ⟨pX, uX, sX, bp, gp, lp, solve, h1, h2, h3, h4, h5, h6, hbp⟩

/-- The rows of the target next to those of the base case. -/
theorem same_core {base : ℝ} {cb ct Rb R : Index.Case Tables} {nb ng nl nb' ng' nl' : ℕ} (hn : nb' = nb) (hm : ng' = ng) (hl : nl' = nl)
    {p : Case (Fin nb) (Fin nl) ng} {ub : Upd nb ng nl} {bp : Fin nb → ℕ} {gp : Fin ng → ℕ} {lp : Fin nl → ℕ} (hN : SameNet cb ct) (hb : WF cb)
    (Bb : PfBridge cb Rb base p ub bp gp lp) {d : Opf.Case nb' ng' nl'} {t : Target nb ng nl'} (htb : ∀ k, t.bus k = d.bus (k.cast hn.symm))
    (htg : ∀ k, t.gen k = ⟨{ d.gen (k.cast hm.symm) with bus := (d.gen (k.cast hm.symm)).bus.cast hn }, d.qmin (k.cast hm.symm), d.qmax (k.cast hm.symm)⟩)
    {u : Upd nb' ng' nl'} {bp' : Fin nb' → ℕ} {gp' : Fin ng' → ℕ} {lp' : Fin nl' → ℕ} (Bt : Bridge ct R pfOff d u bp' gp' lp')
    (hbp : ∀ k, bp' (k.cast hn.symm) = bp k) (hgp : ∀ k, gp' (k.cast hm.symm) = gp k) (hlp : ∀ k, lp' (k.cast hl.symm) = lp k)
    (hpq : ∀ k, ∃ g : GenRow GenD, ct.gen[gp' k]? = some g ∧ (d.gen k).PG = g.data.PG ∧ (d.gen k).QG = g.data.QG) :
    (∀ k, (t.gen k).bus = (p.gen k).bus ∧ (t.gen k).stat = (p.gen k).stat) ∧
    (∀ k, ∃ g : GenRow GenD, ct.gen[gp k]? = some g ∧ (t.gen k).PG = g.data.PG ∧ (t.gen k).QG = g.data.QG) ∧
    ∀ k, ∃ b : BusRow BusD, ct.bus[bp k]? = some b ∧ (t.bus k).PD = b.data.PD ∧ (t.bus k).QD = b.data.QD := by
  subst hn hm hl
  obtain rfl : bp' = bp := funext hbp
  obtain rfl : gp' = gp := funext hgp
  obtain rfl : lp' = lp := funext hlp
  refine ⟨fun k => ?_, fun k => ?_, fun k => ?_⟩
  · rw [htg]
    exact same_gen hN hb Bb Bt k
  · rw [htg]
    exact hpq k
  · obtain ⟨b, h1, -, -, h2, -⟩ := Bt.bus k
    refine ⟨b, h1, ?_⟩
    rw [htb]
    show (d.bus k).PD = _ ∧ (d.bus k).QD = _
    rw [h2]
    exact ⟨rfl, rfl⟩

section
variable {srt : List ℕ → List ℕ} (hs : IsArgsort srt) {cb ct b c : Index.Case Tables} (hwb : WF cb) (hwt : WF ct) (hN : SameNet cb ct)
  (heb : Index.ext2int srt cb = some b) (hec : Index.ext2int srt ct = some c)

include hs hwb hwt hN heb hec

theorem same_target {base : ℝ} {p : Case (Fin b.bus.length) (Fin b.branch.length) b.gen.length} (hp : readPf base b = some p)
    {t : Target b.bus.length b.gen.length c.branch.length} (ht : readTarget base c b.bus.length b.gen.length = some t) :
    ∃ R u bp gp lp, PfBridge cb R base p u bp gp lp ∧ (∀ k, (t.gen k).bus = (p.gen k).bus ∧ (t.gen k).stat = (p.gen k).stat) ∧
    (∀ k, ∃ g : GenRow GenD, ct.gen[gp k]? = some g ∧ (t.gen k).PG = g.data.PG ∧ (t.gen k).QG = g.data.QG) ∧
    ∀ k, ∃ b : BusRow BusD, ct.bus[bp k]? = some b ∧ (t.bus k).PD = b.data.PD ∧ (t.bus k).QD = b.data.QD := by
  obtain ⟨b', db, heb', -, hint⟩ := Opf.bridge_exists hs base hwb
  rw [heb] at heb'; cases heb'
  obtain ⟨rb, hrb⟩ := hint ⟨fun _ x => x, fun _ x => x, fun _ x => x⟩
  obtain ⟨bp, gp, lp, Bb, hbp, hgp, hlp⟩ := Runpf.pf_bridge_at hs hwb heb hp _ hrb
  obtain ⟨d, hn, hm, hd, htb, htg, htl⟩ := readTarget_eq ht
  obtain ⟨c', dc, hec', -, hint'⟩ := Opf.bridge_exists hs base hwt
  rw [hec] at hec'; cases hec'
  obtain ⟨rc, hrc⟩ := hint' ⟨fun _ x => x, fun _ x => x, fun _ x => x⟩
  obtain ⟨bp', gp', lp', Bt, -, -, hgen, -, -, hbp', hgp', hlp'⟩ := Opf.bridge_at hs hwt hec hd _ hrc pfOff
  have hl := branch_len hs hwb hwt hN heb hec
  exact ⟨_, _, bp, gp, lp, Bb, same_core hn hm hl hN hwb Bb htb htg Bt
    (fun k => by
      have := hbp' (k.cast hn.symm)
      rw [hN.rows.posBus] at this
      exact Option.some_injective _ (this.symm.trans (hbp k)))
    (fun k => by
      have := hgp' (k.cast hm.symm)
      rw [hN.rows.posGen] at this
      exact Option.some_injective _ (this.symm.trans (hgp k)))
    (fun k => by
      have := hlp' (k.cast hl.symm)
      rw [hN.posBranch] at this
      exact Option.some_injective _ (this.symm.trans (hlp k)))
    (fun k => by
      obtain ⟨g, hg1, -, hg2, -⟩ := hgen k
      refine ⟨g, hg1, ?_, ?_⟩
      · rw [(readCase_gen hd k).1, hg2]
      · rw [(readCase_gen hd k).2, hg2])⟩

/-- At any voltages and any loading `pfsoln` completes the target tables. -/
theorem cpfOut_exists {base : ℝ} {p : Case (Fin b.bus.length) (Fin b.branch.length) b.gen.length} (hp : readPf base b = some p)
    {t : Target b.bus.length b.gen.length c.branch.length} (ht : readTarget base c b.bus.length b.gen.length = some t) (EPS : ℝ) (V : Fin b.bus.length → ℂ)
    (lam : ℝ) (ok : Bool) : ∃ s, cpfOut EPS base p t V lam ok = some s := by
  obtain ⟨R, u, bp, gp, lp, Bb, hsame, -⟩ := same_target hs hwb hwt hN heb hec hp ht
  unfold cpfOut
  rw [dif_pos (branch_len hs hwb hwt hN heb hec).le]
  have : ∃ PG, newPG base (loadAt p.bus t lam) t.gen (Ybus p.baseMVA p.bus p.branch) V p.ref (schedAt p.gen t lam) = some PG := by
    have e := newPG_congr (g1 := t.gen) (g2 := (caseAt p t lam).gen) (fun k => (hsame k).1) (fun k => (hsame k).2) base (loadAt p.bus t lam)
      (Ybus p.baseMVA p.bus p.branch) V p.ref (schedAt p.gen t lam)
    rw [e]
    refine (slackPG base (loadAt p.bus t lam) (caseAt p t lam).gen (Ybus p.baseMVA p.bus p.branch) V p.ref).2.2 fun r hr => ?_
    obtain ⟨b, hb', hg, -⟩ := (Bb.ref r).1 hr
    exact (Bb.hasGen r b hb').2 hg
  obtain ⟨PG, hPG⟩ := this
  rw [hPG]
  exact ⟨_, rfl⟩

/-- The two cases have the same sizes in internal numbering, so that the target can be read. -/
theorem readTarget_exists (base : ℝ) : ∃ t, readTarget base c b.bus.length b.gen.length = some t := by
  obtain ⟨c', dc, hec', hd, -⟩ := Opf.bridge_exists hs base hwt
  rw [hec] at hec'; cases hec'
  obtain ⟨b2, _, pos, _, hb2, _, _, hcb, hpos, _⟩ := Index.ext2int_corr hs hwb
  obtain ⟨c2, _, pos', _, hc2, _, _, hcc, hpos', _⟩ := Index.ext2int_corr hs hwt
  rw [heb] at hb2; cases hb2
  rw [hec] at hc2; cases hc2
  have h1 : c.bus.length = b.bus.length := by rw [hcb.busLen, hcc.busLen, hpos, hpos', hN.rows.posBus]
  have h2 : c.gen.length = b.gen.length := by rw [hcb.genLen, hcc.genLen, hpos, hpos', hN.rows.posGen]
  unfold readTarget
  rw [hd, Option.bind_eq_bind, Option.bind_some, dif_pos ⟨h1, h2⟩]
  exact ⟨_, rfl⟩

/-- The transfer: what the injections of the target exceed those of the base case by. -/
theorem transfer_eq {base : ℝ} {p : Case (Fin b.bus.length) (Fin b.branch.length) b.gen.length} (hp : readPf base b = some p)
    {t : Target b.bus.length b.gen.length c.branch.length} (ht : readTarget base c b.bus.length b.gen.length = some t) :
    ∃ R u bp gp lp, PfBridge cb R base p u bp gp lp ∧ ∀ lin tol maxIt k, ∃ b0 t0, cb.bus[bp k]? = some b0 ∧ ct.bus[bp k]? = some t0 ∧
      (ct.gen = cb.gen → (netOf base p t lin tol maxIt).X k = ((b0.data.PD - t0.data.PD : ℝ) + Complex.I * (b0.data.QD - t0.data.QD : ℝ)) / base) := by
  obtain ⟨R, u, bp, gp, lp, Bb, hsame, hg, hbus⟩ := same_target hs hwb hwt hN heb hec hp ht
  refine ⟨R, u, bp, gp, lp, Bb, fun lin tol maxIt k => ?_⟩
  obtain ⟨d, D, hbase, hpb, -⟩ := Bb.bridge
  obtain ⟨b0, hb0, -, -, hb1, -⟩ := D.bus k
  obtain ⟨t0, ht0, hP, hQ⟩ := hbus k
  refine ⟨b0, t0, hb0, ht0, fun hgen => ?_⟩
  have ht : makeSbus base t.bus (fun g => (t.gen g).toGen) k =
      ((∑ g with (p.gen g).stat > 0 ∧ (p.gen g).bus = k, ((p.gen g).PG + Complex.I * (p.gen g).QG : ℂ)) - ((t.bus k).PD + Complex.I * (t.bus k).QD)) / base := by
    rw [C27_injections]
    congr 2
    refine Finset.sum_congr (Finset.filter_congr fun g _ => by rw [(hsame g).1, (hsame g).2]) fun g _ => ?_
    obtain ⟨g1, h1, h2, h3⟩ := hg g
    obtain ⟨g2, h4, -, h5, h6⟩ := Bb.gen g
    rw [hgen, h4] at h1; cases h1
    rw [h2, h3, h5, h6]
  have hp' : makeSbus p.baseMVA p.bus (fun g => (p.gen g).toGen) k =
      ((∑ g with (p.gen g).stat > 0 ∧ (p.gen g).bus = k, ((p.gen g).PG + Complex.I * (p.gen g).QG : ℂ)) - ((p.bus k).PD + Complex.I * (p.bus k).QD)) / base := by
    rw [C27_injections, hbase]
  show makeSbus base t.bus (fun g => (t.gen g).toGen) k - makeSbus p.baseMVA p.bus (fun g => (p.gen g).toGen) k = _
  rw [ht, hp', hpb, hb1, hP, hQ, ← sub_div]
  push_cast
  ring

end

end Verif.Cpf
