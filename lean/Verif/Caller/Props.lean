import Verif.Caller.Opf

/-!
# C117: what stays in the caller's dictionary
-/

namespace Verif.Caller

open CaseIO Loadcase

/-! ### Arguments of one call are there in the next -/

/-- A table with at least `n` columns. -/
def wide (n : ℕ) (t : Table ℚ) : Table ℚ := if t.cols < n then pad n t else t

theorem leaf_not_dict {h : Heap} {a : ℕ} {v : Val} {d : List (String × ℕ)} (hv : value h a = some v) (hd : entries h a = some d) : False := by
  have h1 := value_iff.1 hv
  rw [entries_iff.1 hd] at h1
  cases h1

/-- The dictionary `r` has the table `t` under `k`. -/
def At (h : Heap) (r : ℕ) (k : String) (t : Table ℚ) : Prop := ∃ x, field h r k = some x ∧ x < h.length ∧ value h x = some (.tab t)

theorem At.dict {h : Heap} {r : ℕ} {k : String} {t : Table ℚ} (ha : At h r k t) : ∃ d, entries h r = some d := by
  obtain ⟨x, hx, -⟩ := ha
  obtain ⟨d, hd, -⟩ := Option.bind_eq_some_iff.1 hx
  exact ⟨d, hd⟩

theorem widen_other {h : Heap} {r : ℕ} {k : String} {t : Table ℚ} {e : String × ℕ} (hk : k ≠ e.1) (ha : At h r k t) : At (widen r h e) r k t := by
  obtain ⟨d, hd⟩ := ha.dict
  obtain ⟨x, hx, hl, hv⟩ := ha
  obtain ⟨-, w1, w2, w3⟩ := widen_spec r h e hd
  refine ⟨x, (w3 k hk).trans hx, by omega, ?_⟩
  rw [value_congr (w2 x hl ?_)]
  · exact hv
  · rintro rfl; exact leaf_not_dict hv hd

theorem widen_at {h : Heap} {r : ℕ} {t : Table ℚ} {e : String × ℕ} (ha : At h r e.1 t) : At (widen r h e) r e.1 (wide e.2 t) := by
  obtain ⟨d, hd⟩ := ha.dict
  obtain ⟨x, hx, hl, hv⟩ := ha
  have hr : r < h.length := (List.getElem?_eq_some_iff.1 (entries_iff.1 hd)).1
  have hf : fieldVal h r e.1 = some (.tab t) := by unfold fieldVal; rw [hx]; exact hv
  unfold widen wide
  rw [hf]
  dsimp only
  split_ifs
  · refine ⟨h.length, ?_, by rw [store_length]; omega, store_new hr⟩
    rw [store_field hd, if_pos rfl]
  · exact ⟨x, hx, hl, hv⟩

/-- The entries after `opf`, key by key. -/
theorem opf_field (w : World) (h : Heap) (r : ℕ) (args : List (Option ℕ)) (rest : List Act) {h' : Heap} {ls : List ℕ}
    (ho : opf w h r args rest = some (h', ls)) :
    ∃ h1 p d, loadcase w h (.dict r) = (h1, .ok (.obj p)) ∧
      Opf.Args.opfArgs2 ⟨lenIn (h1 ++ consts), lenIn (h1 ++ consts), h1.length + 1, h1.length + 2, fun _ => none, fun _ => some (dictOf h1 p)⟩ (.dict (dictOf h1 r)) args = some d ∧
      (∀ k ∈ opfKeys, k ≠ "bus" → k ≠ "gen" → k ≠ "branch" → field h' r k = (d.1 k).elim (field h r k) (fun v => some (given h1.length v))) ∧
      ∀ e ∈ [("bus", 17), ("gen", 25), ("branch", 21)], ∀ (x : ℕ) (t : Table ℚ), d.1 e.1 = some (some x) → x < h1.length → value h1 x = some (.tab t) →
        fieldVal h' r e.1 = some (.tab (wide e.2 t)) := by
  obtain ⟨h1, ha, hr⟩ := Option.bind_eq_some_iff.1 ho
  unfold opfArgs2 at ha
  split at ha
  · rename_i h0 p hl
    obtain ⟨d, hd, ha⟩ := Option.bind_eq_some_iff.1 ha
    cases ha
    obtain ⟨e, he⟩ := load_entries hl
    have hrlt : r < h.length := (List.getElem?_eq_some_iff.1 (entries_iff.1 he)).1
    obtain ⟨-, len0, -, old0⟩ := load_inv w (inv_start h) hl
    have old1 : ∀ i < h.length, (h0 ++ consts)[i]? = h[i]? := fun i hi => (List.getElem?_append_left (by omega)).trans (old0 i hi)
    have he1 : entries (h0 ++ consts) r = some e := (entries_congr (old1 r hrlt)).trans he
    obtain ⟨⟨e2, he2⟩, l2, o2, f2⟩ := assigns_spec h0.length r d.1 opfKeys _ he1
    obtain ⟨⟨e3, he3⟩, l3, o3, f3⟩ := widens_spec r [("bus", 17), ("gen", 25), ("branch", 21)] _ he2
    have len1 : h.length ≤ (h0 ++ consts).length := by rw [List.length_append]; omega
    have inv := run_inv (n := ([("bus", 17), ("gen", 25), ("branch", 21)].foldl (widen r) (opfKeys.foldl (assign h0.length r d.1) (h0 ++ consts))).length)
      (h0 := [("bus", 17), ("gen", 25), ("branch", 21)].foldl (widen r) (opfKeys.foldl (assign h0.length r d.1) (h0 ++ consts)))
      ⟨deepcopy_sep _ r, by rw [deepcopy_length]; omega, fun l hl => by rw [List.mem_singleton.1 hl]; exact Nat.le_add_left _ _, fun i hi => deepcopy_old hi⟩ rest hr
    refine ⟨h0, p, d, hl, hd, fun k hk k1 k2 k3 => ?_, fun e' hm x t hx hxl hv => ?_⟩
    · rw [field_congr (inv.old r (by omega)), f3 k ?_, f2 k, if_pos hk, field_congr (old1 r hrlt)]
      simp [k1, k2, k3]
    · have hk : e'.1 ∈ opfKeys := by
        simp only [List.mem_cons, List.not_mem_nil, or_false] at hm
        rcases hm with rfl | rfl | rfl <;> decide
      have hxr : x ≠ r := by
        rintro rfl
        rw [value_congr (old0 x hrlt)] at hv
        exact leaf_not_dict hv he
      have a1 : At (opfKeys.foldl (assign h0.length r d.1) (h0 ++ consts)) r e'.1 t := by
        refine ⟨x, ?_, ?_, ?_⟩
        · rw [f2, if_pos hk, hx]; rfl
        · rw [l2, List.length_append]; omega
        · rw [value_congr (o2 x hxr), value_congr (List.getElem?_append_left hxl)]
          exact hv
      have fin : At ([("bus", 17), ("gen", 25), ("branch", 21)].foldl (widen r) (opfKeys.foldl (assign h0.length r d.1) (h0 ++ consts))) r e'.1 (wide e'.2 t) := by
        simp only [List.mem_cons, List.not_mem_nil, or_false] at hm
        simp only [List.foldl_cons, List.foldl_nil]
        rcases hm with rfl | rfl | rfl
        · exact widen_other (by decide) (widen_other (by decide) (widen_at (e := ("bus", 17)) a1))
        · exact widen_other (by decide) (widen_at (e := ("gen", 25)) (widen_other (by decide) a1))
        · exact widen_at (e := ("branch", 21)) (widen_other (by decide) (widen_other (by decide) a1))
      obtain ⟨y, hy, hyl, hyv⟩ := fin
      unfold fieldVal
      rw [field_congr (inv.old r (by omega)), hy]
      show value h' y = _
      rw [value_congr (inv.old y hyl), hyv]
  · cases ha

/-- **C117 is false of the code (constraints).**  Linear constraints given as arguments of one call of `opf` are in the caller's dictionary afterwards, whatever was there before. -/
theorem C117_sticky (w : World) (h : Heap) (r A l u : ℕ) (po : Option ℕ) (hlen : lenIn h l ≠ 0) (rest : List Act) {h' : Heap} {ls : List ℕ}
    (ho : opf w h r [some A, some l, some u, po] rest = some (h', ls)) :
    field h' r "A" = some A ∧ field h' r "l" = some l ∧ field h' r "u" = some u := by
  obtain ⟨h1, p, d, hl, hd, hf, -⟩ := opf_field w h r _ rest ho
  obtain ⟨d2, q⟩ := d
  obtain ⟨P, hP, -, -, -, -, -, -, hA, hL, hU, -⟩ := Opf.Args.dict_spec _ hd
  have hP' : P.Au = some A ∧ P.lbu = some l ∧ P.ubu = some u := by
    simp only [Opf.Args.opfArgs, Opf.Args.caseForm, Option.bind_eq_bind, Option.bind_some, Option.bind_eq_some_iff] at hP
    obtain ⟨P0, h0, hfin⟩ := hP
    obtain ⟨_, _, _, _, _, cons, cost, -, -, -, -, -, hc, -, rfl⟩ := Opf.Args.fromCase_spec _ h0
    obtain ⟨-, rfl⟩ := Opf.Args.finish_spec _ hfin
    unfold Opf.Args.caseCons at hc
    rw [if_neg (by simp)] at hc
    cases hc
    exact ⟨rfl, rfl, rfl⟩
  obtain ⟨e1, e2, e3⟩ := hP'
  have hb : Opf.Args.blank (⟨lenIn (h1 ++ consts), lenIn (h1 ++ consts), h1.length + 1, h1.length + 2, fun _ => none, fun _ => some (dictOf h1 p)⟩ : Opf.Args.Env ℕ) P.lbu = false := by
    rw [e2]
    have hlt : l < h.length := by
      by_contra hc
      exact hlen (by unfold lenIn; rw [List.getElem?_eq_none (by omega)])
    have : lenIn (h1 ++ consts) l = lenIn h l := by
      obtain ⟨-, len0, -, old0⟩ := load_inv w (inv_start h) hl
      unfold lenIn
      rw [List.getElem?_append_left (by omega), old0 l hlt]
    simp [Opf.Args.blank, this, hlen]
  rw [hb] at hA hL hU
  rw [if_neg (by decide), e1] at hA
  rw [if_neg (by decide), e2] at hL
  rw [if_neg (by decide), e3] at hU
  refine ⟨?_, ?_, ?_⟩
  · rw [hf "A" (by decide) (by decide) (by decide) (by decide)]
    show ((d2 _).elim _ _) = _
    rw [hA]; rfl
  · rw [hf "l" (by decide) (by decide) (by decide) (by decide)]
    show ((d2 _).elim _ _) = _
    rw [hL]; rfl
  · rw [hf "u" (by decide) (by decide) (by decide) (by decide)]
    show ((d2 _).elim _ _) = _
    rw [hU]; rfl

/-- The keys of user data. -/
def userKeys : List String := ["A", "l", "u", "N", "Cw", "fparm", "H", "z0", "zl", "zu", "userfcn"]

theorem dictOf_some {h : Heap} {p : ℕ} {k : String} {x : ℕ} {t : Table ℚ} (hx : field h p k = some x) (hv : value h x = some (.tab t)) : dictOf h p k = some (some x) := by
  unfold dictOf
  rw [hx, Option.map_some, hv]

theorem dictOf_none {h : Heap} {p : ℕ} {k : String} (hx : field h p k = none) : dictOf h p k = none := by
  unfold dictOf
  rw [hx]
  rfl

/-- **C117 (optimal power flow of a plain case).**  `opf` of a dictionary without user data, with nothing but options, leaves in it the tables it had, in version 2 and with zero columns
added for the results, no user data, and everything else as it was. -/
theorem C117_plain_partial (w : World) {h : Heap} {r : ℕ} {g b bs : Table ℚ} (ht : HasTables h r g b) (hb : fieldVal h r "bus" = some (.tab bs))
    (hu : ∀ k ∈ userKeys, field h r k = none) (po : Option ℕ) (rest : List Act) {h' : Heap} {ls : List ℕ}
    (ho : opf w h r [po] rest = some (h', ls)) :
    fieldVal h' r "bus" = some (.tab (wide 17 bs)) ∧ fieldVal h' r "gen" = some (.tab (wide 25 (loadTables (-360) 360 none g b).1)) ∧
      fieldVal h' r "branch" = some (.tab (wide 21 (loadTables (-360) 360 none g b).2)) ∧ (∀ k ∈ userKeys, field h' r k = none) ∧
      ∀ k, k ∉ opfKeys → field h' r k = field h r k := by
  obtain ⟨h1, p, d, hl, hd, hf, hw⟩ := opf_field w h r _ rest ho
  obtain ⟨h1', hl', good, -, c3, c4, c5, c6⟩ := load_core w ht
  rw [hl] at hl'
  obtain ⟨rfl, rfl⟩ : h1 = h1' ∧ p = r + 3 * h.length := by
    injection hl' with a b
    injection b with b
    injection b with b
    exact ⟨a, b⟩
  obtain ⟨-, len0, -, old0⟩ := load_inv w (inv_start h) hl
  obtain ⟨d2, q⟩ := d
  obtain ⟨P, hP, -, -, hbus, hgen, hbranch, -, hA, hL, hU, hN, hCw, hfp, hH, hz0, hzl, hzu, huf, -⟩ := Opf.Args.dict_spec _ hd
  obtain ⟨e0, he0⟩ := load_entries hl
  have hrlt : r < h.length := (List.getElem?_eq_some_iff.1 (entries_iff.1 he0)).1
  have noL : ∀ k ∈ userKeys, dictOf h1 (r + 3 * h.length) k = none := by
    intro k hk
    refine dictOf_none ?_
    rw [c5 k (by rintro rfl; revert hk; decide) (by rintro rfl; revert hk; decide) (by rintro rfl; revert hk; decide), hu k hk]
    rfl
  have noR : ∀ k ∈ userKeys, dictOf h1 r k = none := fun k hk => dictOf_none ((field_congr (old0 r hrlt) k).trans (hu k hk))
  simp only [Opf.Args.opfArgs, Opf.Args.caseForm, Option.bind_eq_bind, Option.bind_some, Option.bind_eq_some_iff] at hP
  obtain ⟨P0, h0, hfin⟩ := hP
  obtain ⟨_, bus0, gen0, branch0, _, cons, cost, -, d1, d2', d3, -, hc, hcc, rfl⟩ := Opf.Args.fromCase_spec _ h0
  obtain ⟨-, rfl⟩ := Opf.Args.finish_spec _ hfin
  unfold Opf.Args.caseCons at hc
  rw [if_neg (by rw [noL "A" (by decide)]; simp)] at hc
  cases hc
  unfold Opf.Args.caseCost at hcc
  rw [if_neg (by rw [noL "N" (by decide)]; simp)] at hcc
  cases hcc
  have bl : ∀ L : Opf.Args.Dict ℕ, Opf.Args.blank (⟨lenIn (h1 ++ consts), lenIn (h1 ++ consts), h1.length + 1, h1.length + 2, fun _ => none, fun _ => some L⟩ : Opf.Args.Env ℕ) (some (h1.length + 1)) = true := by
    intro L
    have : lenIn (h1 ++ consts) (h1.length + 1) = 0 := by
      unfold lenIn
      rw [List.getElem?_append_right (by omega), Nat.add_sub_cancel_left]
      rfl
    simp [Opf.Args.blank, this]
  simp only [Opf.Args.startDict, noL "fparm" (by decide), noL "H" (by decide), noL "z0" (by decide), noL "zl" (by decide), noL "zu" (by decide), noL "userfcn" (by decide),
    Option.getD_none, ite_self, bl, if_true] at hA hL hU hN hCw hfp hH hz0 hzl hzu huf
  have valid : ∀ {k x}, field h1 (r + 3 * h.length) k = some x → x < h1.length := by
    intro k x hx
    obtain ⟨dd, hdd, hv⟩ := good
    unfold field at hx
    rw [hdd] at hx
    exact hv _ (mem_of_lookup hx)
  refine ⟨?_, ?_, ?_, fun k hk => ?_, (C117_opf_partial w h r _ rest ho).2.1⟩
  · obtain ⟨x, hx, hxv⟩ := Option.bind_eq_some_iff.1 hb
    have hxh : field h1 (r + 3 * h.length) "bus" = some (x + 3 * h.length) := by
      rw [c5 "bus" (by decide) (by decide) (by decide), hx]; rfl
    have hxr : x ≠ r := by
      rintro rfl
      exact leaf_not_dict hxv he0
    have hv1 : value h1 (x + 3 * h.length) = some (.tab bs) := by
      rw [value_iff]
      exact c6 x _ hxr (value_iff.1 hxv)
    have e1 : bus0 = some (x + 3 * h.length) := by
      have := dictOf_some hxh hv1
      rw [d1] at this
      exact Option.some.inj this
    exact hw ("bus", 17) (by simp) _ _ (by rw [← e1]; exact hbus) (valid hxh) hv1
  · obtain ⟨x, hx, hxv⟩ := Option.bind_eq_some_iff.1 c3
    have e1 : gen0 = some x := by
      have := dictOf_some hx hxv
      rw [d2'] at this
      exact Option.some.inj this
    exact hw ("gen", 25) (by simp) _ _ (by rw [← e1]; exact hgen) (valid hx) hxv
  · obtain ⟨x, hx, hxv⟩ := Option.bind_eq_some_iff.1 c4
    have e1 : branch0 = some x := by
      have := dictOf_some hx hxv
      rw [d3] at this
      exact Option.some.inj this
    exact hw ("branch", 21) (by simp) _ _ (by rw [← e1]; exact hbranch) (valid hx) hxv
  · have hk' : k ∈ opfKeys := by
      have : userKeys ⊆ opfKeys := by decide
      exact this hk
    rw [hf k hk' (by rintro rfl; revert hk; decide) (by rintro rfl; revert hk; decide) (by rintro rfl; revert hk; decide)]
    have : d2 k = none := by
      have nk := noR k hk
      simp only [userKeys, List.mem_cons, List.not_mem_nil, or_false] at hk
      rcases hk with rfl | rfl | rfl | rfl | rfl | rfl | rfl | rfl | rfl | rfl | rfl
      exacts [hA.trans nk, hL.trans nk, hU.trans nk, hN.trans nk, hCw.trans nk, hfp.trans nk, hH.trans nk, hz0.trans nk, hzl.trans nk, hzu.trans nk, huf.trans nk]
    dsimp only
    rw [this]
    exact hu k hk

/-- **C117 is false of the code (the next call).**  A later call with the same dictionary and no constraints takes those it finds: it solves the constrained problem. -/
theorem C117_next {V : Type} (e : Opf.Args.Env V) (d L : Opf.Args.Dict V) (A l u po : Option V) (hL : e.load d = some L) (hA : L "A" = some A) (hl : L "l" = some l)
    (hu : L "u" = some u) {p : Opf.Args.Parsed V} (hp : Opf.Args.opfArgs e (.dict d) [po] = some p) : p.Au = A ∧ p.lbu = l ∧ p.ubu = u := by
  simp only [Opf.Args.opfArgs, Opf.Args.caseForm, hL, Option.bind_eq_bind, Option.bind_some, Option.bind_eq_some_iff] at hp
  obtain ⟨P0, h0, hfin⟩ := hp
  obtain ⟨_, _, _, _, _, cons, cost, -, -, -, -, -, hc, -, rfl⟩ := Opf.Args.fromCase_spec _ h0
  obtain ⟨-, rfl⟩ := Opf.Args.finish_spec _ hfin
  unfold Opf.Args.caseCons at hc
  rw [if_pos (by rw [hA]; simp), hA, hl, hu] at hc
  cases hc
  exact ⟨rfl, rfl, rfl⟩

/-! ### Unit decommitment -/

section
open Uopf
variable {B R : Type} [CommRing R] [LinearOrder R] {opf : B → List (Row R) → Option (Res B R)}

/-- The result is that of `uopf`. -/
theorem stagesIn_result : ∀ (n : ℕ) (r0 : Res B R) (gen : List (Row R)) {r : Res B R} {b : B} {g : List (Row R)},
    stagesIn opf n r0 gen = some (r, b, g) → stages opf n r0 = .done r
  | 0, _, _, _, _, _, h => by cases h
  | n + 1, r0, gen, r, b, g, h => by
    unfold stagesIn at h
    unfold stages
    split at h
    · rename_i hc
      cases h
      rw [hc]
    · rename_i k ks hc
      rw [hc]
      dsimp only
      split at h
      · cases h
      · rename_i hx
        cases h
        rw [hx]
      · rename_i r1 hx
        rw [hx]
        exact stagesIn_result n r1 _ h

/-- If the last stage had candidates, none of them helped, and the last one tried is off in the caller's table. -/
theorem stagesIn_last : ∀ (n : ℕ) (r0 : Res B R) (gen : List (Row R)) {r : Res B R} {b : B} {g : List (Row R)},
    stagesIn opf n r0 gen = some (r, b, g) → b = r.bus ∧ ∀ k, (candidates r.gen).getLast? = some k → g = switchOff r.gen k
  | 0, _, _, _, _, _, h => by cases h
  | n + 1, r0, gen, r, b, g, h => by
    unfold stagesIn at h
    split at h
    · rename_i hc
      cases h
      exact ⟨rfl, fun k hk => by rw [hc] at hk; cases hk⟩
    · rename_i k ks hc
      split at h
      · cases h
      · cases h
        refine ⟨rfl, fun k' hk => ?_⟩
        rw [hc] at hk
        unfold lastTried
        rw [hk]
      · exact stagesIn_last n _ _ h

/-- **C117 is false of the code (unit decommitment).**  `uopf` returns what C51 says, but if the returned solution has a unit that was tried without success, then in the caller's
generator table the last such unit is out of service, and the bus table is that of the solution. -/
theorem C117_uopf (pd : B → List R) (cost : List (Row R) → List R) (n : ℕ) (bus : B) (gen : List (Row R)) {r : Res B R} {b : B} {g : List (Row R)}
    (hu : uopfIn opf pd cost n bus gen = some (r, b, g)) :
    uopf opf pd cost n bus gen = .done r ∧ b = r.bus ∧
      ∀ k, (candidates r.gen).getLast? = some k → g = switchOff r.gen k ∧ ∀ row ∈ g[k]?, row.status = 0 := by
  unfold uopfIn at hu
  unfold uopf
  split at hu
  · cases hu
  · rename_i gen' hg
    rw [hg]
    dsimp only
    split at hu
    · cases hu
    · rename_i r0 h0
      rw [h0]
      obtain ⟨h1, h2⟩ := stagesIn_last n r0 gen' hu
      refine ⟨stagesIn_result n r0 gen' hu, h1, fun k hk => ⟨h2 k hk, fun row hrow => ?_⟩⟩
      rw [h2 k hk] at hrow
      unfold switchOff at hrow
      rw [List.getElem?_modify] at hrow
      simp only [if_true, Option.mem_def] at hrow
      obtain ⟨q, -, rfl⟩ := Option.map_eq_some_iff.1 hrow
      rfl

end

end Verif.Caller
