import Verif.Caller.Frame
import Verif.Opf.ArgsProps

/-!
# C117: optimal power flows and the caller's dictionary
-/

namespace Verif.Caller

open CaseIO Loadcase

theorem put_field {h : Heap} {p : ℕ} {k j : String} {x : ℕ} {d : List (String × ℕ)} (hd : entries h p = some d) :
    field (put h p k x) p j = if j = k then some x else field h p j := by
  unfold field
  rw [put_self hd, hd]
  exact lookup_insert d k j x

/-- The object a key is given. -/
def given (z : ℕ) : Option ℕ → ℕ
  | some x => x
  | none => z

theorem assign_spec (z r : ℕ) (d : Opf.Args.Dict ℕ) (h : Heap) (k : String) {e : List (String × ℕ)} (he : entries h r = some e) :
    (∃ e', entries (assign z r d h k) r = some e') ∧ (assign z r d h k).length = h.length ∧ (∀ i, i ≠ r → (assign z r d h k)[i]? = h[i]?) ∧
      ∀ j, field (assign z r d h k) r j = if j = k then (d k).elim (field h r k) (fun v => some (given z v)) else field h r j := by
  unfold assign
  split
  · rename_i x hx
    refine ⟨⟨_, put_self he⟩, put_length .., fun i hi => put_other hi, fun j => ?_⟩
    rw [put_field he, hx]
    rfl
  · rename_i hx
    refine ⟨⟨_, put_self he⟩, put_length .., fun i hi => put_other hi, fun j => ?_⟩
    rw [put_field he, hx]
    rfl
  · rename_i hx
    refine ⟨⟨_, he⟩, rfl, fun _ _ => rfl, fun j => ?_⟩
    rw [hx]
    by_cases hj : j = k
    · rw [if_pos hj, hj]; rfl
    · rw [if_neg hj]

theorem assigns_spec (z r : ℕ) (d : Opf.Args.Dict ℕ) : ∀ (ks : List String) (h : Heap) {e : List (String × ℕ)} (_ : entries h r = some e),
    (∃ e', entries (ks.foldl (assign z r d) h) r = some e') ∧ (ks.foldl (assign z r d) h).length = h.length ∧
      (∀ i, i ≠ r → (ks.foldl (assign z r d) h)[i]? = h[i]?) ∧
      ∀ j, field (ks.foldl (assign z r d) h) r j = if j ∈ ks then (d j).elim (field h r j) (fun v => some (given z v)) else field h r j
  | [], h, e, he => ⟨⟨e, he⟩, rfl, fun _ _ => rfl, fun j => by simp⟩
  | k :: ks, h, e, he => by
    obtain ⟨⟨e1, he1⟩, l1, o1, f1⟩ := assign_spec z r d h k he
    obtain ⟨⟨e2, he2⟩, l2, o2, f2⟩ := assigns_spec z r d ks (assign z r d h k) he1
    refine ⟨⟨e2, he2⟩, l2.trans l1, fun i hi => (o2 i hi).trans (o1 i hi), fun j => ?_⟩
    rw [List.foldl_cons, f2 j, f1 j]
    by_cases hjk : j = k
    · subst hjk
      rw [if_pos rfl, if_pos (List.mem_cons_self ..)]
      cases hd : d j with
      | none => simp
      | some v => simp
    · rw [if_neg hjk]
      by_cases hm : j ∈ ks
      · rw [if_pos hm, if_pos (List.mem_cons_of_mem _ hm)]
      · rw [if_neg hm, if_neg (by simp [hjk, hm])]

theorem widen_spec (r : ℕ) (h : Heap) (e : String × ℕ) {d : List (String × ℕ)} (hd : entries h r = some d) :
    (∃ d', entries (widen r h e) r = some d') ∧ h.length ≤ (widen r h e).length ∧ (∀ i < h.length, i ≠ r → (widen r h e)[i]? = h[i]?) ∧
      ∀ j, j ≠ e.1 → field (widen r h e) r j = field h r j := by
  have hr : r < h.length := (List.getElem?_eq_some_iff.1 (entries_iff.1 hd)).1
  unfold widen
  split
  · split_ifs
    · refine ⟨⟨_, store_self hd⟩, by rw [store_length]; omega, fun i hi hir => store_other hir hi, fun j hj => ?_⟩
      rw [store_field hd, if_neg hj]
    · exact ⟨⟨d, hd⟩, le_refl _, fun _ _ _ => rfl, fun _ _ => rfl⟩
  · exact ⟨⟨d, hd⟩, le_refl _, fun _ _ _ => rfl, fun _ _ => rfl⟩

theorem widens_spec (r : ℕ) : ∀ (es : List (String × ℕ)) (h : Heap) {d : List (String × ℕ)} (_ : entries h r = some d),
    (∃ d', entries (es.foldl (widen r) h) r = some d') ∧ h.length ≤ (es.foldl (widen r) h).length ∧ (∀ i < h.length, i ≠ r → (es.foldl (widen r) h)[i]? = h[i]?) ∧
      ∀ j, j ∉ es.map Prod.fst → field (es.foldl (widen r) h) r j = field h r j
  | [], h, d, hd => ⟨⟨d, hd⟩, le_refl _, fun _ _ _ => rfl, fun _ _ => rfl⟩
  | e :: es, h, d, hd => by
    obtain ⟨⟨d1, hd1⟩, l1, o1, f1⟩ := widen_spec r h e hd
    obtain ⟨⟨d2, hd2⟩, l2, o2, f2⟩ := widens_spec r es (widen r h e) hd1
    refine ⟨⟨d2, hd2⟩, l1.trans l2, fun i hi hir => (o2 i (by omega) hir).trans (o1 i hi hir), fun j hj => ?_⟩
    rw [List.map_cons, List.mem_cons, not_or] at hj
    exact (f2 j hj.2).trans (f1 j hj.1)

/-- The dictionary object is one, if it can be loaded. -/
theorem load_entries {w : World} {h h1 : Heap} {r p : ℕ} (hl : loadcase w h (.dict r) = (h1, .ok (.obj p))) : ∃ d, entries h r = some d := by
  cases hd : entries h r with
  | some d => exact ⟨d, rfl⟩
  | none =>
    have e : loadcase w h (.dict r) = finish false (deepcopy h r).1 (deepcopy h r).2 true false false := rfl
    have : entries (deepcopy h r).1 (deepcopy h r).2 = none := by
      unfold entries at hd ⊢
      rw [show (deepcopy h r).1[(deepcopy h r).2]? = _ from deepcopy_get r]
      cases ho : h[r]? with
      | none => rfl
      | some o =>
        cases o with
        | leaf v => rfl
        | dict d => rw [ho] at hd; cases hd
    have hm : missing (deepcopy h r).1 (deepcopy h r).2 (required false false) = .error .type := by
      have h1 : isNone (deepcopy h r).1 (deepcopy h r).2 "baseMVA" = .error .type := by
        unfold isNone
        rw [this]
      show missing _ _ ("baseMVA" :: ["bus", "gen", "branch"]) = _
      unfold missing
      rw [h1]
    rw [e] at hl
    unfold finish at hl
    rw [hm] at hl
    cases hl

/-- **C117 (optimal power flow).**  Of all objects of the caller `opf` changes only the dictionary itself: arrays and nested dictionaries stay as they are, and so do the entries
of the dictionary that `opf` has no use for; the results share nothing with the caller.  (That the dictionary itself is not changed is false: `C117_sticky`, `C117_negation`.) -/
theorem C117_opf_partial (w : World) (h : Heap) (r : ℕ) (args : List (Option ℕ)) (rest : List Act) {h' : Heap} {ls : List ℕ}
    (ho : opf w h r args rest = some (h', ls)) :
    (∀ i < h.length, i ≠ r → h'[i]? = h[i]?) ∧ (∀ k, k ∉ opfKeys → field h' r k = field h r k) ∧ ∀ l ∈ ls, ∀ x, Reach h' l x → h.length ≤ x := by
  obtain ⟨h1, ha, hr⟩ := Option.bind_eq_some_iff.1 ho
  unfold opfArgs2 at ha
  split at ha
  · rename_i h0 p hl
    obtain ⟨d, -, ha⟩ := Option.bind_eq_some_iff.1 ha
    cases ha
    obtain ⟨e, he⟩ := load_entries hl
    have hrlt : r < h.length := (List.getElem?_eq_some_iff.1 (entries_iff.1 he)).1
    obtain ⟨-, len0, -, old0⟩ := load_inv w (inv_start h) hl
    have old1 : ∀ i < h.length, (h0 ++ consts)[i]? = h[i]? := fun i hi => (List.getElem?_append_left (by omega)).trans (old0 i hi)
    have he1 : entries (h0 ++ consts) r = some e := (entries_congr (old1 r hrlt)).trans he
    obtain ⟨⟨e2, he2⟩, l2, o2, f2⟩ := assigns_spec h0.length r d.1 opfKeys _ he1
    obtain ⟨⟨e3, he3⟩, l3, o3, f3⟩ := widens_spec r [("bus", 17), ("gen", 25), ("branch", 21)] _ he2
    have len1 : h.length ≤ (h0 ++ consts).length := by rw [List.length_append]; omega
    have inv := run_inv (n := ([("bus", 17), ("gen", 25), ("branch", 21)].foldl (widen r) (opfKeys.foldl (assign h0.length r d.1) (h0 ++ consts))).length)
      (h0 := [("bus", 17), ("gen", 25), ("branch", 21)].foldl (widen r) (opfKeys.foldl (assign h0.length r d.1) (h0 ++ consts)))
      ⟨deepcopy_sep _ r, by rw [deepcopy_length]; omega, fun l hl => by rw [List.mem_singleton.1 hl]; exact Nat.le_add_left _ _, fun i hi => deepcopy_old hi⟩ rest hr
    refine ⟨fun i hi hir => ?_, fun k hk => ?_, fun l hl x hx => ?_⟩
    · rw [inv.old i (by omega), o3 i (by omega) hir, o2 i hir, old1 i hi]
    · rw [field_congr (inv.old r (by omega)), f3 k ?_, f2 k, if_neg hk, field_congr (old1 r hrlt)]
      intro hm
      apply hk
      simp only [List.map_cons, List.map_nil, List.mem_cons, List.not_mem_nil, or_false] at hm
      rcases hm with rfl | rfl | rfl <;> decide
    · have := inv.sep.reach (inv.own l hl) hx
      omega
  · cases ha

end Verif.Caller
