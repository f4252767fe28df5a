import Verif.Loadcase.Spec

/-!
# Lemmas for C116
-/

namespace Verif.Loadcase

open CaseIO

theorem lookup_shift (N : ℕ) (d : List (String × ℕ)) (k : String) : lookup (d.map fun p => (p.1, p.2 + N)) k = (lookup d k).map (· + N) := by
  unfold lookup
  rw [List.find?_map]
  cases h : List.find? (fun p => p.1 == k) d with
  | none =>
    have : List.find? ((fun p : String × ℕ => p.1 == k) ∘ fun p : String × ℕ => (p.1, p.2 + N)) d = none := h
    rw [this]; rfl
  | some q =>
    have : List.find? ((fun p : String × ℕ => p.1 == k) ∘ fun p : String × ℕ => (p.1, p.2 + N)) d = some q := h
    rw [this]; rfl

theorem lookup_insert (d : List (String × ℕ)) (k j : String) (r : ℕ) : lookup (insert d k r) j = if j = k then some r else lookup d j := by
  unfold lookup insert
  by_cases h : j = k
  · subst h; simp
  · rw [if_neg h, List.find?_cons_of_neg (by simpa using fun e => h e.symm)]
    congr 1
    rw [List.find?_filter]
    congr 1
    funext p
    by_cases hp : p.1 = j
    · subst hp; simp [h]
    · have : (p.1 == j) = false := by simpa using hp
      simp [this]

theorem mem_of_lookup {d : List (String × ℕ)} {k : String} {r : ℕ} (h : lookup d k = some r) : (k, r) ∈ d := by
  unfold lookup at h
  obtain ⟨q, hq, rfl⟩ := Option.map_eq_some_iff.1 h
  have h1 := List.mem_of_find?_eq_some hq
  have h2 := List.find?_some hq
  rw [beq_iff_eq] at h2
  rw [← h2]
  exact h1

theorem entries_iff {h : Heap} {r : ℕ} {d : List (String × ℕ)} : entries h r = some d ↔ h[r]? = some (.dict d) := by
  unfold entries
  split
  · rename_i d' hd
    rw [hd]
    constructor
    · rintro ⟨⟩; rfl
    · rintro ⟨⟩; rfl
  · rename_i hne
    constructor
    · intro h; cases h
    · intro h; exact absurd h (hne d)

theorem value_iff {h : Heap} {r : ℕ} {v : Val} : value h r = some v ↔ h[r]? = some (.leaf v) := by
  unfold value
  split
  · rename_i d' hd
    rw [hd]
    constructor
    · rintro ⟨⟩; rfl
    · rintro ⟨⟩; rfl
  · rename_i hne
    constructor
    · intro h; cases h
    · intro h; exact absurd h (hne v)

/-- What `field` and `value` see depends on the object only. -/
theorem entries_congr {h h' : Heap} {r r' : ℕ} (e : h[r]? = h'[r']?) : entries h r = entries h' r' := by unfold entries; rw [e]
theorem value_congr {h h' : Heap} {r r' : ℕ} (e : h[r]? = h'[r']?) : value h r = value h' r' := by unfold value; rw [e]
theorem field_congr {h h' : Heap} {r r' : ℕ} (e : h[r]? = h'[r']?) (k : String) : field h r k = field h' r' k := by unfold field; rw [entries_congr e]

/-! ### Assignments -/

theorem put_length (h : Heap) (p : ℕ) (k : String) (r : ℕ) : (put h p k r).length = h.length := by
  unfold put; split <;> simp

theorem put_other {h : Heap} {p : ℕ} {k : String} {r : ℕ} {i : ℕ} (hi : i ≠ p) : (put h p k r)[i]? = h[i]? := by
  unfold put
  split
  · exact List.getElem?_set_ne (fun e => hi e.symm)
  · rfl

theorem put_self {h : Heap} {p : ℕ} {k : String} {r : ℕ} {d : List (String × ℕ)} (hd : entries h p = some d) : entries (put h p k r) p = some (insert d k r) := by
  unfold put
  rw [hd]
  rw [entries_iff] at hd ⊢
  obtain ⟨hlt, -⟩ := List.getElem?_eq_some_iff.1 hd
  exact List.getElem?_set_self hlt

theorem store_length (h : Heap) (p : ℕ) (k : String) (v : Val) : (store h p k v).length = h.length + 1 := by
  unfold store; rw [put_length]; simp [alloc]

theorem store_other {h : Heap} {p : ℕ} {k : String} {v : Val} {i : ℕ} (hi : i ≠ p) (hlt : i < h.length) : (store h p k v)[i]? = h[i]? := by
  unfold store
  rw [put_other hi]
  exact List.getElem?_append_left hlt

theorem store_self {h : Heap} {p : ℕ} {k : String} {v : Val} {d : List (String × ℕ)} (hd : entries h p = some d) : entries (store h p k v) p = some (insert d k h.length) := by
  unfold store
  apply put_self
  rw [entries_iff] at hd ⊢
  obtain ⟨hlt, -⟩ := List.getElem?_eq_some_iff.1 hd
  rw [← hd]
  exact List.getElem?_append_left hlt

theorem store_new {h : Heap} {p : ℕ} {k : String} {v : Val} (hp : p < h.length) : value (store h p k v) h.length = some v := by
  rw [value_iff]
  unfold store
  rw [put_other (i := h.length) (by omega)]
  simp [alloc]

/-- Entry under the key that was assigned and under others. -/
theorem store_field {h : Heap} {p : ℕ} {k j : String} {v : Val} {d : List (String × ℕ)} (hd : entries h p = some d) :
    field (store h p k v) p j = if j = k then some h.length else field h p j := by
  unfold field
  rw [store_self hd, hd]
  exact lookup_insert d k j _

/-- Values under keys after an assignment; `p` is not an entry of itself and its entries are objects. -/
theorem store_fieldVal {h : Heap} {p : ℕ} {k j : String} {v : Val} {d : List (String × ℕ)} (hd : entries h p = some d) (hv : ∀ q ∈ d, q.2 < h.length) :
    fieldVal (store h p k v) p j = if j = k then some v else fieldVal h p j := by
  have hp : p < h.length := (List.getElem?_eq_some_iff.1 (entries_iff.1 hd)).1
  unfold fieldVal
  rw [store_field hd]
  by_cases hj : j = k
  · rw [if_pos hj, if_pos hj]
    exact store_new hp
  · rw [if_neg hj, if_neg hj]
    unfold field
    rw [hd]
    show (lookup d j).bind _ = (lookup d j).bind _
    cases hl : lookup d j with
    | none => rfl
    | some r =>
      show value _ r = value _ r
      by_cases hr : r = p
      · subst hr
        have e1 : value h r = none := by
          unfold value; rw [entries_iff.1 hd]
        have e2 : value (store h r k v) r = none := by
          unfold value; rw [entries_iff.1 (store_self hd)]
        rw [e1, e2]
      · exact value_congr (store_other hr (hv _ (mem_of_lookup hl)))

/-! ### Separation -/

/-- From position `n` on, dictionaries refer to positions from `n` on only. -/
def Sep (n : ℕ) (h : Heap) : Prop := ∀ (i : ℕ) (d : List (String × ℕ)), n ≤ i → h[i]? = some (.dict d) → ∀ q ∈ d, n ≤ q.2

theorem Sep.reach {n : ℕ} {h : Heap} (hs : Sep n h) {a b : ℕ} (ha : n ≤ a) (hr : Reach h a b) : n ≤ b := by
  induction hr with
  | refl => exact ha
  | step hf _ ih =>
    obtain ⟨d, hd, hl⟩ := Option.bind_eq_some_iff.1 hf
    exact ih (hs _ d ha (entries_iff.1 hd) _ (mem_of_lookup hl))

theorem deepcopy_get {h : Heap} {r : ℕ} (i : ℕ) : (deepcopy h r).1[i + h.length]? = (h[i]?).map (Obj.shift h.length) := by
  unfold deepcopy
  rw [List.getElem?_append_right (by omega), Nat.add_sub_cancel, List.getElem?_map]

theorem deepcopy_old {h : Heap} {r : ℕ} {i : ℕ} (hi : i < h.length) : (deepcopy h r).1[i]? = h[i]? := List.getElem?_append_left hi

theorem deepcopy_length (h : Heap) (r : ℕ) : (deepcopy h r).1.length = h.length + h.length := by simp [deepcopy]

theorem deepcopy_sep (h : Heap) (r : ℕ) : Sep h.length (deepcopy h r).1 := by
  intro i d hi hd q hq
  obtain ⟨j, rfl⟩ : ∃ j, i = j + h.length := ⟨i - h.length, by omega⟩
  rw [deepcopy_get] at hd
  obtain ⟨o, ho, hod⟩ := Option.map_eq_some_iff.1 hd
  cases o with
  | leaf v => cases hod
  | dict d' =>
    have : d = d'.map fun p => (p.1, p.2 + h.length) := by cases hod; rfl
    rw [this] at hq
    obtain ⟨q', -, rfl⟩ := List.mem_map.1 hq
    exact Nat.le_add_left _ _

theorem store_sep {n : ℕ} {h : Heap} {p : ℕ} {k : String} {v : Val} (hs : Sep n h) (hn : n ≤ h.length) (hp : n ≤ p) : Sep n (store h p k v) := by
  intro i d hi hd q hq
  have halloc : Sep n (alloc h (.leaf v)).1 := by
    intro i d hi hd
    unfold alloc at hd
    by_cases hlt : i < h.length
    · rw [List.getElem?_append_left hlt] at hd
      exact hs i d hi hd
    · rw [List.getElem?_append_right (by omega)] at hd
      cases hz : i - h.length with
      | zero => rw [hz] at hd; cases hd
      | succ m => rw [hz] at hd; cases hd
  by_cases hip : i = p
  · subst hip
    unfold store put at hd
    cases he : entries (alloc h (.leaf v)).1 i with
    | none =>
      rw [he] at hd
      exact halloc i d hi hd q hq
    | some d0 =>
      have h1 : entries (put (alloc h (.leaf v)).1 i k h.length) i = some (insert d0 k h.length) := put_self he
      rw [he] at hd
      unfold put at h1
      rw [he] at h1
      rw [entries_iff] at h1
      rw [h1] at hd
      cases hd
      rcases List.mem_cons.1 hq with rfl | hq
      · exact hn
      · exact halloc i d0 hi (entries_iff.1 he) q (List.mem_of_mem_filter hq)
  · unfold store at hd
    rw [put_other hip] at hd
    exact halloc i d hi hd q hq

theorem store_old {n : ℕ} {h : Heap} {p : ℕ} {k : String} {v : Val} (hn : n ≤ h.length) (hp : n ≤ p) {i : ℕ} (hi : i < n) : (store h p k v)[i]? = h[i]? :=
  store_other (by omega) (by omega)

/-- The conversion changes nothing before `n`, and separation is kept. -/
theorem convert_sep {n : ℕ} {h : Heap} {p : ℕ} (hs : Sep n h) (hn : n ≤ h.length) (hp : n ≤ p) :
    Sep n (convert h p).1 ∧ n ≤ (convert h p).1.length ∧ ∀ i < n, (convert h p).1[i]? = h[i]? := by
  have one : ∀ {g : Heap} (k : String) (v : Val), (Sep n g ∧ n ≤ g.length ∧ ∀ i < n, g[i]? = h[i]?) →
      Sep n (store g p k v) ∧ n ≤ (store g p k v).length ∧ ∀ i < n, (store g p k v)[i]? = h[i]? := by
    rintro g k v ⟨h1, h2, h3⟩
    exact ⟨store_sep h1 h2 hp, by rw [store_length]; omega, fun i hi => (store_old h2 hp hi).trans (h3 i hi)⟩
  have base : Sep n h ∧ n ≤ h.length ∧ ∀ i < n, h[i]? = h[i]? := ⟨hs, hn, fun _ _ => rfl⟩
  unfold convert
  split
  · split_ifs
    · exact one _ _ base
    · exact one _ _ (one _ _ base)
    · split
      · exact one _ _ (one _ _ (one _ _ (one _ _ base)))
      · exact one _ _ base
  · exact base

theorem fields_reach {h : Heap} {p : ℕ} {ks : List String} {rs : List ℕ} (e : fields h p ks = .ok rs) : ∀ r ∈ rs, ∃ k ∈ ks, field h p k = some r := by
  induction ks generalizing rs with
  | nil => cases e; simp
  | cons k ks ih =>
    unfold fields at e
    split at e
    · cases e
    · rename_i r hr
      cases hf : fields h p ks with
      | error x => rw [hf] at e; cases e
      | ok qs =>
        rw [hf] at e
        cases e
        intro q hq
        rcases List.mem_cons.1 hq with rfl | hq
        · exact ⟨k, List.mem_cons_self, hr⟩
        · obtain ⟨j, hj, hq⟩ := ih hf q hq
          exact ⟨j, List.mem_cons_of_mem _ hj, hq⟩

/-! ### The copy -/

theorem shift_shift (m n : ℕ) (o : Obj) : (o.shift m).shift n = o.shift (m + n) := by
  cases o with
  | leaf v => rfl
  | dict d =>
    simp only [Obj.shift, List.map_map]
    congr 1
    apply List.map_congr_left
    intro q _
    simp [Nat.add_assoc]

/-- Objects copied with a displacement `N` look the same, if they do not lead to the one that is changed. -/
theorem eq_copy {h H : Heap} {N r : ℕ} (hv : Valid h) (hc : ∀ (i : ℕ) (o : Obj), i ≠ r → h[i]? = some o → H[i + N]? = some (o.shift N)) :
    ∀ (n : ℕ) (a : ℕ), a < h.length → ¬ Reach h a r → EqTo h H n a (a + N) := by
  intro n
  induction n with
  | zero => intros; trivial
  | succ n ih =>
    intro a ha hr
    have hne : a ≠ r := fun e => hr (e ▸ Reach.refl a)
    have ho : h[a]? = some h[a] := List.getElem?_eq_getElem ha
    have hH := hc a _ hne ho
    cases hoa : h[a] with
    | leaf v =>
      rw [hoa] at ho hH
      have e1 : entries h a = none := by unfold entries; rw [ho]
      have e2 : entries H (a + N) = none := by unfold entries; rw [hH]; rfl
      refine ⟨?_, by rw [e1, e2], fun k => Or.inl ⟨?_, ?_⟩⟩
      · unfold value; rw [ho, hH]; rfl
      · unfold field; rw [e1]; rfl
      · unfold field; rw [e2]; rfl
    | dict d =>
      rw [hoa] at ho hH
      have e1 : entries h a = some d := entries_iff.2 ho
      have e2 : entries H (a + N) = some (d.map fun p => (p.1, p.2 + N)) := entries_iff.2 hH
      refine ⟨?_, by rw [e1, e2]; rfl, fun k => ?_⟩
      · unfold value; rw [ho, hH]; rfl
      · cases hl : lookup d k with
        | none =>
          refine Or.inl ⟨?_, ?_⟩
          · unfold field; rw [e1]; exact hl
          · unfold field; rw [e2]
            show lookup _ k = none
            rw [lookup_shift, hl]; rfl
        | some b =>
          have hf : field h a k = some b := by unfold field; rw [e1]; exact hl
          refine Or.inr ⟨b, b + N, hf, ?_, ih b (hv a d ho _ (mem_of_lookup hl)) fun hb => hr (Reach.step hf hb)⟩
          unfold field; rw [e2]
          show lookup _ k = some (b + N)
          rw [lookup_shift, hl]; rfl

/-! ### The conversion -/

/-- `p` is a dictionary whose entries are objects. -/
def Good (h : Heap) (p : ℕ) : Prop := ∃ d, entries h p = some d ∧ ∀ q ∈ d, q.2 < h.length

theorem store_good {h : Heap} {p : ℕ} {k : String} {v : Val} (hg : Good h p) : Good (store h p k v) p := by
  obtain ⟨d, hd, hv⟩ := hg
  refine ⟨_, store_self hd, fun q hq => ?_⟩
  rw [store_length]
  rcases List.mem_cons.1 hq with rfl | hq
  · show h.length < _; omega
  · have := hv q (List.mem_of_mem_filter hq); omega

theorem good_fieldVal {h : Heap} {p : ℕ} {k j : String} {v : Val} (hg : Good h p) : fieldVal (store h p k v) p j = if j = k then some v else fieldVal h p j := by
  obtain ⟨d, hd, hv⟩ := hg
  exact store_fieldVal hd hv

theorem good_field {h : Heap} {p : ℕ} {k j : String} {v : Val} (hg : Good h p) (hj : j ≠ k) : field (store h p k v) p j = field h p j := by
  obtain ⟨d, hd, hv⟩ := hg
  rw [store_field hd, if_neg hj]

theorem convert_spec {h : Heap} {p : ℕ} (hg : Good h p) {g b : Table ℚ} (h1 : fieldVal h p "gen" = some (.tab g)) (h2 : fieldVal h p "branch" = some (.tab b)) :
    (convert h p).2 = .ok () ∧ fieldVal (convert h p).1 p "version" = some (.str "2") ∧
      fieldVal (convert h p).1 p "gen" = some (.tab (loadTables (-360) 360 none g b).1) ∧
      fieldVal (convert h p).1 p "branch" = some (.tab (loadTables (-360) 360 none g b).2) ∧
      (∀ k, k ≠ "version" → k ≠ "gen" → k ≠ "branch" → field (convert h p).1 p k = field h p k) ∧
      (∀ i, i ≠ p → i < h.length → (convert h p).1[i]? = h[i]?) ∧ Good (convert h p).1 p := by
  unfold convert
  rw [h1, h2]
  dsimp only
  unfold loadTables ppc1to2
  by_cases c1 : 21 ≤ g.cols
  · rw [if_pos c1, if_neg (by omega)]
    refine ⟨rfl, ?_, ?_, ?_, fun k k1 k2 k3 => good_field hg k1, fun i hi hlt => store_other hi hlt, store_good hg⟩
    · rw [good_fieldVal hg, if_pos rfl]
    · rw [good_fieldVal hg, if_neg (by decide), h1]
    · rw [good_fieldVal hg, if_neg (by decide), h2]
  · rw [if_neg c1, if_pos (by omega : g.cols < 21)]
    have g1 : Good (store h p "version" (.str "1")) p := store_good hg
    by_cases c2 : 20 ≤ g.cols
    · rw [if_pos c2, if_pos c2]
      refine ⟨rfl, ?_, ?_, ?_, fun k k1 k2 k3 => ?_, fun i hi hlt => ?_, store_good g1⟩
      · rw [good_fieldVal g1, if_pos rfl]
      · rw [good_fieldVal g1, if_neg (by decide), good_fieldVal hg, if_neg (by decide), h1]
      · rw [good_fieldVal g1, if_neg (by decide), good_fieldVal hg, if_neg (by decide), h2]
      · rw [good_field g1 k1, good_field hg k1]
      · rw [store_other hi (by rw [store_length]; omega), store_other hi hlt]
    · rw [if_neg c2, if_neg c2]
      dsimp only
      have g2 : Good (store (store h p "version" (.str "1")) p "gen" (.tab (gen1to2 g))) p := store_good g1
      have g3 : Good (store (store (store h p "version" (.str "1")) p "gen" (.tab (gen1to2 g))) p "branch" (.tab (branch1to2 (-360) 360 b))) p := store_good g2
      refine ⟨rfl, ?_, ?_, ?_, fun k k1 k2 k3 => ?_, fun i hi hlt => ?_, store_good g3⟩
      · rw [good_fieldVal g3, if_pos rfl]
      · rw [good_fieldVal g3, if_neg (by decide), good_fieldVal g2, if_neg (by decide), good_fieldVal g1, if_pos rfl]
      · rw [good_fieldVal g3, if_neg (by decide), good_fieldVal g2, if_pos rfl]
      · rw [good_field g3 k1, good_field g2 k3, good_field g1 k2, good_field hg k1]
      · rw [store_other hi (by simp only [store_length]; omega), store_other hi (by simp only [store_length]; omega), store_other hi (by simp only [store_length]; omega), store_other hi hlt]

/-- The check passes when the keys have values. -/
theorem missing_ok {h : Heap} {s : ℕ} {ks : List String} (hk : ∀ k ∈ ks, ∃ r, field h s k = some r ∧ value h r ≠ some .none) : missing h s ks = .ok false := by
  induction ks with
  | nil => rfl
  | cons k ks ih =>
    obtain ⟨r, h1, h2⟩ := hk k List.mem_cons_self
    obtain ⟨d, hd, hl⟩ := Option.bind_eq_some_iff.1 h1
    have : isNone h s k = .ok false := by
      unfold isNone
      rw [hd]
      dsimp only
      rw [hl]
      dsimp only
      split
      · rename_i e; exact absurd e h2
      · rfl
    unfold missing
    rw [this]
    exact ih fun k hk' => hk k (List.mem_cons_of_mem _ hk')

/-- What passing the check means. -/
theorem missing_iff {h : Heap} {s : ℕ} {ks : List String} (e : missing h s ks = .ok false) : ∀ k ∈ ks, ∃ r, field h s k = some r ∧ value h r ≠ some .none := by
  induction ks with
  | nil => simp
  | cons k ks ih =>
    unfold missing at e
    split at e
    · rename_i he
      intro j hj
      rcases List.mem_cons.1 hj with rfl | hj
      · unfold isNone at he
        split at he
        · cases he
        · rename_i d hd
          split at he
          · cases he
          · rename_i r hl
            refine ⟨r, by unfold field; rw [hd]; exact hl, fun hv => ?_⟩
            rw [hv] at he
            cases he
      · exact ih e j hj
    · rename_i x hx
      rw [e] at hx
      exact absurd rfl (hx · |>.elim)

end Verif.Loadcase
