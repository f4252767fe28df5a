import Verif.SaveMat.Model
import Verif.Loadcase.Props

/-!
# Lemmas for C118
-/

namespace Verif.SaveMat

open CaseIO Loadcase

/-- The value of a variable of the file. -/
def find (es : List (String × Val)) (k : String) : Option Val := (es.find? fun e => e.1 == k).map (·.2)

theorem find_append (a b : List (String × Val)) (k : String) : find (a ++ b) k = (find a k).or (find b k) := by
  unfold find
  rw [List.find?_append]
  cases List.find? (fun e => e.1 == k) a <;> rfl

theorem find_none {es : List (String × Val)} {k : String} (h : k ∉ es.map (·.1)) : find es k = none := by
  unfold find
  rw [Option.map_eq_none_iff, List.find?_eq_none]
  intro e he hk
  exact h (List.mem_map.2 ⟨e, he, by simpa using hk⟩)

/-! ### Saving -/

theorem values_spec {h : Heap} {r : ℕ} {ks : List String} {es : List (String × Val)} (e : values h r ks = .ok es) :
    es.map (·.1) = ks ∧ ∀ k ∈ ks, ∃ x o v, field h r k = some x ∧ h[x]? = some o ∧ toMat o = .ok v ∧ find es k = some v := by
  induction ks generalizing es with
  | nil => cases e; simp
  | cons k ks ih =>
    unfold values at e
    split at e
    · cases e
    · rename_i x hx
      split at e
      · cases e
      · rename_i o ho
        split at e
        · cases e
        · rename_i v hv
          cases hes : values h r ks with
          | error y => rw [hes] at e; cases e
          | ok es' =>
            rw [hes] at e
            cases e
            obtain ⟨i1, i2⟩ := ih hes
            refine ⟨by simp [i1], fun j hj => ?_⟩
            by_cases hjk : j = k
            · subst hjk
              exact ⟨x, o, v, hx, ho, hv, by simp [find]⟩
            · obtain ⟨x', o', v', a1, a2, a3, a4⟩ := i2 j ((List.mem_cons.1 hj).resolve_left hjk)
              refine ⟨x', o', v', a1, a2, a3, ?_⟩
              rw [← a4]
              unfold find
              rw [List.find?_cons_of_neg (by simpa using fun e => hjk e.symm)]

theorem values_ok {h : Heap} {r : ℕ} {ks : List String} (hk : ∀ k ∈ ks, ∃ x o v, field h r k = some x ∧ h[x]? = some o ∧ toMat o = .ok v) : ∃ es, values h r ks = .ok es := by
  induction ks with
  | nil => exact ⟨[], rfl⟩
  | cons k ks ih =>
    obtain ⟨x, o, v, h1, h2, h3⟩ := hk k List.mem_cons_self
    obtain ⟨es, hes⟩ := ih fun j hj => hk j (List.mem_cons_of_mem _ hj)
    refine ⟨(k, v) :: es, ?_⟩
    unfold values
    rw [h1]; dsimp only
    rw [h2]; dsimp only
    rw [h3]; dsimp only
    rw [hes]; rfl

/-! ### Loading -/

theorem lookup_zipIdx (es : List (String × Val)) (n m : ℕ) (k : String) :
    lookup ((es.zipIdx m).map fun p => (p.1.1, n + p.2)) k = none ∧ find es k = none ∨
      ∃ i v, lookup ((es.zipIdx m).map fun p => (p.1.1, n + p.2)) k = some (n + (m + i)) ∧ es[i]? = some (k, v) ∧ find es k = some v := by
  induction es generalizing m with
  | nil => exact Or.inl ⟨rfl, rfl⟩
  | cons e es ih =>
    rw [List.zipIdx_cons, List.map_cons]
    by_cases hk : e.1 = k
    · refine Or.inr ⟨0, e.2, ?_, by rw [← hk]; rfl, ?_⟩
      · unfold lookup
        rw [List.find?_cons_of_pos (by simpa using hk)]
        rfl
      · unfold find
        rw [List.find?_cons_of_pos (by simpa using hk)]
        rfl
    · have l : lookup ((e.1, n + m) :: ((es.zipIdx (m + 1)).map fun p => (p.1.1, n + p.2))) k = lookup ((es.zipIdx (m + 1)).map fun p => (p.1.1, n + p.2)) k := by
        unfold lookup
        rw [List.find?_cons_of_neg (by simpa using hk)]
      have f : find (e :: es) k = find es k := by
        unfold find
        rw [List.find?_cons_of_neg (by simpa using hk)]
      rcases ih (m + 1) with ⟨a, b⟩ | ⟨i, v, a, b, c⟩
      · exact Or.inl ⟨l.trans a, f.trans b⟩
      · exact Or.inr ⟨i + 1, v, by rw [l, a]; congr 1; omega, b, f.trans c⟩

/-- What is read from the file: a dictionary with the variables, the version and the first row of `baseMVA`. -/
theorem read_file (es : List (String × Val)) (h : Heap) {t : Table ℚ} (hb : find es "baseMVA" = some (.tab t)) :
    ∃ h2 s, readMat (some (file es)) h = (h2, .ok (.case s)) ∧ Good h2 s ∧ fieldVal h2 s "baseMVA" = some (.vec (t.rows.headD [])) ∧ fieldVal h2 s "version" = some (.str "1") ∧
      ∀ k, k ≠ "baseMVA" → k ≠ "version" → fieldVal h2 s k = find es k ∧ (find es k = none → field h2 s k = none) := by
  have hlen : ∀ q ∈ es.zipIdx.map fun p => (p.1.1, h.length + p.2), q.2 < h.length + es.length := by
    intro q hq
    obtain ⟨p, hp, rfl⟩ := List.mem_map.1 hq
    have := List.snd_lt_of_mem_zipIdx hp
    show h.length + p.2 < _
    omega
  have key : ∀ k, lookup (es.zipIdx.map fun p => (p.1.1, h.length + p.2)) k = none ∧ find es k = none ∨
      ∃ i v, lookup (es.zipIdx.map fun p => (p.1.1, h.length + p.2)) k = some (h.length + i) ∧ es[i]? = some (k, v) ∧ find es k = some v := by
    intro k
    rcases lookup_zipIdx es h.length 0 k with a | ⟨i, v, a, b, c⟩
    · exact Or.inl a
    · exact Or.inr ⟨i, v, by rw [a, Nat.zero_add], b, c⟩
  have old : ∀ (i : ℕ) (k : String) (v : Val) (tail : Heap), es[i]? = some (k, v) → (h ++ es.map (fun e => Obj.leaf e.2) ++ tail)[h.length + i]? = some (.leaf v) := by
    intro i k v tail hi
    have hlt : i < es.length := (List.getElem?_eq_some_iff.1 hi).1
    rw [List.append_assoc, List.getElem?_append_right (by omega), Nat.add_sub_cancel_left, List.getElem?_append_left (by simpa using hlt), List.getElem?_map, hi]
    rfl
  generalize hd : (es.zipIdx.map fun p => (p.1.1, h.length + p.2)) = d at hlen key
  generalize hh1 : h ++ es.map (fun e => Obj.leaf e.2) = h1 at old
  have hl1 : h1.length = h.length + es.length := by rw [← hh1]; simp
  obtain ⟨i, v, b1, b2, b3⟩ := (key "baseMVA").resolve_left (by rw [hb]; simp)
  obtain rfl : v = .tab t := by rw [hb] at b3; exact (Option.some.inj b3).symm
  have hval : value (h1 ++ [.leaf (.str "1")]) (h.length + i) = some (.tab t) := value_iff.2 (old i _ _ _ b2)
  have hread : readMat (some (file es)) h =
      ((h1 ++ [.leaf (.str "1")] ++ [.leaf (.vec (t.rows.headD []))]) ++ [.dict (insert (insert d "version" h1.length) "baseMVA" (h1.length + 1))], .ok (.case (h1.length + 2))) := by
    have hload : (file es).load h = (h1, .ok (false, d)) := by rw [← hh1, ← hd]; rfl
    have hfr : firstRow (alloc h1 (.leaf (.str "1"))).1 (insert d "version" h1.length) =
        ((h1 ++ [.leaf (.str "1")] ++ [.leaf (.vec (t.rows.headD []))]) ++ [.dict (insert (insert d "version" h1.length) "baseMVA" (h1.length + 1))], .ok (h1.length + 2)) := by
      unfold firstRow
      rw [lookup_insert, if_neg (by decide), b1]
      dsimp only
      rw [show (alloc h1 (.leaf (.str "1"))).1 = h1 ++ [.leaf (.str "1")] from rfl, hval]
      dsimp only [alloc]
      simp
    unfold readMat
    dsimp only
    rw [hload]
    dsimp only
    rw [hfr]
    rfl
  have he : entries ((h1 ++ [.leaf (.str "1")] ++ [.leaf (.vec (t.rows.headD []))]) ++ [.dict (insert (insert d "version" h1.length) "baseMVA" (h1.length + 1))]) (h1.length + 2) =
      some (insert (insert d "version" h1.length) "baseMVA" (h1.length + 1)) := by
    rw [entries_iff, List.getElem?_append_right (by simp)]
    simp
  refine ⟨_, _, hread, ⟨_, he, ?_⟩, ?_, ?_, ?_⟩
  · intro q hq
    simp only [List.length_append, List.length_cons, List.length_nil]
    rcases List.mem_cons.1 hq with rfl | hq
    · show h1.length + 1 < _; omega
    · rcases List.mem_cons.1 (List.mem_of_mem_filter hq) with rfl | hq
      · show h1.length < _; omega
      · have := hlen q (List.mem_of_mem_filter hq); omega
  · unfold fieldVal field
    rw [he, Option.bind_some, lookup_insert, if_pos rfl, Option.bind_some, value_iff, List.getElem?_append_left (by simp), List.getElem?_append_right (by simp)]
    simp
  · unfold fieldVal field
    rw [he, Option.bind_some, lookup_insert, if_neg (by decide), lookup_insert, if_pos rfl, Option.bind_some, value_iff, List.append_assoc, List.append_assoc,
      List.getElem?_append_right (Nat.le_refl _)]
    simp
  · intro k k1 k2
    unfold fieldVal field
    rw [he, Option.bind_some, lookup_insert, if_neg k1, lookup_insert, if_neg k2]
    rcases key k with ⟨a, b⟩ | ⟨j, v, a, b, c⟩
    · rw [a, b]; exact ⟨rfl, fun _ => rfl⟩
    · rw [a, c]
      refine ⟨?_, by intro hc; cases hc⟩
      rw [Option.bind_some, value_iff, List.append_assoc, List.append_assoc]
      exact old j k v _ b

/-- The end of `loadcase` on a complete case that was read. -/
theorem finish_core (e : Bool) {h : Heap} {r : ℕ} {g b : Table ℚ} (ht : HasTables h r g b) :
    ∃ h', finish e h r true false false = (h', .ok (.obj (r + h.length))) ∧ Good h' (r + h.length) ∧
      fieldVal h' (r + h.length) "version" = some (.str "2") ∧
      fieldVal h' (r + h.length) "gen" = some (.tab (loadTables (-360) 360 none g b).1) ∧
      fieldVal h' (r + h.length) "branch" = some (.tab (loadTables (-360) 360 none g b).2) ∧
      (∀ k, k ≠ "version" → k ≠ "gen" → k ≠ "branch" → field h' (r + h.length) k = (field h r k).map (· + h.length)) ∧
      (∀ k, k ≠ "version" → k ≠ "gen" → k ≠ "branch" → fieldVal h r k ≠ none → fieldVal h' (r + h.length) k = fieldVal h r k) := by
  obtain ⟨d, hd, hv⟩ := ht.good
  have hr : r < h.length := (List.getElem?_eq_some_iff.1 (entries_iff.1 hd)).1
  have hmiss : missing h r (required false false) = .ok false := by
    apply missing_ok
    intro k hk
    simp only [required, List.mem_append, List.mem_cons, List.not_mem_nil, or_false, Bool.false_eq_true, if_false] at hk
    rcases hk with rfl | rfl | rfl | rfl
    · exact ht.base
    · exact ht.bus
    · obtain ⟨x, hx, hx'⟩ := Option.bind_eq_some_iff.1 ht.gen; exact ⟨x, hx, by rw [hx']; simp⟩
    · obtain ⟨x, hx, hx'⟩ := Option.bind_eq_some_iff.1 ht.branch; exact ⟨x, hx, by rw [hx']; simp⟩
  have f1 : ∀ k, field (deepcopy h r).1 (r + h.length) k = (field h r k).map (· + h.length) := fun k => copy_field hd (deepcopy_get r) k
  have v1 : ∀ x, value (deepcopy h r).1 (x + h.length) = value h x := fun x => copy_value (deepcopy_get x)
  have fv : ∀ k, fieldVal (deepcopy h r).1 (r + h.length) k = fieldVal h r k := by
    intro k
    unfold fieldVal
    rw [f1]
    cases field h r k with
    | none => rfl
    | some x => exact v1 x
  have hgood : Good (deepcopy h r).1 (r + h.length) := by
    refine ⟨d.map fun p => (p.1, p.2 + h.length), entries_iff.2 ?_, ?_⟩
    · rw [deepcopy_get, entries_iff.1 hd]; rfl
    · intro q hq
      obtain ⟨q', hq', rfl⟩ := List.mem_map.1 hq
      have := hv q' hq'
      rw [deepcopy_length]
      show q'.2 + h.length < _
      omega
  obtain ⟨c1, c2, c3, c4, c5, c6, c7⟩ := convert_spec hgood ((fv _).trans ht.gen) ((fv _).trans ht.branch)
  refine ⟨_, ?_, c7, c2, c3, c4, fun k k1 k2 k3 => (c5 k k1 k2 k3).trans (f1 k), fun k k1 k2 k3 hne => ?_⟩
  · unfold finish
    rw [hmiss]
    dsimp only
    have : convert (deepcopy h r).1 (deepcopy h r).2 = ((convert (deepcopy h r).1 (r + h.length)).1, .ok ()) := by
      rw [← c1]; rfl
    rw [this]
    rfl
  · unfold fieldVal
    rw [c5 k k1 k2 k3, f1]
    cases hk : field h r k with
    | none => rfl
    | some x =>
      show value _ (x + h.length) = value h x
      have hx : x < h.length := by
        unfold field at hk
        rw [hd] at hk
        exact hv _ (mem_of_lookup hk)
      have hxr : x ≠ r := by
        rintro rfl
        apply hne
        unfold fieldVal
        rw [hk]
        show value h x = none
        unfold value
        rw [entries_iff.1 hd]
      rw [value_congr (c6 (x + h.length) (by omega) (by rw [deepcopy_length]; omega)), v1]

end Verif.SaveMat
