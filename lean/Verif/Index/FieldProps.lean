import Verif.Index.FieldLemmas
import Verif.Index.Props

/-!
# C101: nested fields survive the conversion to internal numbering and back

`pos s` are the external rows of the equipment of kind `s` that is in service, in internal order (`Corr`, C02-C04).
-/

namespace Verif.Index

open Tree

variable {V : Type}

/-- Neither is inside the other. -/
def Apart (p q : List String) : Prop := ¬ p <+: q ∧ ¬ q <+: p

/-- A field, or a field of a field; the outer one is not an array in `t`. -/
def Shallow (t : Tree V) : List String → Prop
  | [_] => True
  | [k, _] => get? [k] t = none ∨ IsNode [k] t
  | _ => False

/-- A place for the value at the path exists, or the path is new from its first key on. -/
def Ready (t : Tree V) : List String → Prop
  | [] => False
  | k :: ks => get? [k] t = none ∨ IsNode (k :: ks).dropLast t

theorem Shallow.ready {t : Tree V} (ht : IsNode [] t) {p : List String} (h : Shallow t p) : Ready t p := by
  match p, h with
  | [k], _ => exact Or.inr ht
  | [k, _], h => exact h

theorem Shallow.ne {t : Tree V} {p : List String} (h : Shallow t p) : p ≠ [] := by
  rintro rfl
  exact h

theorem arrayAt_iff {p : List String} {t : Tree V} {v : V} : arrayAt p t = some v ↔ get? p t = some (.leaf v) := by
  unfold arrayAt
  split
  · rename_i w h
    rw [h]
    simp
  · rename_i h
    constructor
    · intro h'
      cases h'
    · intro h'
      exact absurd h' (h v)

/-! ### One field -/

theorem walk_ready {t t' : Tree V} {p : List String} (ht : IsNode [] t) (hw : walk t [] p = some t') (v : Tree V) :
    (Tree.set p v t').isSome ↔ Ready t p := by
  cases p with
  | nil => simp [Tree.set, Ready]
  | cons k ks =>
    simp only [Ready]
    by_cases hk : get? [k] t = none
    · obtain ⟨f, hf⟩ := walk_new hk hw
      exact ⟨fun _ => Or.inl hk, fun _ => set_exists (by simp) hf v⟩
    · obtain ⟨f, hf⟩ := ht
      have hold := walk_old (k :: ks) t t' k f hf hk hw
      have e : Tree.set (k :: ks) v t' = Tree.set ((k :: ks).dropLast ++ [(k :: ks).getLast (by simp)]) v t' := by rw [List.dropLast_append_getLast]
      rw [e, set_iff]
      constructor
      · rintro ⟨g, hg⟩
        cases ks with
        | nil => exact Or.inr ⟨f, hf⟩
        | cons a b =>
          simp only [List.dropLast_cons_cons] at hg ⊢
          exact Or.inr ⟨g, by rw [← hold]; exact hg⟩
      · rintro (h | ⟨g, hg⟩)
        · exact absurd h hk
        · cases ks with
          | nil =>
            obtain ⟨t2, h1, h2⟩ := walk_spec [k] [] t ⟨f, hf⟩
            rw [h1] at hw
            injection hw with hw
            subst hw
            exact h2.2 [] ⟨f, hf⟩
          | cons a b =>
            simp only [List.dropLast_cons_cons] at hg ⊢
            exact ⟨g, by rw [hold]; exact hg⟩

/-- **C101 (when a nested field can be converted).**  The original value is saved exactly if the dictionary to save it in exists already, or nothing was saved under the first
key before. -/
theorem C101_converts (conv : V → Option V) (p : List String) (data ext : Tree V) (hext : IsNode [] ext) (v w : V) (hv : arrayAt p data = some v) (hw : conv v = some w) (hp : p ≠ []) :
    (e2iField conv (.list p) data ext).isSome ↔ Ready ext p := by
  obtain ⟨t', h1, -⟩ := walk_spec p [] ext hext
  have hs := walk_ready hext h1 (.leaf v)
  obtain ⟨d, hd⟩ := Option.isSome_iff_exists.1 (set_exists hp (arrayAt_iff.1 hv) (.leaf w))
  rw [← hs]
  simp only [e2iField, prepare, Field.path, h1, hv, hw, hd, Option.bind_eq_bind, Option.bind_some]
  cases Tree.set p (.leaf v) t' with
  | none => simp
  | some e => simp

/-- A key holds a dictionary or nothing. -/
def NoArray (k : String) (t : Tree V) : Prop := get? [k] t = none ∨ IsNode [k] t

theorem set_noArray {p : List String} {v t t' : Tree V} (h : Tree.set p v t = some t') (k : String) (hv : p = [k] → ∃ f, v = .node f) (ht : NoArray k t) : NoArray k t' := by
  by_cases h1 : p <+: [k]
  · obtain ⟨r, hr⟩ := h1
    cases p with
    | nil => cases h
    | cons a b =>
      have : a :: b = [k] := by
        simp only [List.cons_append, List.cons.injEq, List.append_eq_nil_iff] at hr
        rw [hr.1, hr.2.1]
      obtain ⟨f, rfl⟩ := hv this
      rw [this] at h
      exact Or.inr ⟨f, set_same _ _ _ _ h⟩
  · by_cases h2 : [k] <+: p
    · exact Or.inr (set_above _ _ _ _ _ h h2 (fun e => h1 (by rw [e])))
    · unfold NoArray IsNode
      rw [set_other _ _ _ _ _ h h1 h2]
      exact ht

theorem walk_noArray (k : String) : ∀ (ks cur : List String) (t t' : Tree V), walk t cur ks = some t' → NoArray k t → NoArray k t'
  | [], _, t, t', h, ht => by
    injection h with h
    rw [← h]
    exact ht
  | j :: ks, cur, t, t', h, ht => by
    unfold walk at h
    split at h
    · split_ifs at h
      · simp only [Option.bind_eq_some_iff] at h
        obtain ⟨t1, h1, h2⟩ := h
        exact walk_noArray k ks _ t1 t' h2 (set_noArray h1 k (fun _ => ⟨_, rfl⟩) ht)
      · exact walk_noArray k ks _ t t' h ht
    · cases h

/-- Saving a value. -/
theorem save_spec {t : Tree V} (ht : IsNode [] t) {f : Field} (hf : Shallow t f.path) (v : V) : ∃ t1 t2, prepare t f = some t1 ∧ Tree.set f.path (.leaf v) t1 = some t2 ∧
    arrayAt f.path t2 = some v ∧ IsNode [] t2 ∧ (∀ q w, Apart f.path q → arrayAt q t = some w → arrayAt q t2 = some w) ∧
    (∀ k, f.path ≠ [k] → NoArray k t → NoArray k t2) := by
  have hne := hf.ne
  have key : ∀ t1, Kept t t1 → (∀ k, NoArray k t → NoArray k t1) → (Tree.set f.path (.leaf v) t1).isSome → ∃ t2, Tree.set f.path (.leaf v) t1 = some t2 ∧
      arrayAt f.path t2 = some v ∧ IsNode [] t2 ∧ (∀ q w, Apart f.path q → arrayAt q t = some w → arrayAt q t2 = some w) ∧
      (∀ k, f.path ≠ [k] → NoArray k t → NoArray k t2) := by
    intro t1 hk hh hs
    obtain ⟨t2, h2⟩ := Option.isSome_iff_exists.1 hs
    refine ⟨t2, h2, arrayAt_iff.2 (set_same _ _ _ _ h2), set_above _ _ _ _ _ h2 List.nil_prefix (Ne.symm hne), fun q w ha hq => ?_, fun k hk' hn => ?_⟩
    · rw [arrayAt_iff] at hq ⊢
      rw [set_other _ _ _ _ _ h2 ha.1 ha.2]
      exact hk.1 q w hq
    · exact set_noArray h2 k (fun e => absurd e hk') (hh k hn)
  cases f with
  | str s =>
    obtain ⟨t2, h⟩ := key t (Kept.refl t) (fun _ h => h) ((set_iff [] s _ t).2 ht)
    exact ⟨t, t2, rfl, h⟩
  | list p =>
    obtain ⟨t1, h1, h2⟩ := walk_spec p [] t ht
    obtain ⟨t2, h⟩ := key t1 h2 (fun k => walk_noArray k p [] t t1 h1) ((walk_ready ht h1 _).2 (hf.ready ht))
    exact ⟨t1, t2, h1, h⟩

theorem noArray_of_shallow {t t2 : Tree V} {f q : List String} (hs : Shallow t q) (ha : Apart f q) (hk : ∀ k, f ≠ [k] → NoArray k t → NoArray k t2) : Shallow t2 q := by
  match q, hs with
  | [_], _ => trivial
  | [k, l], hs => exact hk k (fun e => ha.1 (by rw [e]; exact ⟨[l], rfl⟩)) hs

/-! ### A list of fields, one call after the other -/

/-- `e2i_field` for one field after the other, as in toggle_reserves.py:140-145. -/
def e2iFields {α : Type} (e2i : Ordering → List α → Option (List α)) : List (Ordering × Field) → Tree (List α) → Tree (List α) → Option (Tree (List α) × Tree (List α))
  | [], data, ext => some (data, ext)
  | f :: fs, data, ext => (e2iField (e2i f.1) f.2 data ext).bind fun r => e2iFields e2i fs r.1 r.2

/-- `i2e_field` for one field after the other, as in toggle_reserves.py:220-225. -/
def i2eFields {α : Type} (i2e : Ordering → List α → List α → Option (List α)) (ext : Tree (List α)) : List (Ordering × Field) → Tree (List α) → Tree (List α) →
    Option (Tree (List α) × Tree (List α))
  | [], data, int => some (data, int)
  | f :: fs, data, int => (i2eField (i2e f.1) f.2 data ext int).bind fun r => i2eFields i2e ext fs r.1 r.2

theorem e2iFields_spec {α : Type} {e2i : Ordering → List α → Option (List α)} : ∀ (fs : List (Ordering × Field)) (data ext : Tree (List α)), IsNode [] ext →
    (∀ f ∈ fs, Shallow ext f.2.path) → fs.Pairwise (fun f g => Apart f.2.path g.2.path) → (∀ f ∈ fs, ∃ v w, arrayAt f.2.path data = some v ∧ e2i f.1 v = some w) →
    ∃ data1 ext1, e2iFields e2i fs data ext = some (data1, ext1) ∧
      (∀ f ∈ fs, ∀ v, arrayAt f.2.path data = some v → ∃ w, e2i f.1 v = some w ∧ arrayAt f.2.path data1 = some w ∧ arrayAt f.2.path ext1 = some v) ∧
      (∀ q, (∀ f ∈ fs, Apart f.2.path q) → get? q data1 = get? q data) ∧
      (∀ q v, (∀ f ∈ fs, Apart f.2.path q) → arrayAt q ext = some v → arrayAt q ext1 = some v)
  | [], data, ext, _, _, _, _ => ⟨data, ext, rfl, by simp, fun _ _ => rfl, fun _ _ _ h => h⟩
  | f :: fs, data, ext, hn, hs, hp, hd => by
    obtain ⟨v, w, hv, hw⟩ := hd f List.mem_cons_self
    obtain ⟨e1, e2, g1, g2, g3, g4, g5, g6⟩ := save_spec hn (hs f List.mem_cons_self) v
    obtain ⟨d1, k1⟩ := Option.isSome_iff_exists.1 (set_exists (hs f List.mem_cons_self).ne (arrayAt_iff.1 hv) (.leaf w))
    have step : e2iField (e2i f.1) f.2 data ext = some (d1, e2) := by
      simp only [e2iField, g1, hv, g2, hw, k1, Option.bind_eq_bind, Option.bind_some]
    rw [List.pairwise_cons] at hp
    have same : ∀ q, Apart f.2.path q → get? q d1 = get? q data := fun q hq => set_other _ _ _ _ _ k1 hq.1 hq.2
    have same' : ∀ q, Apart f.2.path q → arrayAt q d1 = arrayAt q data := fun q hq => by unfold arrayAt; rw [same q hq]
    obtain ⟨data1, ext1, r1, r2, r3, r4⟩ := e2iFields_spec (e2i := e2i) fs d1 e2 g4
      (fun g hg => noArray_of_shallow (hs g (List.mem_cons_of_mem _ hg)) (hp.1 g hg) g6) hp.2 (fun g hg => by
        obtain ⟨v', w', h1, h2⟩ := hd g (List.mem_cons_of_mem _ hg)
        exact ⟨v', w', by rw [same' _ (hp.1 g hg)]; exact h1, h2⟩)
    have apart : ∀ g ∈ fs, Apart g.2.path f.2.path := fun g hg => ⟨(hp.1 g hg).2, (hp.1 g hg).1⟩
    refine ⟨data1, ext1, by simp only [e2iFields, step, Option.bind_some]; exact r1, ?_, ?_, ?_⟩
    · intro g hg u hu
      rcases List.mem_cons.1 hg with rfl | hg
      · rw [hv] at hu
        cases hu
        refine ⟨w, hw, ?_, r4 _ _ apart g3⟩
        unfold arrayAt
        rw [r3 _ apart, set_same _ _ _ _ k1]
      · exact r2 g hg u (by rw [same' _ (hp.1 g hg)]; exact hu)
    · intro q hq
      rw [r3 q (fun g hg => hq g (List.mem_cons_of_mem _ hg)), same q (hq f List.mem_cons_self)]
    · intro q u hq hu
      exact r4 q u (fun g hg => hq g (List.mem_cons_of_mem _ hg)) (g5 q u (hq f List.mem_cons_self) hu)

theorem i2eFields_spec {α : Type} {i2e : Ordering → List α → List α → Option (List α)} (ext : Tree (List α)) : ∀ (fs : List (Ordering × Field)) (data int : Tree (List α)),
    IsNode [] int → (∀ f ∈ fs, Shallow int f.2.path) → fs.Pairwise (fun f g => Apart f.2.path g.2.path) →
    (∀ f ∈ fs, ∃ v old w, arrayAt f.2.path data = some v ∧ arrayAt f.2.path ext = some old ∧ i2e f.1 v old = some w) →
    ∃ data1 int1, i2eFields i2e ext fs data int = some (data1, int1) ∧
      (∀ f ∈ fs, ∀ v old, arrayAt f.2.path data = some v → arrayAt f.2.path ext = some old →
        ∃ w, i2e f.1 v old = some w ∧ arrayAt f.2.path data1 = some w ∧ arrayAt f.2.path int1 = some v) ∧
      (∀ q, (∀ f ∈ fs, Apart f.2.path q) → get? q data1 = get? q data) ∧
      (∀ q v, (∀ f ∈ fs, Apart f.2.path q) → arrayAt q int = some v → arrayAt q int1 = some v)
  | [], data, int, _, _, _, _ => ⟨data, int, rfl, by simp, fun _ _ => rfl, fun _ _ _ h => h⟩
  | f :: fs, data, int, hn, hs, hp, hd => by
    obtain ⟨v, old, w, hv, hold, hw⟩ := hd f List.mem_cons_self
    obtain ⟨e1, e2, g1, g2, g3, g4, g5, g6⟩ := save_spec hn (hs f List.mem_cons_self) v
    obtain ⟨d1, k1⟩ := Option.isSome_iff_exists.1 (set_exists (hs f List.mem_cons_self).ne (arrayAt_iff.1 hv) (.leaf w))
    have step : i2eField (i2e f.1) f.2 data ext int = some (d1, e2) := by
      simp only [i2eField, g1, hv, g2, hold, hw, k1, Option.bind_eq_bind, Option.bind_some]
    rw [List.pairwise_cons] at hp
    have same : ∀ q, Apart f.2.path q → get? q d1 = get? q data := fun q hq => set_other _ _ _ _ _ k1 hq.1 hq.2
    have same' : ∀ q, Apart f.2.path q → arrayAt q d1 = arrayAt q data := fun q hq => by unfold arrayAt; rw [same q hq]
    obtain ⟨data1, int1, r1, r2, r3, r4⟩ := i2eFields_spec (i2e := i2e) ext fs d1 e2 g4
      (fun g hg => noArray_of_shallow (hs g (List.mem_cons_of_mem _ hg)) (hp.1 g hg) g6) hp.2 (fun g hg => by
        obtain ⟨v', o', w', h1, h2, h3⟩ := hd g (List.mem_cons_of_mem _ hg)
        exact ⟨v', o', w', by rw [same' _ (hp.1 g hg)]; exact h1, h2, h3⟩)
    have apart : ∀ g ∈ fs, Apart g.2.path f.2.path := fun g hg => ⟨(hp.1 g hg).2, (hp.1 g hg).1⟩
    refine ⟨data1, int1, by simp only [i2eFields, step, Option.bind_some]; exact r1, ?_, ?_, ?_⟩
    · intro g hg u o hu ho
      rcases List.mem_cons.1 hg with rfl | hg
      · rw [hv] at hu
        cases hu
        rw [hold] at ho
        cases ho
        refine ⟨w, hw, ?_, r4 _ _ apart g3⟩
        unfold arrayAt
        rw [r3 _ apart, set_same _ _ _ _ k1]
      · exact r2 g hg u o (by rw [same' _ (hp.1 g hg)]; exact hu) ho
    · intro q hq
      rw [r3 q (fun g hg => hq g (List.mem_cons_of_mem _ hg)), same q (hq f List.mem_cons_self)]
    · intro q u hq hu
      exact r4 q u (fun g hg => hq g (List.mem_cons_of_mem _ hg)) (g5 q u (hq f List.mem_cons_self) hu)

/-! ### The property -/

variable {P : Payload}

/-- Data fields for `c`: fields or fields of fields, none inside another, each an array with an entry for every row of the table it belongs to. -/
structure Fields {α : Type} (c : Case P) (fs : List (Ordering × Field)) (data ext : Tree (List α)) : Prop where
  root : IsNode [] ext
  shallow : ∀ f ∈ fs, Shallow ext f.2.path
  apart : fs.Pairwise fun f g => Apart f.2.path g.2.path
  data : ∀ f ∈ fs, ∃ v, arrayAt f.2.path data = some v ∧ v.length = rows c f.1

theorem internal_core {srt : List Nat → List Nat} (hs : IsArgsort srt) (c : Case P) {α : Type} (fs : List (Ordering × Field)) (data ext : Tree (List α))
    (hf : Fields c fs data ext) : ∃ data1 ext1, e2iFields (fun s v => e2iSet (orderOf srt c) v s) fs data ext = some (data1, ext1) ∧
      (∀ f ∈ fs, ∀ v, arrayAt f.2.path data = some v → ∃ w, arrayAt f.2.path data1 = some w ∧ ReadsRows (posOf srt c f.1) v w ∧ arrayAt f.2.path ext1 = some v) ∧
      (∀ q, (∀ f ∈ fs, Apart f.2.path q) → get? q data1 = get? q data) ∧
      (∀ q v, (∀ f ∈ fs, Apart f.2.path q) → arrayAt q ext = some v → arrayAt q ext1 = some v) := by
  have conv : ∀ f ∈ fs, ∀ v, arrayAt f.2.path data = some v → ∃ w, e2iSet (orderOf srt c) v f.1 = some w ∧ ReadsRows (posOf srt c f.1) v w := by
    intro f hm v hv
    obtain ⟨v', h1, h2⟩ := hf.data f hm
    rw [hv] at h1
    cases h1
    exact e2iSet_reads hs c v f.1 h2.ge
  obtain ⟨d1, e1, r1, r2, r3, r4⟩ := e2iFields_spec (e2i := fun s v => e2iSet (orderOf srt c) v s) fs data ext hf.root hf.shallow hf.apart (fun f hm => by
    obtain ⟨v, h1, -⟩ := hf.data f hm
    obtain ⟨w, h2, -⟩ := conv f hm v h1
    exact ⟨v, w, h1, h2⟩)
  refine ⟨d1, e1, r1, fun f hm v hv => ?_, r3, r4⟩
  obtain ⟨w, h1, h2, h3⟩ := r2 f hm v hv
  obtain ⟨w', h4, h5⟩ := conv f hm v hv
  rw [h1] at h4
  cases h4
  exact ⟨w, h2, h5, h3⟩

theorem external_core {srt : List Nat → List Nat} (hs : IsArgsort srt) (c : Case P) {α : Type} (cast : α → α) (fs : List (Ordering × Field)) (data data2 ext1 int : Tree (List α))
    (hap : fs.Pairwise fun f g => Apart f.2.path g.2.path) (hi : IsNode [] int) (hsi : ∀ f ∈ fs, Shallow int f.2.path)
    (hd : ∀ f ∈ fs, ∃ v, arrayAt f.2.path data = some v ∧ v.length = rows c f.1) (saved : ∀ f ∈ fs, ∀ v, arrayAt f.2.path data = some v → arrayAt f.2.path ext1 = some v)
    (h2 : ∀ f ∈ fs, ∃ w, arrayAt f.2.path data2 = some w ∧ w.length = (posOf srt c f.1).length) :
    ∃ data3 int1, i2eFields (fun s v old => i2eSet (orderOf srt c) cast v old s) ext1 fs data2 int = some (data3, int1) ∧
      (∀ f ∈ fs, ∀ v w, arrayAt f.2.path data = some v → arrayAt f.2.path data2 = some w →
        ∃ r, arrayAt f.2.path data3 = some r ∧ WritesRows (posOf srt c f.1) w (v.map cast) r ∧ arrayAt f.2.path int1 = some w) ∧
      (∀ q, (∀ f ∈ fs, Apart f.2.path q) → get? q data3 = get? q data2) ∧
      (∀ q v, (∀ f ∈ fs, Apart f.2.path q) → arrayAt q int = some v → arrayAt q int1 = some v) := by
  have back : ∀ f ∈ fs, ∀ v w, arrayAt f.2.path data = some v → arrayAt f.2.path data2 = some w →
      ∃ r, i2eSet (orderOf srt c) cast w v f.1 = some r ∧ WritesRows (posOf srt c f.1) w (v.map cast) r := by
    intro f hm v w hv hw
    obtain ⟨v', g1, g2⟩ := hd f hm
    rw [hv] at g1
    cases g1
    obtain ⟨w', g3, g4⟩ := h2 f hm
    rw [hw] at g3
    cases g3
    exact i2eSet_writes hs c cast w v f.1 g4 g2
  obtain ⟨d3, i1, s1, s2, s3, s4⟩ := i2eFields_spec (i2e := fun s v old => i2eSet (orderOf srt c) cast v old s) ext1 fs data2 int hi hsi hap (fun f hm => by
    obtain ⟨v, g1, -⟩ := hd f hm
    obtain ⟨w, g2, -⟩ := h2 f hm
    obtain ⟨r, g3, -⟩ := back f hm v w g1 g2
    exact ⟨w, v, r, g2, saved f hm v g1, g3⟩)
  refine ⟨d3, i1, s1, fun f hm v w hv hw => ?_, s3, s4⟩
  obtain ⟨r, g1, g2, g3⟩ := s2 f hm w v hw (saved f hm v hv)
  obtain ⟨r', g4, g5⟩ := back f hm v w hv hw
  rw [g1] at g4
  cases g4
  exact ⟨r, g2, g5, g3⟩

theorem Corr.len_eq {c c' : Case P} {pos : Ordering → List Nat} {apos : List Nat} (hc : Corr c c' pos apos) (s : Ordering) : c'.len s = (pos s).length := by
  cases s
  · exact hc.busLen
  · exact hc.genLen
  · exact hc.brLen

/-- **C101 (to internal numbering).**  Any number of fields and fields of fields: internal entry `k` is the external entry of the equipment in internal row `k`, the original is
saved under the same name, and neither other data nor what was saved before is touched.  The full claim has fields nested deeper than two; these raise
(`C101_deep_negation`). -/
theorem C101_internal_partial {srt : List Nat → List Nat} (hs : IsArgsort srt) {c : Case P} (h : WF c) : ∃ c' o pos apos, ext2int srt c = some c' ∧ c'.order = some o ∧
    Corr c c' pos apos ∧ ∀ {α : Type} (fs : List (Ordering × Field)) (data ext : Tree (List α)), Fields c fs data ext →
      ∃ data1 ext1, e2iFields (fun s v => e2iSet o v s) fs data ext = some (data1, ext1) ∧
        (∀ f ∈ fs, ∀ v, arrayAt f.2.path data = some v → ∃ w, arrayAt f.2.path data1 = some w ∧ ReadsRows (pos f.1) v w ∧ arrayAt f.2.path ext1 = some v) ∧
        (∀ q, (∀ f ∈ fs, Apart f.2.path q) → get? q data1 = get? q data) ∧
        (∀ q v, (∀ f ∈ fs, Apart f.2.path q) → arrayAt q ext = some v → arrayAt q ext1 = some v) := by
  obtain ⟨c', o, pos, apos, he, ho, _, hc, rfl, rfl⟩ := ext2int_corr hs h
  exact ⟨c', _, _, apos, he, ho, hc, fun {α} fs data ext hf => internal_core hs c fs data ext hf⟩

/-- **C101 (and back).**  After that, whatever has become of the case, as long as the fields have an entry per internal row: converting back puts entry `k` at the external row of its
equipment, the rest is as saved (in the number type of the new data, `cast`), the internal version is kept, and no other data is touched. -/
theorem C101_external_partial {srt : List Nat → List Nat} (hs : IsArgsort srt) {c : Case P} (h : WF c) : ∃ c' o pos apos, ext2int srt c = some c' ∧ c'.order = some o ∧
    Corr c c' pos apos ∧ ∀ {α : Type} (cast : α → α) (fs : List (Ordering × Field)) (data ext int : Tree (List α)), Fields c fs data ext → IsNode [] int →
      (∀ f ∈ fs, Shallow int f.2.path) →
      ∃ data1 ext1, e2iFields (fun s v => e2iSet o v s) fs data ext = some (data1, ext1) ∧
        ∀ data2 : Tree (List α), (∀ f ∈ fs, ∃ w, arrayAt f.2.path data2 = some w ∧ w.length = c'.len f.1) →
          ∃ data3 int1, i2eFields (fun s v old => i2eSet o cast v old s) ext1 fs data2 int = some (data3, int1) ∧
            (∀ f ∈ fs, ∀ v w, arrayAt f.2.path data = some v → arrayAt f.2.path data2 = some w →
              ∃ r, arrayAt f.2.path data3 = some r ∧ WritesRows (pos f.1) w (v.map cast) r ∧ arrayAt f.2.path int1 = some w) ∧
            (∀ q, (∀ f ∈ fs, Apart f.2.path q) → get? q data3 = get? q data2) ∧
            (∀ q v, (∀ f ∈ fs, Apart f.2.path q) → arrayAt q int = some v → arrayAt q int1 = some v) := by
  obtain ⟨c', o, pos, apos, he, ho, _, hc, rfl, rfl⟩ := ext2int_corr hs h
  refine ⟨c', _, _, apos, he, ho, hc, fun {α} cast fs data ext int hf hi hsi => ?_⟩
  obtain ⟨d1, e1, r1, r2, -, -⟩ := internal_core hs c fs data ext hf
  refine ⟨d1, e1, r1, fun data2 h2 => external_core hs c cast fs data data2 e1 int hf.apart hi hsi hf.data (fun f hm v hv => ?_) (fun f hm => ?_)⟩
  · obtain ⟨_, _, _, g⟩ := r2 f hm v hv
    exact g
  · obtain ⟨w, g1, g2⟩ := h2 f hm
    exact ⟨w, g1, by rw [g2, hc.len_eq]⟩

/-- **C101 (round trip).**  If nothing is changed in between, the fields are what they were. -/
theorem C101_round_trip_partial {srt : List Nat → List Nat} (hs : IsArgsort srt) {c : Case P} (h : WF c) : ∃ c' o, ext2int srt c = some c' ∧ c'.order = some o ∧
    ∀ {α : Type} (fs : List (Ordering × Field)) (data ext int : Tree (List α)), Fields c fs data ext → IsNode [] int → (∀ f ∈ fs, Shallow int f.2.path) →
      ∃ data1 ext1 data3 int1, e2iFields (fun s v => e2iSet o v s) fs data ext = some (data1, ext1) ∧
        i2eFields (fun s v old => i2eSet o id v old s) ext1 fs data1 int = some (data3, int1) ∧
        (∀ f ∈ fs, arrayAt f.2.path data3 = arrayAt f.2.path data) ∧ ∀ q, (∀ f ∈ fs, Apart f.2.path q) → get? q data3 = get? q data := by
  obtain ⟨c', o, pos, apos, he, ho, _, hc, rfl, rfl⟩ := ext2int_corr hs h
  refine ⟨c', _, he, ho, fun {α} fs data ext int hf hi hsi => ?_⟩
  obtain ⟨d1, e1, r1, r2, r3, -⟩ := internal_core hs c fs data ext hf
  obtain ⟨d3, i1, s1, s2, s3, -⟩ := external_core hs c id fs data d1 e1 int hf.apart hi hsi hf.data (fun f hm v hv => by
    obtain ⟨_, _, _, g⟩ := r2 f hm v hv
    exact g) (fun f hm => by
    obtain ⟨v, g1, -⟩ := hf.data f hm
    obtain ⟨w, g2, g3, -⟩ := r2 f hm v g1
    exact ⟨w, g2, g3.1⟩)
  refine ⟨d1, e1, d3, i1, r1, s1, fun f hm => ?_, fun q hq => (s3 q hq).trans (r3 q hq)⟩
  obtain ⟨v, g1, -⟩ := hf.data f hm
  obtain ⟨w, g2, g3, -⟩ := r2 f hm v g1
  obtain ⟨r, g4, g5, -⟩ := s2 f hm v w g1 g2
  rw [List.map_id] at g5
  rw [g4, g1, C06_round_trip g3 g5]

/-! ### Example and negations -/

/-- A dictionary from a list. -/
def dict (l : List (String × Tree V)) : Tree V := .node fun k => (l.find? (·.1 == k)).map (·.2)

/-- Reserve data for the four generators of `exCase`. -/
def exData : Tree (List ℕ) := dict [("reserves", dict [("cost", .leaf [1, 2, 3, 4]), ("qty", .leaf [5, 6, 7, 8]), ("req", .leaf [9])])]

def exFields : List (Ordering × Field) := [(.gen, .list ["reserves", "qty"]), (.gen, .list ["reserves", "cost"])]

example : Fields exCase exFields exData (dict [("bus", .leaf [])]) ∧ IsNode [] (Tree.empty : Tree (List ℕ)) ∧ ∀ f ∈ exFields, Shallow (Tree.empty : Tree (List ℕ)) f.2.path := by
  refine ⟨⟨⟨_, rfl⟩, ?_, ?_, ?_⟩, ⟨_, rfl⟩, ?_⟩
  · intro f hf
    simp only [exFields, List.mem_cons, List.not_mem_nil, or_false] at hf
    rcases hf with rfl | rfl <;> exact Or.inl rfl
  · simp only [exFields, List.pairwise_cons, Field.path, Apart]
    refine ⟨?_, by simp, List.Pairwise.nil⟩
    intro g hg
    simp only [List.mem_cons, List.not_mem_nil, or_false] at hg
    subst hg
    decide
  · intro f hf
    simp only [exFields, List.mem_cons, List.not_mem_nil, or_false] at hf
    rcases hf with rfl | rfl
    · exact ⟨[5, 6, 7, 8], rfl, rfl⟩
    · exact ⟨[1, 2, 3, 4], rfl, rfl⟩
  · intro f hf
    simp only [exFields, List.mem_cons, List.not_mem_nil, or_false] at hf
    rcases hf with rfl | rfl <;> exact Or.inl rfl

/-- **C101 fails** for a field nested deeper, once something was saved under its first key: the conversion raises, whatever the conversion of the data is. -/
theorem C101_deep_negation (a b k : String) (rest : List String) (conv : V → Option V) (data ext : Tree V) (hext : IsNode [] ext) (v w : V)
    (hv : arrayAt (a :: b :: k :: rest) data = some v) (hw : conv v = some w) (ha : IsNode [a] ext) (hb : get? [a, b] ext = none) :
    e2iField conv (.list (a :: b :: k :: rest)) data ext = none := by
  have := C101_converts conv (a :: b :: k :: rest) data ext hext v w hv hw (by simp)
  rw [← Option.not_isSome_iff_eq_none, this]
  rintro (h | ⟨f, h⟩)
  · obtain ⟨g, hg⟩ := ha
    rw [hg] at h
    cases h
  · have e : (a :: b :: k :: rest).dropLast = [a, b] ++ (k :: rest).dropLast := by simp
    rw [e, get_append, hb] at h
    cases h

example : ∃ (data ext : Tree ℕ) (v : ℕ), IsNode [] ext ∧ arrayAt ["reserves", "area", "cost"] data = some v ∧ IsNode ["reserves"] ext ∧ get? ["reserves", "area"] ext = none :=
  ⟨dict [("reserves", dict [("area", dict [("cost", .leaf 1)])])], dict [("reserves", dict [("qty", .leaf 2)])], 1, ⟨_, rfl⟩, rfl, ⟨_, rfl⟩, rfl⟩

/-- **C101 fails** in that the saved data is not only added to at the path of the field: the second field of a dictionary leaves an empty entry under its own name. -/
theorem C101_spurious_negation : ∃ (data ext data1 ext1 : Tree (List ℕ)), e2iField some (.list ["reserves", "cost"]) data ext = some (data1, ext1) ∧
    IsNode ["reserves"] ext ∧ get? ["cost"] ext = none ∧ IsNode ["cost"] ext1 :=
  ⟨exData, dict [("reserves", dict [("qty", .leaf [5, 6, 7, 8])])], _, _, rfl, ⟨_, rfl⟩, rfl, ⟨_, rfl⟩⟩

end Verif.Index
