import Verif.SaveMat.Lemmas

/-!
# C118: saving and loading, key by key
-/

namespace Verif.SaveMat

open CaseIO Loadcase

/-- The keys that are ever written (savecase.py:101-141). -/
def writable : List String :=
  ["baseMVA", "bus", "gen", "branch", "areas", "gencost", "A", "l", "u", "N", "H", "fparm", "Cw", "z0", "zl", "zu", "userfcn", "x", "f", "lin", "order", "nln", "var", "raw", "mu"]

/-! ### Which keys -/

theorem filledOf_mem {h : Heap} {r : ℕ} {ks out : List String} (e : filledOf h r ks = .ok out) (k : String) : k ∈ out ↔ k ∈ ks ∧ filled h r k = .ok true := by
  induction ks generalizing out with
  | nil => cases e; simp
  | cons j ks ih =>
    unfold filledOf at e
    split at e
    · cases e
    · rename_i c hc
      cases hr : filledOf h r ks with
      | error x => rw [hr] at e; cases e
      | ok t =>
        rw [hr] at e
        cases e
        have := ih hr
        cases c
        · simp only [Bool.false_eq_true, if_false, this, List.mem_cons]
          constructor
          · rintro ⟨a, b⟩; exact ⟨Or.inr a, b⟩
          · rintro ⟨rfl | a, b⟩
            · rw [hc] at b; cases b
            · exact ⟨a, b⟩
        · simp only [if_true, List.mem_cons, this]
          constructor
          · rintro (rfl | ⟨a, b⟩)
            · exact ⟨Or.inl rfl, hc⟩
            · exact ⟨Or.inr a, b⟩
          · rintro ⟨rfl | a, b⟩
            · exact Or.inl rfl
            · exact Or.inr ⟨a, b⟩

/-- The keys of a case that are written. -/
def Written (h : Heap) (r : ℕ) (k : String) : Prop :=
  k ∈ ["baseMVA", "bus", "gen", "branch"] ∨
  (k ∈ ["areas", "gencost", "userfcn", "x", "f", "lin", "order", "nln", "var", "raw", "mu"] ∧ (field h r k).isSome) ∨
  (k ∈ ["A", "l", "u"] ∧ filled h r "A" = .ok true ∧ filled h r k = .ok true) ∨
  (k ∈ ["N", "H", "fparm"] ∧ filled h r "N" = .ok true ∧ filled h r k = .ok true) ∨
  (k = "Cw" ∧ filled h r "N" = .ok true) ∨
  (k ∈ ["z0", "zl", "zu"] ∧ filled h r k = .ok true)

theorem shuffle (a b c s A N C Z : Prop) : (((((a ∨ b ∧ s) ∨ A) ∨ (N ∨ C)) ∨ Z) ∨ c ∧ s) ↔ a ∨ ((b ∨ c) ∧ s) ∨ A ∨ N ∨ C ∨ Z := by tauto

theorem keys_mem {h : Heap} {r : ℕ} {ks : List String} (e : keys h r = .ok ks) (k : String) : k ∈ ks ↔ Written h r k := by
  unfold keys at e
  split at e
  · rename_i a n z ha hn hz
    cases e
    have hA : k ∈ a ↔ k ∈ ["A", "l", "u"] ∧ filled h r "A" = .ok true ∧ filled h r k = .ok true := by
      unfold keysA at ha
      split at ha
      · rename_i hf
        cases hq : filledOf h r ["l", "u"] with
        | error x => rw [hq] at ha; cases ha
        | ok t =>
          rw [hq] at ha
          cases ha
          rw [List.mem_cons, filledOf_mem hq, List.mem_cons (b := "A"), hf]
          constructor
          · rintro (rfl | ⟨a1, a2⟩)
            · exact ⟨Or.inl rfl, rfl, hf⟩
            · exact ⟨Or.inr a1, rfl, a2⟩
          · rintro ⟨rfl | a1, -, a2⟩
            · exact Or.inl rfl
            · exact Or.inr ⟨a1, a2⟩
      · rename_i hf
        cases ha
        rw [hf]
        simp
      · cases ha
    have hN : k ∈ n ↔ (k ∈ ["N", "H", "fparm"] ∧ filled h r "N" = .ok true ∧ filled h r k = .ok true) ∨ (k = "Cw" ∧ filled h r "N" = .ok true) := by
      unfold keysN at hn
      split at hn
      · rename_i hf
        cases hq : filledOf h r ["H", "fparm"] with
        | error x => rw [hq] at hn; cases hn
        | ok t =>
          rw [hq] at hn
          cases hn
          rw [List.mem_append, List.mem_cons, List.mem_singleton, filledOf_mem hq, List.mem_cons (b := "N"), hf]
          constructor
          · rintro ((rfl | ⟨a1, a2⟩) | a3)
            · exact Or.inl ⟨Or.inl rfl, rfl, hf⟩
            · exact Or.inl ⟨Or.inr a1, rfl, a2⟩
            · exact Or.inr ⟨a3, rfl⟩
          · rintro (⟨rfl | a1, -, a2⟩ | ⟨a3, -⟩)
            · exact Or.inl (Or.inl rfl)
            · exact Or.inl (Or.inr ⟨a1, a2⟩)
            · exact Or.inr a3
      · rename_i hf
        cases hn
        rw [hf]
        simp
      · cases hn
    have hZ := filledOf_mem hz k
    rw [List.mem_append, List.mem_append, List.mem_append, List.mem_append, List.mem_append, hA, hN, hZ]
    unfold present Written
    rw [List.mem_filter, List.mem_filter]
    have split : k ∈ ["areas", "gencost", "userfcn", "x", "f", "lin", "order", "nln", "var", "raw", "mu"] ↔
        k ∈ ["areas", "gencost"] ∨ k ∈ ["userfcn", "x", "f", "lin", "order", "nln", "var", "raw", "mu"] := by
      rw [← List.mem_append]; rfl
    rw [split]
    exact shuffle _ _ _ _ _ _ _ _
  · cases e
  · cases e
  · cases e

theorem written_writable {h : Heap} {r : ℕ} {k : String} (hw : Written h r k) : k ∈ writable := by
  have sub : ∀ l : List String, (∀ x ∈ l, x ∈ writable) → k ∈ l → k ∈ writable := fun l hl hk => hl k hk
  unfold Written at hw
  rcases hw with hw | hw | hw | hw | hw | hw
  · exact sub _ (by decide) hw
  · exact sub _ (by decide) hw.1
  · exact sub _ (by decide) hw.1
  · exact sub _ (by decide) hw.1
  · rw [hw.1]; decide
  · exact sub _ (by decide) hw.1

/-! ### The file -/

theorem find_extras {k : String} (hk : k ∈ writable) : find extras k = none := by
  apply find_none
  have : ∀ j ∈ writable, j ∉ extras.map (·.1) := by decide
  exact this k hk

/-- What is in the file. -/
theorem save_spec {h h1 : Heap} {r : ℕ} {f : MatFile} (hs : savecase h r = (h1, .ok f)) :
    h1 = store h r "version" (.str "2") ∧ ∃ es, f = file (extras ++ es) ∧
      (∀ k, Written h1 r k → ∃ x o v, field h1 r k = some x ∧ h1[x]? = some o ∧ toMat o = .ok v ∧ find (extras ++ es) k = some v) ∧
      ∀ k, ¬ Written h1 r k → k ∉ extras.map (·.1) → find (extras ++ es) k = none := by
  unfold savecase at hs
  split at hs
  · cases hs
  · split at hs
    · cases hs
    · rename_i ks hks
      cases hv : values (store h r "version" (.str "2")) r ks with
      | error x => rw [hv] at hs; cases hs
      | ok es =>
        rw [hv] at hs
        cases hs
        obtain ⟨v1, v2⟩ := values_spec hv
        refine ⟨rfl, es, rfl, fun k hk => ?_, fun k hk hx => ?_⟩
        · obtain ⟨x, o, v, a1, a2, a3, a4⟩ := v2 k ((keys_mem hks k).2 hk)
          exact ⟨x, o, v, a1, a2, a3, by rw [find_append, find_extras (written_writable hk), a4]; rfl⟩
        · rw [find_append, find_none hx, find_none (by rw [v1]; exact fun hm => hk ((keys_mem hks k).1 hm))]
          rfl

/-- The case is complete and `baseMVA` is a number, or an array of one number as after loading. -/
structure Complete (h : Heap) (r : ℕ) (x : ℚ) (bus g b : Table ℚ) : Prop where
  good : Good h r
  base : fieldVal h r "baseMVA" = some (.num x) ∨ fieldVal h r "baseMVA" = some (.vec [x])
  bus : fieldVal h r "bus" = some (.tab bus)
  gen : fieldVal h r "gen" = some (.tab g)
  branch : fieldVal h r "branch" = some (.tab b)

/-- The object under a key with a value. -/
theorem toMat_leaf {h : Heap} {r x : ℕ} {k : String} {o : Obj} {v : Val} (hv : fieldVal h r k = some v) (hf : field h r k = some x) (ho : h[x]? = some o) : o = .leaf v := by
  unfold fieldVal at hv
  rw [hf, Option.bind_some, value_iff, ho] at hv
  exact Option.some.inj hv

/-- Saving and loading: what is under every key. -/
theorem round {h h1 : Heap} {r : ℕ} {f : MatFile} {x : ℚ} {bus g b : Table ℚ} (hc : Complete h r x bus g b) (hs : savecase h r = (h1, .ok f)) (w : World) (name root : List Char)
    (hn : resolve w name = some (root, .mat)) (hw : w.mat (root ++ ".mat".toList) = some f) (h2 : Heap) :
    ∃ h3 p, loadcase w h2 (.str name) = (h3, .ok (.obj p)) ∧ Good h3 p ∧
      fieldVal h3 p "version" = some (.str "2") ∧ fieldVal h3 p "baseMVA" = some (.vec [x]) ∧ fieldVal h3 p "bus" = some (.tab bus) ∧
      fieldVal h3 p "gen" = some (.tab (loadTables (-360) 360 none g b).1) ∧ fieldVal h3 p "branch" = some (.tab (loadTables (-360) 360 none g b).2) ∧
      (∀ k, k ∉ ["version", "baseMVA", "gen", "branch"] → Written h1 r k →
        ∃ y o v, field h1 r k = some y ∧ h1[y]? = some o ∧ toMat o = .ok v ∧ fieldVal h3 p k = some v) ∧
      ∀ k, ¬ Written h1 r k → k ∉ extras.map (·.1) → field h3 p k = none := by
  obtain ⟨e1, es, rfl, e2, e3⟩ := save_spec hs
  have hfv : ∀ k, k ≠ "version" → fieldVal h1 r k = fieldVal h r k := by
    intro k hk
    rw [e1, good_fieldVal hc.good, if_neg hk]
  have main : ∀ k v m, k ∈ ["baseMVA", "bus", "gen", "branch"] → k ≠ "version" → fieldVal h r k = some v → toMat (.leaf v) = .ok m → find (extras ++ es) k = some m := by
    intro k v m hk hkv hv hm
    obtain ⟨y, o, u, a1, a2, a3, a4⟩ := e2 k (Or.inl hk)
    rw [toMat_leaf ((hfv k hkv).trans hv) a1 a2, hm] at a3
    cases a3
    exact a4
  have hbase : find (extras ++ es) "baseMVA" = some (.tab ⟨1, [[x]]⟩) := by
    rcases hc.base with hb | hb
    · exact main _ _ _ (by decide) (by decide) hb rfl
    · exact main _ _ _ (by decide) (by decide) hb rfl
  obtain ⟨h', s, r1, r2, r3, r4, r5⟩ := read_file (extras ++ es) h2 hbase
  have hbus : fieldVal h' s "bus" = some (.tab bus) := by
    rw [(r5 "bus" (by decide) (by decide)).1]; exact main _ _ _ (by decide) (by decide) hc.bus rfl
  have hgen : fieldVal h' s "gen" = some (.tab g) := by
    rw [(r5 "gen" (by decide) (by decide)).1]; exact main _ _ _ (by decide) (by decide) hc.gen rfl
  have hbr : fieldVal h' s "branch" = some (.tab b) := by
    rw [(r5 "branch" (by decide) (by decide)).1]; exact main _ _ _ (by decide) (by decide) hc.branch rfl
  have some_of : ∀ {k : String} {v : Val}, fieldVal h' s k = some v → v ≠ .none → ∃ y, field h' s k = some y ∧ value h' y ≠ some .none := by
    intro k v hv hne
    obtain ⟨y, hy, hy'⟩ := Option.bind_eq_some_iff.1 hv
    exact ⟨y, hy, by rw [hy']; exact fun c => hne (Option.some.inj c)⟩
  obtain ⟨h3, f1, f2, f3, f4, f5, f6, f7⟩ := finish_core true (h := h') (r := s) ⟨r2, some_of r3 (by simp), some_of hbus (by simp), hgen, hbr⟩
  refine ⟨h3, _, ?_, f2, f3, ?_, ?_, f4, f5, fun k hk hwk => ?_, fun k hk hx => ?_⟩
  · have hread : readArg w h2 (.str name) true false = (h', .ok (.case s)) := by
      unfold readArg
      dsimp only
      rw [hn]
      dsimp only
      rw [hw]
      exact r1
    unfold loadcase
    rw [show (!true && true) = false from rfl, hread]
    exact f1
  · rw [f7 _ (by decide) (by decide) (by decide) (by rw [r3]; simp), r3]; rfl
  · rw [f7 _ (by decide) (by decide) (by decide) (by rw [hbus]; simp), hbus]
  · obtain ⟨y, o, v, a1, a2, a3, a4⟩ := e2 k hwk
    simp only [List.mem_cons, List.not_mem_nil, or_false, not_or] at hk
    obtain ⟨k1, k2, k3, k4⟩ := hk
    refine ⟨y, o, v, a1, a2, a3, ?_⟩
    have := (r5 k k2 k1).1
    rw [f7 k k1 k3 k4 (by rw [this, a4]; simp), this, a4]
  · have hf := e3 k hk hx
    have k1 : k ≠ "version" := by rintro rfl; exact hx (by decide)
    have k2 : k ≠ "baseMVA" := by rintro rfl; exact hk (Or.inl (by decide))
    have k3 : k ≠ "gen" := by rintro rfl; exact hk (Or.inl (by decide))
    have k4 : k ≠ "branch" := by rintro rfl; exact hk (Or.inl (by decide))
    rw [f6 k k1 k3 k4, (r5 k k2 k1).2 hf]
    rfl

end Verif.SaveMat
