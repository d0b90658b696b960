import Verif.Client.ConvertSpec
import Verif.Client.ConvertLemmas
/-! # What the loops keep -/
namespace Verif.Client.Convert

theorem relevant_iff (h : Heap) (v : Val) (k : String) (parent : Option Obj) :
    shouldIgnore h v k parent = false ↔ Relevant h parent k v := by
  have hconst : ((decide (k.length > 0) && k.toList.all (fun c => ('A' ≤ c && c ≤ 'Z') || c == '_')) = false) ↔
      (k = "" ∨ ∃ c ∈ k.toList, ¬ ('A' ≤ c ∧ c ≤ 'Z') ∧ c ≠ '_') := by
    rw [Bool.and_eq_false_iff]
    constructor
    · rintro (h1 | h1)
      · left
        have : k.length = 0 := by simpa using h1
        exact String.length_eq_zero_iff.1 this
      · right
        rw [List.all_eq_false] at h1
        obtain ⟨c, hc, hn⟩ := h1
        refine ⟨c, hc, ?_⟩
        simpa using hn
    · rintro (rfl | ⟨c, hc, h1, h2⟩)
      · left; simp
      · right
        rw [List.all_eq_false]
        exact ⟨c, hc, by simpa using ⟨fun a => by
          by_cases hz : c ≤ 'Z'
          · exact absurd ⟨a, hz⟩ h1
          · exact Char.not_le.1 hz, h2⟩⟩
  have hlist : nodeBlacklist = ignoredOfNodes := rfl
  cases v with
  | undef => simp [shouldIgnore, Relevant]
  | null => simp [shouldIgnore, Relevant]
  | func => simp [shouldIgnore, Relevant]
  | prim p =>
    simp only [shouldIgnore, Relevant, Bool.or_eq_false_iff, hconst, hlist]
    cases parent with
    | none => simp [and_assoc]
    | some x =>
      cases hs : x.isStyleDecl <;> cases hn : x.isNode <;> simp [and_assoc]
  | obj i =>
    simp only [shouldIgnore, Relevant, Bool.or_eq_false_iff, hconst, hlist]
    cases parent with
    | none => simp; grind
    | some x =>
      cases hs : x.isStyleDecl <;> cases hn : x.isNode <;> simp <;> grind

section loops
variable {h : Heap} {rec recFiles : Val → Res Tree} {M : String × Tree → Prop}

theorem made_snoc {acc : List (String × Tree)} {k : String} {t : Tree} (ha : ∀ p ∈ acc, M p) (ht : M (k, t)) :
    ∀ p ∈ acc ++ [(k, t)], M p := by
  intro p hp
  rcases List.mem_append.1 hp with h' | h'
  · exact ha p h'
  · simp at h'; subst h'; exact ht

theorem get_field {x : Obj} {k : String} {o : Option Val} (hg : x.get k = some o) :
    ∃ f ∈ x.fields ++ x.hidden, f.key = k ∧ f.val = o := by
  simp only [Obj.get, Option.map_eq_some_iff] at hg
  obtain ⟨f, hf, hv⟩ := hg
  exact ⟨f, List.mem_of_find?_eq_some hf, by simpa using List.find?_some hf, hv⟩

theorem field_get {x : Obj} (hd : ((x.fields ++ x.hidden).map (·.key)).Nodup) {f : Field} (hf : f ∈ x.fields ++ x.hidden) :
    x.get f.key = some f.val := by
  simp only [Obj.get]
  generalize x.fields ++ x.hidden = l at *
  induction l with
  | nil => cases hf
  | cons g gs ih =>
    simp only [List.map_cons, List.nodup_cons] at hd
    rcases List.mem_cons.1 hf with rfl | hf'
    · simp
    · have hne : g.key ≠ f.key := fun e => hd.1 (e ▸ List.mem_map.2 ⟨f, hf', rfl⟩)
      simp only [List.find?_cons, beq_eq_false_iff_ne.2 hne]
      exact ih hd.2 hf'

theorem hasKey_iff {r : List (String × Tree)} {k : String} : hasKey r k = true ↔ ∃ t, (k, t) ∈ r := by
  simp only [hasKey, List.any_eq_true, beq_iff_eq]
  constructor
  · rintro ⟨⟨a, t⟩, hp, rfl⟩; exact ⟨t, hp⟩
  · rintro ⟨t, ht⟩; exact ⟨_, ht, rfl⟩

theorem nodup_snoc {acc : List (String × Tree)} {k : String} {t : Tree} (hn : (acc.map (·.1)).Nodup)
    (hk : k ∉ acc.map (·.1)) : ((acc ++ [(k, t)]).map (·.1)).Nodup := by
  rw [List.map_append, List.nodup_append]
  refine ⟨hn, by simp, ?_⟩
  intro a ha b hb
  simp at hb; subst hb
  exact fun e => hk (e ▸ ha)

theorem not_hasKey {acc : List (String × Tree)} {k : String} (hk : hasKey acc k = false) : k ∉ acc.map (·.1) := by
  intro hm
  obtain ⟨⟨a, t⟩, hp, rfl⟩ := List.mem_map.1 hm
  have := hasKey_iff.2 ⟨t, hp⟩
  simp [hk] at this

/-! ## The `for … in` loop -/

theorem forIn_made (parent : Option Obj) : ∀ (fs : List Field) (acc r : List (String × Tree)),
    (∀ f ∈ fs, ∀ q, f.val = some (.prim q) → M (f.key, .leaf (.prim q))) →
    (∀ f ∈ fs, ∀ i t, f.val = some (.obj i) → rec (.obj i) = .ok t → M (f.key, t)) → (∀ p ∈ acc, M p) →
    forIn h rec parent fs acc = .ok r → ∀ p ∈ r, M p := by
  intro fs
  induction fs with
  | nil => intro acc r _ _ ha hr; simp [forIn] at hr; subst hr; exact ha
  | cons f fs ih =>
    intro acc r hp hrec ha hr
    have ih := fun acc => ih acc r (fun g hg => hp g (by simp [hg])) (fun g hg => hrec g (by simp [hg]))
    simp only [forIn] at hr
    split at hr
    · exact ih _ ha hr
    · rename_i v hv
      split at hr
      · exact ih _ ha hr
      · rename_i hig
        split at hr
        · rename_i ho
          obtain ⟨i, rfl⟩ := kept_obj (by simpa using hig) ho
          split at hr
          · rename_i t ht
            exact ih _ (made_snoc ha (hrec f (by simp) i t hv ht)) hr
          · exact ih _ ha hr
          · exact ih _ ha hr
          · cases hr
        · rename_i ho
          obtain ⟨q, rfl⟩ := kept_prim (by simpa using hig) ho
          exact ih _ (made_snoc ha (hp f (by simp) q hv)) hr

theorem forIn_prefix (parent : Option Obj) : ∀ (fs : List Field) (acc r : List (String × Tree)),
    forIn h rec parent fs acc = .ok r → ∀ p ∈ acc, p ∈ r := by
  intro fs
  induction fs with
  | nil => intro acc r hr; simp [forIn] at hr; subst hr; exact fun _ h => h
  | cons f fs ih =>
    intro acc r hr p hp
    simp only [forIn] at hr
    split at hr
    · exact ih _ _ hr p hp
    · split at hr
      · exact ih _ _ hr p hp
      · split at hr
        · split at hr
          · exact ih _ _ hr p (by simp [hp])
          · exact ih _ _ hr p hp
          · exact ih _ _ hr p hp
          · cases hr
        · exact ih _ _ hr p (by simp [hp])

theorem forIn_has (parent : Option Obj) : ∀ (fs : List Field) (acc r : List (String × Tree)),
    forIn h rec parent fs acc = .ok r → ∀ f ∈ fs, ∀ v, f.val = some v → shouldIgnore h v f.key parent = false →
    (isObject v = true → rec v ≠ .signal ∧ rec v ≠ .throws) → ∃ t, (f.key, t) ∈ r ∧ ∀ q, v = .prim q → t = .leaf v := by
  intro fs
  induction fs with
  | nil => intro acc r _ f hf; cases hf
  | cons g fs ih =>
    intro acc r hr f hf v hv hig hrec
    have pre := fun acc => forIn_prefix (h := h) (rec := rec) parent fs acc r
    rcases List.mem_cons.1 hf with rfl | hf'
    · simp only [forIn, hv, hig] at hr
      simp only [Bool.false_eq_true, if_false] at hr
      split at hr
      · rename_i ho
        split at hr
        · rename_i t ht
          exact ⟨t, pre _ hr _ (by simp), fun q hq => by subst hq; simp [isObject] at ho⟩
        · rename_i hs; exact absurd hs (hrec ho).1
        · rename_i hs; exact absurd hs (hrec ho).2
        · cases hr
      · exact ⟨.leaf v, pre _ hr _ (by simp), fun _ _ => rfl⟩
    · have ih := fun acc (hr : forIn h rec parent fs acc = .ok r) => ih acc r hr f hf' v hv hig hrec
      simp only [forIn] at hr
      split at hr
      · exact ih _ hr
      · split at hr
        · exact ih _ hr
        · split at hr
          · split at hr
            · exact ih _ hr
            · exact ih _ hr
            · exact ih _ hr
            · cases hr
          · exact ih _ hr

theorem forIn_nodup (parent : Option Obj) : ∀ (fs : List Field) (acc r : List (String × Tree)),
    forIn h rec parent fs acc = .ok r → (fs.map (·.key)).Nodup → (∀ f ∈ fs, f.key ∉ acc.map (·.1)) → (acc.map (·.1)).Nodup →
    (r.map (·.1)).Nodup := by
  intro fs
  induction fs with
  | nil => intro acc r hr _ _ hn; simp [forIn] at hr; subst hr; exact hn
  | cons f fs ih =>
    intro acc r hr hd hk hn
    simp only [List.map_cons, List.nodup_cons] at hd
    have ih1 := fun (hr : forIn h rec parent fs acc = .ok r) => ih acc r hr hd.2 (fun g hg => hk g (by simp [hg])) hn
    have ih2 := fun t (hr : forIn h rec parent fs (acc ++ [(f.key, t)]) = .ok r) => ih _ r hr hd.2 (fun g hg => by
        simp only [List.map_append, List.mem_append, not_or]
        refine ⟨hk g (by simp [hg]), ?_⟩
        simp only [List.map_cons, List.map_nil, List.mem_singleton]
        exact fun e => hd.1 (e ▸ List.mem_map.2 ⟨g, hg, rfl⟩)) (nodup_snoc hn (hk f (by simp)))
    simp only [forIn] at hr
    split at hr
    · exact ih1 hr
    · split at hr
      · exact ih1 hr
      · split at hr
        · split at hr
          · exact ih2 _ hr
          · exact ih1 hr
          · exact ih1 hr
          · cases hr
        · exact ih2 _ hr

theorem forIn_ne (parent : Option Obj) : ∀ (fs : List Field) (acc : List (String × Tree)),
    forIn h rec parent fs acc ≠ .signal ∧ forIn h rec parent fs acc ≠ .throws := by
  intro fs
  induction fs with
  | nil => intro acc; simp [forIn]
  | cons f fs ih =>
    intro acc
    simp only [forIn]
    split
    · exact ih _
    · split
      · exact ih _
      · split
        · split
          · exact ih _
          · exact ih _
          · exact ih _
          · simp
        · exact ih _

/-! ## `dataset` -/

theorem addDataset_made (x : Obj) (acc r : List (String × Tree))
    (hrec : ∀ v t, x.get "dataset" = some (some v) → ((∃ q, v = .prim q) ∨ ∃ i, v = .obj i) → rec v = .ok t → M ("dataset", t))
    (ha : ∀ p ∈ acc, M p)
    (hr : addDataset h rec x acc = .ok r) : ∀ p ∈ r, M p := by
  simp only [addDataset] at hr
  split at hr
  · simp at hr; subst hr; exact ha
  · rename_i o ho
    split at hr
    · simp at hr; subst hr; exact ha
    · cases o with
      | none => simp at hr
      | some v =>
        simp only at hr
        split at hr
        · simp at hr; subst hr; exact ha
        · rename_i hig
          split at hr
          · rename_i t ht
            simp at hr; subst hr
            exact made_snoc ha (hrec v t ho (kept (by simpa using hig)) ht)
          · simp at hr; subst hr; exact ha
          · cases hr
          · cases hr

theorem addDataset_prefix (x : Obj) (acc r : List (String × Tree))
    (hr : addDataset h rec x acc = .ok r) : ∀ p ∈ acc, p ∈ r := by
  intro p hp
  simp only [addDataset] at hr
  split at hr
  · simp at hr; subst hr; exact hp
  · split at hr
    · simp at hr; subst hr; exact hp
    · split at hr
      · cases hr
      · split at hr
        · simp at hr; subst hr; exact hp
        · split at hr
          · simp at hr; subst hr; simp [hp]
          · simp at hr; subst hr; exact hp
          · cases hr
          · cases hr

theorem addDataset_has (x : Obj) (acc r : List (String × Tree)) (hr : addDataset h rec x acc = .ok r) (v : Val)
    (hg : x.get "dataset" = some (some v)) (hig : shouldIgnore h v "dataset" (some x) = false)
    (hrec : rec v ≠ .signal ∧ ∀ q t, v = .prim q → rec v = .ok t → t = .leaf v) :
    ∃ t, ("dataset", t) ∈ r ∧ (hasKey acc "dataset" = false → ∀ q, v = .prim q → t = .leaf v) := by
  simp only [addDataset, hg] at hr
  split at hr
  · rename_i hk
    simp at hr; subst hr
    obtain ⟨t, ht⟩ := hasKey_iff.1 hk
    exact ⟨t, ht, fun h0 => by simp [hk] at h0⟩
  · simp only [hig, Bool.false_eq_true, if_false] at hr
    split at hr
    · rename_i t ht
      simp at hr; subst hr
      refine ⟨t, by simp, fun _ q hq => ?_⟩
      exact hrec.2 q t hq ht
    · rename_i hs; exact absurd hs hrec.1
    · cases hr
    · cases hr

theorem addDataset_nodup (x : Obj) (acc r : List (String × Tree)) (hr : addDataset h rec x acc = .ok r)
    (hn : (acc.map (·.1)).Nodup) : (r.map (·.1)).Nodup := by
  simp only [addDataset] at hr
  split at hr
  · simp at hr; subst hr; exact hn
  · split at hr
    · simp at hr; subst hr; exact hn
    · rename_i hk
      split at hr
      · cases hr
      · split at hr
        · simp at hr; subst hr; exact hn
        · split at hr
          · simp at hr; subst hr; exact nodup_snoc hn (not_hasKey (by simpa using hk))
          · simp at hr; subst hr; exact hn
          · cases hr
          · cases hr

theorem addDataset_ne (x : Obj) (acc : List (String × Tree)) (hx : ∀ f ∈ x.fields ++ x.hidden, f.val ≠ none)
    (hrec : ∀ v, rec v ≠ .throws) : addDataset h rec x acc ≠ .throws := by
  simp only [addDataset]
  split
  · simp
  · rename_i o ho
    split
    · simp
    · cases o with
      | none => obtain ⟨f, hf, _, hv⟩ := get_field ho; exact absurd hv (hx f hf)
      | some v =>
        simp only
        split
        · simp
        · split
          · simp
          · simp
          · rename_i ht; exact absurd ht (hrec v)
          · simp

theorem addDataset_ns (x : Obj) (acc : List (String × Tree)) : addDataset h rec x acc ≠ .signal := by
  simp only [addDataset]
  repeat' split
  all_goals simp

/-! ## The properties looked up by name -/

theorem addExtras_made (x : Obj)
    (hp : ∀ k q, x.get k = some (some (.prim q)) → M (k, .leaf (.prim q)))
    (hrec : ∀ k i t, x.get k = some (some (.obj i)) → rec (.obj i) = .ok t → M (k, t))
    (hfiles : ∀ i t, x.get "files" = some (some (.obj i)) → recFiles (.obj i) = .ok t → M ("files", t)) :
    ∀ (ps : List String) (acc r : List (String × Tree)), (∀ p ∈ acc, M p) →
    addExtras h rec recFiles x ps acc = .ok r → ∀ p ∈ r, M p := by
  intro ps
  induction ps with
  | nil => intro acc r ha hr; simp [addExtras] at hr; subst hr; exact ha
  | cons k ps ih =>
    intro acc r ha hr
    simp only [addExtras] at hr
    split at hr
    · exact ih _ _ ha hr
    · rename_i o ho
      split at hr
      · exact ih _ _ ha hr
      · cases o with
        | none => simp at hr
        | some v =>
          simp only at hr
          split at hr
          · exact ih _ _ ha hr
          · rename_i hig
            split at hr
            · rename_i hob
              obtain ⟨i, rfl⟩ := kept_obj (by simpa using hig) hob
              split at hr
              · rename_i t ht
                refine ih _ _ (made_snoc ha ?_) hr
                split at ht
                · rename_i hk
                  have : k = "files" := by simpa using hk
                  subst this
                  exact hfiles i t ho ht
                · exact hrec k i t ho ht
              · exact ih _ _ ha hr
              · cases hr
              · cases hr
            · rename_i hob
              obtain ⟨q, rfl⟩ := kept_prim (by simpa using hig) hob
              exact ih _ _ (made_snoc ha (hp k q ho)) hr

theorem addExtras_prefix (x : Obj) : ∀ (ps : List String) (acc r : List (String × Tree)),
    addExtras h rec recFiles x ps acc = .ok r → ∀ p ∈ acc, p ∈ r := by
  intro ps
  induction ps with
  | nil => intro acc r hr; simp [addExtras] at hr; subst hr; exact fun _ h => h
  | cons k ps ih =>
    intro acc r hr p hp
    simp only [addExtras] at hr
    split at hr
    · exact ih _ _ hr p hp
    · split at hr
      · exact ih _ _ hr p hp
      · split at hr
        · cases hr
        · split at hr
          · exact ih _ _ hr p hp
          · split at hr
            · split at hr
              · exact ih _ _ hr p (by simp [hp])
              · exact ih _ _ hr p hp
              · cases hr
              · cases hr
            · exact ih _ _ hr p (by simp [hp])

theorem addExtras_has (x : Obj) : ∀ (ps : List String) (acc r : List (String × Tree)),
    addExtras h rec recFiles x ps acc = .ok r → ps.Nodup → ∀ k ∈ ps, ∀ v, x.get k = some (some v) →
    shouldIgnore h v k (some x) = false →
    (isObject v = true → (if k = "files" then recFiles v else rec v) ≠ .signal) →
    ∃ t, (k, t) ∈ r ∧ (hasKey acc k = false → ∀ q, v = .prim q → t = .leaf v) := by
  intro ps
  induction ps with
  | nil => intro acc r _ _ k hk; cases hk
  | cons j ps ih =>
    intro acc r hr hnd k hk v hg hig hrec
    have pre := fun acc => addExtras_prefix (h := h) (rec := rec) (recFiles := recFiles) x ps acc r
    rcases List.mem_cons.1 hk with rfl | hk'
    · simp only [addExtras, hg] at hr
      split at hr
      · rename_i hh
        obtain ⟨t, ht⟩ := hasKey_iff.1 hh
        exact ⟨t, pre _ hr _ ht, fun h0 => by simp [hh] at h0⟩
      · simp only [hig, Bool.false_eq_true, if_false] at hr
        split at hr
        · rename_i ho
          have hrec := hrec ho
          simp only [beq_iff_eq] at hr
          split at hr
          · rename_i t ht
            exact ⟨t, pre _ hr _ (by simp), fun _ q hq => by subst hq; simp [isObject] at ho⟩
          · rename_i hs; exact absurd hs hrec
          · cases hr
          · cases hr
        · exact ⟨.leaf v, pre _ hr _ (by simp), fun _ _ _ => rfl⟩
    · have hne : j ≠ k := fun e => (List.nodup_cons.1 hnd).1 (e ▸ hk')
      have ih1 := fun (hr : addExtras h rec recFiles x ps acc = .ok r) =>
        ih acc r hr (List.nodup_cons.1 hnd).2 k hk' v hg hig hrec
      have ih2 := fun t (hr : addExtras h rec recFiles x ps (acc ++ [(j, t)]) = .ok r) =>
        ih _ r hr (List.nodup_cons.1 hnd).2 k hk' v hg hig hrec
      have hks : ∀ t, hasKey acc k = false → hasKey (acc ++ [(j, t)]) k = false := by
        intro t h0
        simp only [hasKey, List.any_append, List.any_cons, List.any_nil, Bool.or_false, Bool.or_eq_false_iff] at h0 ⊢
        exact ⟨h0, beq_eq_false_iff_ne.2 hne⟩
      simp only [addExtras] at hr
      split at hr
      · exact ih1 hr
      · split at hr
        · exact ih1 hr
        · split at hr
          · cases hr
          · split at hr
            · exact ih1 hr
            · split at hr
              · split at hr
                · rename_i t _
                  obtain ⟨u, hu, hq⟩ := ih2 t hr
                  exact ⟨u, hu, fun h0 => hq (hks t h0)⟩
                · exact ih1 hr
                · cases hr
                · cases hr
              · obtain ⟨u, hu, hq⟩ := ih2 _ hr
                exact ⟨u, hu, fun h0 => hq (hks _ h0)⟩

theorem addExtras_nodup (x : Obj) : ∀ (ps : List String) (acc r : List (String × Tree)),
    addExtras h rec recFiles x ps acc = .ok r → (acc.map (·.1)).Nodup → (r.map (·.1)).Nodup := by
  intro ps
  induction ps with
  | nil => intro acc r hr hn; simp [addExtras] at hr; subst hr; exact hn
  | cons k ps ih =>
    intro acc r hr hn
    simp only [addExtras] at hr
    split at hr
    · exact ih _ _ hr hn
    · split at hr
      · exact ih _ _ hr hn
      · rename_i hk
        have hk := not_hasKey (by simpa using hk)
        split at hr
        · cases hr
        · split at hr
          · exact ih _ _ hr hn
          · split at hr
            · split at hr
              · exact ih _ _ hr (nodup_snoc hn hk)
              · exact ih _ _ hr hn
              · cases hr
              · cases hr
            · exact ih _ _ hr (nodup_snoc hn hk)

theorem addExtras_ne (x : Obj) (hx : ∀ f ∈ x.fields ++ x.hidden, f.val ≠ none) (hrec : ∀ v, rec v ≠ .throws)
    (hrf : ∀ v, recFiles v ≠ .throws) : ∀ (ps : List String) (acc : List (String × Tree)),
    addExtras h rec recFiles x ps acc ≠ .throws := by
  intro ps
  induction ps with
  | nil => intro acc; simp [addExtras]
  | cons k ps ih =>
    intro acc
    simp only [addExtras]
    split
    · exact ih _
    · rename_i o ho
      split
      · exact ih _
      · cases o with
        | none => obtain ⟨f, hf, _, hv⟩ := get_field ho; exact absurd hv (hx f hf)
        | some v =>
          simp only
          split
          · exact ih _
          · split
            · split
              · exact ih _
              · exact ih _
              · rename_i ht
                split at ht
                · exact absurd ht (hrf v)
                · exact absurd ht (hrec v)
              · simp
            · exact ih _

theorem addExtras_ns (x : Obj) : ∀ (ps : List String) (acc : List (String × Tree)),
    addExtras h rec recFiles x ps acc ≠ .signal := by
  intro ps
  induction ps with
  | nil => intro acc; simp [addExtras]
  | cons k ps ih =>
    intro acc
    simp only [addExtras]
    repeat' split
    all_goals first | exact ih _ | simp

/-! ## Form elements -/

theorem addForm_made (x : Obj) : ∀ (es : List Nat) (acc r : List (String × Tree)),
    (∀ e ∈ es, ∀ n t, (h e).get "name" = some (some (.prim (.str n))) → rec (.obj e) = .ok t → M (n, t)) → (∀ p ∈ acc, M p) →
    addForm h rec x es acc = .ok r → ∀ p ∈ r, M p := by
  intro es
  induction es with
  | nil => intro acc r _ ha hr; simp [addForm] at hr; subst hr; exact ha
  | cons e es ih =>
    intro acc r hrec ha hr
    have ih := fun acc => ih acc r (fun g hg => hrec g (by simp [hg]))
    simp only [addForm] at hr
    split at hr
    · rename_i n hn
      split at hr
      · split at hr
        · rename_i t ht
          exact ih _ (made_snoc ha (hrec e (by simp) n t hn ht)) hr
        · exact ih _ ha hr
        · cases hr
        · cases hr
      · exact ih _ ha hr
    · cases hr
    · exact ih _ ha hr

theorem addForm_prefix (x : Obj) : ∀ (es : List Nat) (acc r : List (String × Tree)),
    addForm h rec x es acc = .ok r → ∀ p ∈ acc, p ∈ r := by
  intro es
  induction es with
  | nil => intro acc r hr; simp [addForm] at hr; subst hr; exact fun _ h => h
  | cons e es ih =>
    intro acc r hr p hp
    simp only [addForm] at hr
    split at hr
    · split at hr
      · split at hr
        · exact ih _ _ hr p (by simp [hp])
        · exact ih _ _ hr p hp
        · cases hr
        · cases hr
      · exact ih _ _ hr p hp
    · cases hr
    · exact ih _ _ hr p hp

theorem addForm_has (x : Obj) : ∀ (es : List Nat) (acc r : List (String × Tree)),
    addForm h rec x es acc = .ok r → ∀ e ∈ es, ∀ n, (h e).get "name" = some (some (.prim (.str n))) → n ≠ "" →
    shouldIgnore h (.obj e) n (some x) = false → rec (.obj e) ≠ .signal → ∃ t, (n, t) ∈ r := by
  intro es
  induction es with
  | nil => intro acc r _ e he; cases he
  | cons g es ih =>
    intro acc r hr e he n hn hne hig hrec
    have pre := fun acc => addForm_prefix (h := h) (rec := rec) x es acc r
    rcases List.mem_cons.1 he with rfl | he'
    · simp only [addForm, hn] at hr
      split at hr
      · split at hr
        · rename_i t ht
          exact ⟨t, pre _ hr _ (by simp)⟩
        · rename_i hs; exact absurd hs hrec
        · cases hr
        · cases hr
      · rename_i hc
        cases hk : hasKey acc n with
        | true =>
          obtain ⟨t, ht⟩ := hasKey_iff.1 hk
          exact ⟨t, pre _ hr _ ht⟩
        | false => exact absurd ⟨hne, hk, hig⟩ hc
    · have ih := fun acc (hr : addForm h rec x es acc = .ok r) => ih acc r hr e he' n hn hne hig hrec
      simp only [addForm] at hr
      split at hr
      · split at hr
        · split at hr
          · exact ih _ hr
          · exact ih _ hr
          · cases hr
          · cases hr
        · exact ih _ hr
      · cases hr
      · exact ih _ hr

theorem addForm_nodup (x : Obj) : ∀ (es : List Nat) (acc r : List (String × Tree)),
    addForm h rec x es acc = .ok r → (acc.map (·.1)).Nodup → (r.map (·.1)).Nodup := by
  intro es
  induction es with
  | nil => intro acc r hr hn; simp [addForm] at hr; subst hr; exact hn
  | cons e es ih =>
    intro acc r hr hn
    simp only [addForm] at hr
    split at hr
    · split at hr
      · rename_i hc
        split at hr
        · exact ih _ _ hr (nodup_snoc hn (not_hasKey hc.2.1))
        · exact ih _ _ hr hn
        · cases hr
        · cases hr
      · exact ih _ _ hr hn
    · cases hr
    · exact ih _ _ hr hn

theorem addForm_ne (x : Obj) (hc : Calm h) (hrec : ∀ v, rec v ≠ .throws) : ∀ (es : List Nat) (acc : List (String × Tree)),
    addForm h rec x es acc ≠ .throws := by
  intro es
  induction es with
  | nil => intro acc; simp [addForm]
  | cons e es ih =>
    intro acc
    simp only [addForm]
    split
    · split
      · split
        · exact ih _
        · exact ih _
        · rename_i ht; exact absurd ht (hrec _)
        · simp
      · exact ih _
    · rename_i hn
      obtain ⟨f, hf, _, hv⟩ := get_field hn
      exact absurd hv ((hc e).1 f hf)
    · exact ih _

theorem addForm_ns (x : Obj) : ∀ (es : List Nat) (acc : List (String × Tree)), addForm h rec x es acc ≠ .signal := by
  intro es
  induction es with
  | nil => intro acc; simp [addForm]
  | cons e es ih =>
    intro acc
    simp only [addForm]
    repeat' split
    all_goals first | exact ih _ | simp

/-! ## Arrays -/

theorem toArray_ne : ∀ (items : List (Option Val)) (acc : List Tree), none ∉ items → (∀ v, rec v ≠ .throws) →
    toArray h rec items acc ≠ .throws := by
  intro items
  induction items with
  | nil => intro acc _ _; simp [toArray]
  | cons x xs ih =>
    intro acc hn hrec
    cases x with
    | none => simp at hn
    | some v =>
      have ih := fun acc => ih acc (fun h0 => hn (by simp [h0])) hrec
      simp only [toArray]
      split
      · exact ih _
      · split
        · split
          · exact ih _
          · exact ih _
          · rename_i ht; exact absurd ht (hrec _)
          · simp
        · exact ih _

theorem toArray_ns : ∀ (items : List (Option Val)) (acc : List Tree), toArray h rec items acc ≠ .signal := by
  intro items
  induction items with
  | nil => intro acc; simp [toArray]
  | cons x xs ih =>
    intro acc
    cases x with
    | none => simp [toArray]
    | some v =>
      simp only [toArray]
      repeat' split
      all_goals first | exact ih _ | simp

end loops

theorem bind_ns {α β : Type} {r : Res α} {k : α → Res β} (hr : r ≠ .signal) (hk : ∀ a, k a ≠ .signal) : r.bind k ≠ .signal := by
  cases r <;> simp_all [Res.bind]

theorem bind_nt {α β : Type} {r : Res α} {k : α → Res β} (hr : r ≠ .throws) (hk : ∀ a, k a ≠ .throws) : r.bind k ≠ .throws := by
  cases r <;> simp_all [Res.bind]

/-- A clone gives the depth signal only at the end of the depth or in a cycle. -/
theorem clone_signal {h : Heap} {fuel : Nat} {d : Int} {vis : List Nat} {v : Val} (hs : clone h fuel d vis v = .signal) :
    (∀ q, v ≠ .prim q) ∧ ∀ j, v = .obj j → d ≤ 1 ∨ j ∈ vis := by
  cases fuel with
  | zero => simp [clone] at hs
  | succ fuel =>
    simp only [clone] at hs
    split at hs
    · rename_i hc
      refine ⟨?_, fun j _ => .inl (by omega)⟩
      rintro q rfl
      simp [isObject] at hc
    · split at hs
      · rename_i i
        refine ⟨by simp, ?_⟩
        rintro j ⟨⟩
        split at hs
        · rename_i hv; exact .inr (by simpa using hv)
        · exfalso
          split at hs
          · cases hs
          · exact bind_ns (toArray_ns _ _) (by simp) hs
          · refine bind_ns ?_ (by simp) hs
            refine bind_ns (forIn_ne _ _ _).1 fun r1 => bind_ns (addDataset_ns _ _) fun r2 => bind_ns (addExtras_ns _ _ _) fun r3 => ?_
            split
            · simp
            · exact addForm_ns _ _ _
      · cases hs

/-- When no property raises, neither does a clone. -/
theorem clone_calm {h : Heap} (hc : Calm h) : ∀ (fuel : Nat) (d : Int) (vis : List Nat) (v : Val), clone h fuel d vis v ≠ .throws := by
  intro fuel
  induction fuel with
  | zero => intro d vis v; simp [clone]
  | succ fuel ih =>
    intro d vis v
    simp only [clone]
    split
    · simp
    · split
      · rename_i i _
        split
        · simp
        · split
          · rename_i ha
            exfalso
            simp only [arrayLike] at ha
            split at ha
            · cases ha
            · split at ha
              · rename_i hl; exact (hc i).2.2 hl
              · cases ha
          · exact bind_nt (toArray_ne _ _ (hc i).2.1 (ih _ _)) (by simp)
          · refine bind_nt ?_ (by simp)
            refine bind_nt (forIn_ne _ _ _).2 fun r1 => bind_nt (addDataset_ne _ _ (hc i).1 (ih _ _)) fun r2 =>
              bind_nt (addExtras_ne _ (hc i).1 (ih _ _) (ih _ _) _ _) fun r3 => ?_
            split
            · simp
            · exact addForm_ne _ hc (ih _ _) _ _
      · simp

theorem clone_prim {h : Heap} {fuel : Nat} {d : Int} {vis : List Nat} {q : Prim} :
    clone h (fuel + 1) d vis (.prim q) = .ok (.leaf (.prim q)) := by
  simp [clone, isObject]

theorem within_ok {h : Heap} {fuel : Nat} {d : Int} {vis : List Nat} {v : Val} (hw : Within h d vis v) :
    clone h fuel d vis v ≠ .signal ∧ (isObject v = true → clone h fuel d vis v ≠ .throws) := by
  refine ⟨fun hs => ?_, fun ho => ?_⟩
  · obtain ⟨h1, h2⟩ := clone_signal hs
    cases v with
    | prim q => exact h1 q rfl
    | obj j =>
      rcases h2 j rfl with h3 | h3
      · have := hw.1; omega
      · exact hw.2.1 h3
    | _ => exact hw
  · cases v with
    | obj j => exact clone_calm hw.2.2 _ _ _ _
    | prim q => simp [isObject] at ho
    | _ => exact hw.elim

theorem toArray_shows {h : Heap} {d : Int} {anc : List Nat} {rec : Val → Res Tree}
    (hrec : ∀ v t, rec v = .ok t → ((∃ q, v = .prim q) ∨ ∃ i, v = .obj i) → Shows h d anc v t)
    (hw : ∀ v, Within h d anc v → rec v ≠ .signal) :
    ∀ (items : List (Option Val)) (acc r : List Tree), toArray h rec items acc = .ok r →
    ∃ xs, r = acc ++ xs ∧ ShowsItems h d anc items xs := by
  intro items
  induction items with
  | nil => intro acc r hr; simp [toArray] at hr; subst hr; exact ⟨[], by simp, .nil _ _⟩
  | cons x xs ih =>
    intro acc r hr
    cases x with
    | none => simp [toArray] at hr
    | some v =>
      simp only [toArray] at hr
      split at hr
      · rename_i hig
        obtain ⟨ys, rfl, hs⟩ := ih _ _ hr
        exact ⟨ys, rfl, .skip _ _ _ _ _ (fun hc => by simp [(relevant_iff h v "" none).2 hc.1] at hig) hs⟩
      · rename_i hig
        split at hr
        · rename_i ho
          split at hr
          · rename_i t ht
            obtain ⟨ys, rfl, hs⟩ := ih _ _ hr
            exact ⟨t :: ys, by simp, .take _ _ _ _ _ _ (hrec v t ht (kept (by simpa using hig))) hs⟩
          · rename_i hsig
            obtain ⟨ys, rfl, hs⟩ := ih _ _ hr
            exact ⟨ys, rfl, .skip _ _ _ _ _ (fun hc => hw v hc.2 hsig) hs⟩
          · cases hr
          · cases hr
        · rename_i ho
          obtain ⟨q, rfl⟩ := kept_prim (by simpa using hig) ho
          obtain ⟨ys, rfl, hs⟩ := ih _ _ hr
          exact ⟨.leaf (.prim q) :: ys, by simp, .take _ _ _ _ _ _ (.leaf _ _ q) hs⟩

/-- Each clone shows what it clones. -/
theorem clone_shows (h : Heap) : ∀ (fuel : Nat) (d : Int) (anc : List Nat) (v : Val) (t : Tree),
    clone h fuel d anc v = .ok t → ((∃ q, v = .prim q) ∨ ∃ i, v = .obj i) → Shows h d anc v t := by
  intro fuel
  induction fuel with
  | zero => intro d anc v t hc; simp [clone] at hc
  | succ fuel ih =>
    intro d anc v t hc hv
    rcases hv with ⟨q, rfl⟩ | ⟨i, rfl⟩
    · rw [clone_prim] at hc; cases hc; exact .leaf _ _ q
    · simp only [clone, isObject, and_true] at hc
      split at hc
      · cases hc
      · rename_i hd
        have hd : 1 < d := by omega
        split at hc
        · cases hc
        · rename_i hvis
          have hvis : i ∉ anc := by simpa using hvis
          split at hc
          · cases hc
          · rename_i ha
            obtain ⟨xs, hx, hc⟩ := bind_ok hc
            cases hc
            obtain ⟨ys, rfl, hs⟩ := toArray_shows (ih (d - 1) (i :: anc)) (fun v hw => (within_ok hw).1) _ _ _ hx
            exact .arr _ _ _ _ ha hd hvis hs
          · rename_i ha
            obtain ⟨fs, hx, hc⟩ := bind_ok hc
            cases hc
            obtain ⟨r1, h1, hx⟩ := bind_ok hx
            obtain ⟨r2, h2, hx⟩ := bind_ok hx
            obtain ⟨r3, h3, hx⟩ := bind_ok hx
            -- what there is
            let M : String × Tree → Prop := fun p => ∃ s : Val × Int, (Member h i p.1 s.1 ∧
              (s.2 = d - 1 ∨ p.1 = "files" ∧ s.2 = max (d - 1) 3)) ∧ Shows h s.2 (i :: anc) s.1 p.2
            have hget : ∀ k v, (h i).get k = some (some v) → Member h i k v := by
              intro k v hg
              obtain ⟨f, hf, hk, hv⟩ := get_field hg
              exact .inl ⟨f, hf, hk, hv⟩
            have m1 : ∀ p ∈ r1, M p := by
              refine forIn_made (some (h i)) _ _ _ ?_ ?_ (by simp) h1
              · intro f hf q hv
                exact ⟨(.prim q, d - 1), ⟨.inl ⟨f, by simp [hf], rfl, hv⟩, .inl rfl⟩, .leaf _ _ q⟩
              · intro f hf j t hv ht
                exact ⟨(.obj j, d - 1), ⟨.inl ⟨f, by simp [hf], rfl, hv⟩, .inl rfl⟩, ih _ _ _ _ ht (.inr ⟨j, rfl⟩)⟩
            have m2 : ∀ p ∈ r2, M p := addDataset_made _ _ _
              (fun v t hg hv ht => ⟨(v, d - 1), ⟨hget _ _ hg, .inl rfl⟩, ih _ _ _ _ ht hv⟩) m1 h2
            have m3 : ∀ p ∈ r3, M p := addExtras_made _
              (fun k q hg => ⟨(.prim q, d - 1), ⟨hget _ _ hg, .inl rfl⟩, .leaf _ _ q⟩)
              (fun k j t hg ht => ⟨(.obj j, d - 1), ⟨hget _ _ hg, .inl rfl⟩, ih _ _ _ _ ht (.inr ⟨j, rfl⟩)⟩)
              (fun j t hg ht => ⟨(.obj j, max (d - 1) 3), ⟨hget _ _ hg, .inr ⟨rfl, rfl⟩⟩, ih _ _ _ _ ht (.inr ⟨j, rfl⟩)⟩) _ _ _ m2 h3
            have m4 : (∀ p ∈ fs, M p) ∧ (∀ p ∈ r3, p ∈ fs) ∧ ((r3.map (·.1)).Nodup → (fs.map (·.1)).Nodup) ∧
                (∀ es e n, (h i).form = some es → e ∈ es → (h e).get "name" = some (some (.prim (.str n))) → n ≠ "" →
                  Relevant h (some (h i)) n (.obj e) → Within h (d - 1) (i :: anc) (.obj e) → ∃ t, (n, t) ∈ fs) := by
              split at hx
              · rename_i hf
                cases hx
                exact ⟨m3, fun _ h => h, fun h => h, fun es e n he => by simp [hf] at he⟩
              · rename_i es hf
                refine ⟨addForm_made _ _ _ _ (fun e he n t hn ht =>
                  ⟨(.obj e, d - 1), ⟨.inr ⟨es, e, hf, he, rfl, hn⟩, .inl rfl⟩, ih _ _ _ _ ht (.inr ⟨e, rfl⟩)⟩) m3 hx,
                  addForm_prefix _ _ _ _ hx, addForm_nodup _ _ _ _ hx, ?_⟩
                intro es' e n he hm hn hne hrel hw
                rw [hf] at he; cases he
                exact addForm_has _ _ _ _ hx e hm n hn hne ((relevant_iff _ _ _ _).2 hrel) (within_ok hw).1
            have p2 := addDataset_prefix _ _ _ h2
            have p3 := addExtras_prefix _ _ _ _ h3
            have hsrc : ∃ src : String × Tree → Val × Int, ∀ p ∈ fs, (Member h i p.1 (src p).1 ∧
                ((src p).2 = d - 1 ∨ p.1 = "files" ∧ (src p).2 = max (d - 1) 3)) ∧ Shows h (src p).2 (i :: anc) (src p).1 p.2 := by
              have : ∀ p, ∃ s : Val × Int, p ∈ fs → (Member h i p.1 s.1 ∧
                  (s.2 = d - 1 ∨ p.1 = "files" ∧ s.2 = max (d - 1) 3)) ∧ Shows h s.2 (i :: anc) s.1 p.2 := by
                intro p
                by_cases hp : p ∈ fs
                · obtain ⟨s, hs⟩ := m4.1 p hp; exact ⟨s, fun _ => hs⟩
                · exact ⟨(.null, 0), fun h => absurd h hp⟩
              exact ⟨fun p => (this p).choose, fun p => (this p).choose_spec⟩
            obtain ⟨src, hsrc⟩ := hsrc
            refine .obj d anc i fs src ha hd hvis (fun p hp => (hsrc p hp).1) (fun p hp => (hsrc p hp).2) ?_ ?_ m4.2.2.2
            · intro hnd
              exact m4.2.2.1 (addExtras_nodup _ _ _ _ h3 (addDataset_nodup _ _ _ h2 (forIn_nodup _ _ _ _ h1 hnd (by simp) (by simp))))
            · intro k v hl hrel hw hnd
              have hig := (relevant_iff h v k (some (h i))).2 hrel
              have hgk : (h i).get k = some (some v) := by
                rcases hl with ⟨f, hf, rfl, hv⟩ | ⟨_, hg⟩
                · rw [field_get hnd (by simp [hf]), hv]
                · exact hg
              have up : ∀ {p}, p ∈ r1 → p ∈ fs := fun hp => m4.2.1 _ (p3 _ (p2 _ hp))
              have hdata : k = "dataset" → Within h (d - 1) (i :: anc) v → ∃ t, (k, t) ∈ r2 ∧ (hasKey r1 k = false → ∀ q, v = .prim q → t = .leaf v) := by
                rintro rfl hw
                refine addDataset_has _ _ _ h2 v hgk hig ⟨(within_ok hw).1, ?_⟩
                rintro q t rfl ht
                cases fuel with
                | zero => simp [clone] at ht
                | succ fuel => rw [clone_prim] at ht; cases ht; rfl
              have hextra : k ∈ extraProps → ∃ t, (k, t) ∈ r3 ∧ (hasKey r2 k = false → ∀ q, v = .prim q → t = .leaf v) := by
                intro hk
                refine addExtras_has _ _ _ _ h3 (by decide) k hk v hgk hig ?_
                intro ho
                cases v with
                | prim q => simp [isObject] at ho
                | obj j =>
                  split
                  · rename_i hkf
                    rw [if_pos hkf] at hw
                    exact (within_ok (v := .obj j) ⟨by omega, hw.2⟩).1
                  · rename_i hkf
                    rw [if_neg hkf] at hw
                    exact (within_ok hw).1
                | _ => exact hw.elim
              have hlist : k ∈ ["dataset", "value", "checked", "files", "type", "name"] → k = "dataset" ∨ k ∈ extraProps := by
                intro hk; simpa [extraProps] using hk
              cases v with
              | prim q =>
                by_cases hfld : ∃ f ∈ (h i).fields, f.key = k
                · obtain ⟨f, hf, rfl⟩ := hfld
                  have hv := field_get hnd (f := f) (by simp [hf])
                  rw [hgk] at hv
                  obtain ⟨t, ht, hq⟩ := forIn_has _ _ _ _ h1 f hf (.prim q) (by simpa using hv.symm) hig (by simp [isObject])
                  exact ⟨t, up ht, hq⟩
                · have hn1 : hasKey r1 k = false := by
                    cases hk : hasKey r1 k with
                    | false => rfl
                    | true =>
                      obtain ⟨t, ht⟩ := hasKey_iff.1 hk
                      exact absurd (forIn_made (M := fun p => ∃ f ∈ (h i).fields, f.key = p.1) _ _ _ _
                        (fun f hf _ _ => ⟨f, hf, rfl⟩) (fun f hf _ _ _ _ => ⟨f, hf, rfl⟩) (by simp) h1 _ ht) hfld
                  have hk : k ∈ ["dataset", "value", "checked", "files", "type", "name"] := by
                    rcases hl with ⟨f, hf, hk, _⟩ | ⟨hk, _⟩
                    · exact absurd ⟨f, hf, hk⟩ hfld
                    · exact hk
                  by_cases hkd : k = "dataset"
                  · obtain ⟨t, ht, hq⟩ := hdata hkd trivial
                    exact ⟨t, m4.2.1 _ (p3 _ ht), hq hn1⟩
                  · have hn2 : hasKey r2 k = false := by
                      cases hk : hasKey r2 k with
                      | false => rfl
                      | true =>
                        obtain ⟨t, ht⟩ := hasKey_iff.1 hk
                        have := addDataset_made (M := fun p => p.1 = "dataset" ∨ p ∈ r1) _ _ _ (fun _ _ _ _ _ => .inl rfl)
                          (fun p hp => .inr hp) h2 _ ht
                        rcases this with h0 | h0
                        · exact absurd h0 hkd
                        · rw [hasKey_iff.2 ⟨t, h0⟩] at hn1; cases hn1
                    obtain ⟨t, ht, hq⟩ := hextra ((hlist hk).resolve_left hkd)
                    exact ⟨t, m4.2.1 _ ht, hq hn2⟩
              | obj j =>
                have hno : ∀ t : Tree, ∀ q, Val.obj j = .prim q → t = .leaf (.obj j) := fun _ _ h => by cases h
                by_cases hk : k ∈ ["dataset", "value", "checked", "files", "type", "name"]
                · by_cases hkd : k = "dataset"
                  · have : Within h (d - 1) (i :: anc) (.obj j) := by
                      rw [if_neg (by rw [hkd]; decide)] at hw; exact hw
                    obtain ⟨t, ht, _⟩ := hdata hkd this
                    exact ⟨t, m4.2.1 _ (p3 _ ht), hno t⟩
                  · obtain ⟨t, ht, _⟩ := hextra ((hlist hk).resolve_left hkd)
                    exact ⟨t, m4.2.1 _ ht, hno t⟩
                · rcases hl with ⟨f, hf, rfl, hv⟩ | ⟨h0, _⟩
                  · rw [if_neg (fun h0 => hk (by simp [h0]))] at hw
                    obtain ⟨t, ht, _⟩ := forIn_has _ _ _ _ h1 f hf _ hv hig (fun ho => ⟨(within_ok hw).1, (within_ok hw).2 ho⟩)
                    exact ⟨t, up ht, hno t⟩
                  · exact absurd h0 hk
              | _ => exact hw.elim

end Verif.Client.Convert
