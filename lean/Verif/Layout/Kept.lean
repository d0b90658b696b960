import Verif.Layout.Final
/-! # Instances follow keys and types (helper lemmas) -/
namespace Verif.Layout
variable {U : User}

/-! ### Numbers of instances only grow -/

theorem prepareComp_next {old c} {s s1 : St U} {r} (h : prepareComp old c s = (s1, r)) : s.nextId ≤ s1.nextId := by
  unfold prepareComp at h
  split at h
  · simp [allocate] at h; rw [← h.1]; simp
  · rename_i p id' oc e ks'
    split at h
    · have hs := unmountAll_spec [Node.comp p id' oc e ks'] s
      split at h
      · rename_i hu; rw [hu] at hs; simp [allocate] at h; rw [← h.1]; have := hs.nextId; simp at this ⊢; omega
      · rename_i hu; rw [hu] at hs; simp at h; rw [← h.1]; have := hs.nextId; simp at this; omega
    · simp at h; rw [h.1]; omega
  · rename_i n _
    have hs := unmountAll_spec [n] s
    split at h
    · rename_i hu; rw [hu] at hs; simp [allocate] at h; rw [← h.1]; have := hs.nextId; simp at this ⊢; omega
    · rename_i hu; rw [hu] at hs; simp at h; rw [← h.1]; have := hs.nextId; simp at this; omega

theorem prepareComp_kept {old c} {s s1 : St U} {id ks} (h : prepareComp old c s = (s1, .ok (id, ks))) :
    (∃ p oc e, old = some (.comp p id oc e ks) ∧ oc.type = c.type) ∨
    (s.nextId ≤ id ∧ ks = [] ∧ ∀ p i oc e os, old = some (.comp p i oc e os) → oc.type ≠ c.type) := by
  unfold prepareComp at h
  split at h
  · simp [allocate] at h; obtain ⟨_, rfl, rfl⟩ := h; exact .inr ⟨Nat.le_refl _, rfl, by simp⟩
  · rename_i p id' oc e ks'
    split at h
    · rename_i ht
      have hs := unmountAll_spec [Node.comp p id' oc e ks'] s
      split at h
      · rename_i hu; rw [hu] at hs; simp [allocate] at h; obtain ⟨_, rfl, rfl⟩ := h
        have := hs.nextId; simp at this
        refine .inr ⟨by omega, rfl, ?_⟩
        rintro _ _ _ _ _ ⟨⟩; exact ht
      · simp at h
    · rename_i ht
      simp at h; obtain ⟨rfl, rfl, rfl⟩ := h
      exact .inl ⟨p, oc, e, rfl, by simpa using ht⟩
  · rename_i n hn
    have hs := unmountAll_spec [n] s
    split at h
    · rename_i hu; rw [hu] at hs; simp [allocate] at h; obtain ⟨_, rfl, rfl⟩ := h
      have := hs.nextId; simp at this
      exact .inr ⟨by omega, rfl, fun p i oc e os ho => absurd (Option.some.inj ho) (hn p i oc e os)⟩
    · simp at h

theorem prepareModel_next {old i} {s s1 : St U} {r} (h : prepareModel old i s = (s1, r)) : s1.nextId = s.nextId := by
  unfold prepareModel at h
  split at h
  · split at h <;> (simp at h; rw [h.1])
  · split at h
    · simp at h; rw [h.1]
    · split at h <;> (simp at h; rw [← h.1])
  · rename_i o _
    have hs := unmountAll_spec [o] s
    split at h
    · rename_i hu; rw [hu] at hs
      split at h <;> (simp at h; rw [← h.1]; exact hs.nextId)
    · rename_i hu; rw [hu] at hs; simp at h; rw [← h.1]; exact hs.nextId

theorem runBody_next {s s2 : St U} {id c r} (h : runBody s id c = (s2, r)) : s2.nextId = s.nextId := by
  unfold runBody at h
  split at h <;> (simp at h; rw [← h.1])

theorem run_next {call} {s s' : St U} {r} (h : Run call s s' r) : s.nextId ≤ s'.nextId := by
  induction h with
  | compUnm hp => exact prepareComp_next hp
  | compRaise hp hb => have := prepareComp_next hp; have := runBody_next hb; simp [enterComp] at this ⊢; omega
  | compOk hp hb _ ih => have := prepareComp_next hp; have := runBody_next hb; simp [enterComp] at this ih ⊢; omega
  | compErr hp hb _ ih => have := prepareComp_next hp; have := runBody_next hb; simp [enterComp] at this ih ⊢; omega
  | modelPrep hp => rw [prepareModel_next hp]; omega
  | modelOk hp _ ih => have := prepareModel_next hp; simp at ih; omega
  | modelErr hp _ ih => have := prepareModel_next hp; simp at ih; omega
  | kidsDup _ => omega
  | kidsUnm _ hu => have := (unmountAll_spec' hu).nextId; omega
  | kidsLoop _ hu _ ih => have := (unmountAll_spec' hu).nextId; omega
  | loopNil => omega
  | loopFirst _ ih => exact ih
  | loopRest _ _ ih1 ih2 => omega
  | loopOk _ _ ih1 ih2 => omega
  | childElem _ ih => exact ih
  | childComp _ ih => exact ih
  | childText => omega
  | childTextOld hu => have := (unmountAll_spec' hu).nextId; omega
  | childTextErr hu => have := (unmountAll_spec' hu).nextId; omega
  | childNone => omega

/-! ### The old sibling with a key -/

/-- The instance of a state. -/
def optInst (o : Option Node) : Option Inst := (instsL o.toList).head?

theorem insts_key (n : Node) : ∀ x ∈ n.insts, x.key = n.key? := by
  intro x hx
  match n with
  | .text _ => simp [Node.insts] at hx
  | .elem p sh ts ks => rw [insts_elem] at hx; simp at hx; subst hx; rfl
  | .comp p id c e ks => simp [Node.insts] at hx; subst hx; rfl

theorem insts_shape (n : Node) : n.insts = (if n.isText then [] else n.insts) ∧ (n.isText = false → ∃ x, n.insts = [x]) := by
  match n with
  | .text _ => simp [Node.insts, Node.isText]
  | .elem p sh ts ks => rw [insts_elem]; simp [Node.isText]
  | .comp p id c e ks => simp [Node.insts, Node.isText]

theorem find_insts (ks : List Node) (k : Key) :
    (instsL ks).find? (fun o => decide (o.key = some k)) = optInst (lookupKid ks k) := by
  induction ks with
  | nil => simp [instsL, lookupKid, optInst]
  | cons n ns ih =>
    have hk := insts_key n
    obtain ⟨h1, h2⟩ := insts_shape n
    simp only [instsL, lookupKid, List.find?_cons] at ih ⊢
    rw [List.find?_append, ih]
    cases ht : n.isText with
    | true =>
      rw [ht] at h1; simp at h1
      simp [h1]
    | false =>
      obtain ⟨x, hx⟩ := h2 ht
      have hkx := hk x (by rw [hx]; simp)
      by_cases he : n.key? = some k
      · simp [hx, hkx, he, optInst, instsL]
      · simp [hx, hkx, he]

theorem keptL_append (known : Nat → Prop) (old a b : List Inst) :
    keptL known old (a ++ b) ↔ keptL known old a ∧ keptL known old b := by
  induction a with
  | nil => simp [keptL]
  | cons x xs ih => simp [keptL, ih, and_assoc]

theorem keptL_iff (known : Nat → Prop) (old ns : List Inst) :
    keptL known old ns ↔ ∀ n ∈ ns, n.Kept known (old.find? (fun o => decide (o.key = n.key))) := by
  induction ns with
  | nil => simp [keptL]
  | cons n ns ih => simp [keptL, ih]

theorem lookup_filter (old : List Node) (p : Node → Bool) (k : Key) (h : ∀ n ∈ old, n.isText = false → n.key? = some k → p n = true) :
    lookupKid (old.filter p) k = lookupKid old k := by
  induction old with
  | nil => rfl
  | cons n ns ih =>
    have ih := ih fun m hm => h m (by simp [hm])
    have h1 := h n (by simp)
    simp only [lookupKid] at ih ⊢
    by_cases hp : p n
    · rw [List.filter_cons_of_pos hp, List.find?_cons, List.find?_cons, ih]
    · rw [List.filter_cons_of_neg hp, ih, List.find?_cons]
      have : (!n.isText && decide (n.key? = some k)) = false := by
        cases ht : n.isText with
        | true => rfl
        | false =>
          by_cases hk : n.key? = some k
          · exact absurd (h1 ht hk) hp
          · simp [hk]
      rw [this]

theorem mem_instsL {x : Inst} {ns : List Node} : x ∈ instsL ns ↔ ∃ n ∈ ns, x ∈ n.insts := by
  induction ns with
  | nil => simp [instsL]
  | cons n ns ih => simp [instsL, ih]

/-- Old siblings with other keys do not matter. -/
theorem keptL_lookup {known : Nat → Prop} {a b : List Node} {ns : List Node} {keys : List Key}
    (hk : ∀ k ∈ keys, lookupKid a k = lookupKid b k) (hn : ∀ n ∈ ns, n.isText = false → ∃ k ∈ keys, n.key? = some k)
    (h : keptL known (instsL a) (instsL ns)) : keptL known (instsL b) (instsL ns) := by
  rw [keptL_iff] at h ⊢
  intro x hx
  have h1 := h x hx
  obtain ⟨n, hm, hxn⟩ := mem_instsL.1 hx
  have ht : n.isText = false := by
    cases hc : n.isText with
    | false => rfl
    | true => have := (insts_shape n).1; rw [hc] at this; simp at this; rw [this] at hxn; simp at hxn
  obtain ⟨k, hkk, hke⟩ := hn n hm ht
  rw [insts_key n x hxn, hke, find_insts] at h1 ⊢
  rw [← hk k hkk]; exact h1

/-! ### Every call -/

def KeptCall (b : Nat) (call : Call) (r : Res) : Prop :=
  match call, r with
  | .comp _ old _ _, .ok ns => ∀ x ∈ instsL ns, x.Kept (· < b) (optInst old)
  | .model _ old _ _ _, .ok ns => ∀ x ∈ instsL ns, x.Kept (· < b) (optInst old)
  | .child _ old _ _, .ok ns => ∀ x ∈ instsL ns, x.Kept (· < b) (optInst old)
  | .kids _ old _ _ _, .ok ns => keptL (· < b) (instsL old) (instsL ns)
  | .loop _ old _ _ _ _, .ok ns => keptL (· < b) (instsL old) (instsL ns)
  | _, _ => True

def InfoPre : Call → Prop
  | .loop _ _ _ _ _ infos => (infos.map (·.2)).Nodup
  | _ => True

theorem optInst_comp (p id c e ks) : optInst (some (.comp p id c e ks)) = some (.comp p.key id c (instsL ks)) := by
  simp [optInst, instsL, Node.insts]
theorem optInst_elem (p sh ts ks) : optInst (some (.elem p sh ts ks)) = some (.elem p.key (instsL (ks.getD []))) := by
  simp [optInst, instsL, insts_elem]
theorem optInst_text (t) : optInst (some (.text t)) = none := by simp [optInst, instsL, Node.insts]
theorem optInst_none : optInst none = none := by simp [optInst, instsL]

/-- A component with the kids compared to the old ones. -/
theorem kept_comp {b : Nat} {old c} {s s1 : St U} {id ks} (hp : prepareComp old c s = (s1, .ok (id, ks))) (hb : b ≤ s.nextId)
    {k : Option Key} {new : List Inst} (hk : keptL (· < b) (instsL ks) new) :
    (Inst.comp k id c new).Kept (· < b) (optInst old) := by
  rcases prepareComp_kept hp with ⟨p, oc, e, rfl, ht⟩ | ⟨hid, rfl, hne⟩
  · rw [optInst_comp]
    simp only [Inst.Kept, if_pos ht]
    exact ⟨trivial, hk⟩
  · have hnk : ¬ (id < b) := by omega
    have hk' : keptL (· < b) [] new := by simpa [instsL] using hk
    match old with
    | none => rw [optInst_none]; simp only [Inst.Kept]; exact ⟨hnk, hk'⟩
    | some (.text t) => rw [optInst_text]; simp only [Inst.Kept]; exact ⟨hnk, hk'⟩
    | some (.elem p sh ts kk) => rw [optInst_elem]; simp only [Inst.Kept]; exact ⟨hnk, hk'⟩
    | some (.comp p i oc e os) =>
      rw [optInst_comp]
      simp only [Inst.Kept, if_neg (hne _ _ _ _ _ rfl)]
      exact ⟨hnk, hk'⟩

/-- The children of an element state. -/
def elemKids : Option Node → List Node
  | some (.elem _ _ _ oks) => oks.getD []
  | _ => []

theorem prepareModel_kids {old i} {s s1 : St U} {tag ks} (h : prepareModel old i s = (s1, .ok (tag, ks))) :
    ks = elemKids old := by
  unfold prepareModel at h
  split at h
  · split at h <;> simp at h
    rw [h.2.2]; rfl
  · split at h
    · simp at h
    · split at h <;> simp at h
      rw [← h.2.2]; rfl
  · rename_i o ho
    split at h
    · split at h <;> simp at h
      rw [h.2.2]
      match o, ho with
      | .text _, _ => rfl
      | .comp .., _ => rfl
      | .elem p sh ts ks, ho => exact absurd rfl (ho p sh ts ks)
    · simp at h

theorem kept_elem {b : Nat} {old i} {s s1 : St U} {tag ks} (hp : prepareModel old i s = (s1, .ok (tag, ks)))
    {k : Option Key} {new : List Inst} (hk : keptL (· < b) (instsL ks) new) :
    (Inst.elem k new).Kept (· < b) (optInst old) := by
  have := prepareModel_kids hp
  match old with
  | none => rw [optInst_none]; simp only [Inst.Kept]; simpa [this, elemKids, instsL] using hk
  | some (.text t) => rw [optInst_text]; simp only [Inst.Kept]; simpa [this, elemKids, instsL] using hk
  | some (.elem p sh ts kk) => rw [optInst_elem]; simp only [Inst.Kept]; simpa [this, elemKids] using hk
  | some (.comp p i oc e os) => rw [optInst_comp]; simp only [Inst.Kept]; simpa [this, elemKids, instsL] using hk

theorem run_kept {call} {s s' : St U} {r} (h : Run call s s' r) (b : Nat) (hb : b ≤ s.nextId) (ho : deepL call.old) (hi : InfoPre call) :
    KeptCall b call r := by
  induction h with
  | compUnm hp => trivial
  | @compRaise top old pos c s s1 id ks s2 e hp hbd =>
    intro x hx
    simp [instsL, Node.insts] at hx
    subst hx
    exact kept_comp hp hb (by simp [keptL])
  | @compOk top old pos c s s1 id ks s2 raw s3 kids hp hbd hk ih =>
    have h1 := prepareComp_next hp
    have h2 := runBody_next hbd
    have hd : deepL ks := by
      rcases (prepareComp_shape hp).2 with rfl | ⟨p, oc, e, rfl, _⟩
      · simp
      · simp [Call.old, deep_comp] at ho; exact ho.2.2
    have h3 := ih (by simp [enterComp] at h2; omega) hd trivial
    intro x hx
    simp [instsL, Node.insts] at hx
    subst hx
    exact kept_comp hp hb h3
  | @compErr top old pos c s s1 id ks s2 raw s3 e lost hp hbd hk ih =>
    intro x hx
    simp [instsL, Node.insts] at hx
    subst hx
    exact kept_comp hp hb (by simp [keptL])
  | modelPrep hp => trivial
  | @modelOk top old pos i cs s s1 tag ks s2 kids hp hk ih =>
    have h1 := prepareModel_next hp
    have hd : deepL ks := by
      rcases (prepareModel_ok hp).2.2 with rfl | ⟨p, sh, ts, oks, rfl, rfl⟩
      · simp
      · simp [Call.old, deep_elem] at ho; exact ho.2.2
    have h3 := ih (by simp; omega) hd trivial
    intro x hx
    simp only [instsL, insts_elem, List.append_nil, List.mem_singleton] at hx
    subst hx
    refine kept_elem hp ?_
    split
    · simp [instsL, keptL]
    · exact h3
  | modelErr hp _ ih => trivial
  | kidsDup hd => trivial
  | kidsUnm hd hu => trivial
  | @kidsLoop top old path kpath raws s s1 s2 r hd hu hl ih =>
    have hs := unmountAll_spec' hu
    have hdk : deepL (keptKids old (childrenInfo 0 raws)) := deepL_sub (fun n hn => (List.mem_filter.1 hn).1) ho
    have hnd : ((childrenInfo 0 raws).map (·.2)).Nodup := by simpa [hasDupKeys] using hd
    have h1 := ih (by rw [hs.nextId]; exact hb) hdk hnd
    have hsh := (run_shape hl hdk).1
    cases r with
    | ok ns =>
      simp only [KeptCall, Shape] at h1 hsh ⊢
      refine keptL_lookup (keys := (childrenInfo 0 raws).map (·.2)) ?_ ?_ h1
      · intro k hk
        apply lookup_filter
        intro n hn ht hke
        obtain ⟨i, hi1, rfl⟩ := List.mem_map.1 hk
        simp only [ht, Bool.not_false, Bool.true_and, List.any_eq_true, decide_eq_true_eq]
        exact ⟨i, hi1, hke⟩
      · intro n hn ht
        have hkn : ∃ k, n.key? = some k := by
          have hpos : ∀ (idx : Nat) (l : List Node), PosFrom path kpath idx l → ∀ n ∈ l, n.isText = false → ∃ k, n.key? = some k := by
            intro idx l
            induction l generalizing idx with
            | nil => intro _ n hn; simp at hn
            | cons m ms ihm =>
              intro hp n hn ht
              simp only [PosFrom] at hp
              simp only [List.mem_cons] at hn
              rcases hn with rfl | hn
              · obtain ⟨key, hkk⟩ := hp.1 ht
                exact ⟨key, by rw [Node.key?_eq n ht, hkk]; rfl⟩
              · exact ihm _ hp.2 n hn ht
          exact hpos 0 ns hsh.1 n hn ht
        obtain ⟨k, hke⟩ := hkn
        exact ⟨k, hsh.2.subset (List.mem_filterMap.2 ⟨n, hn, hke⟩), hke⟩
    | err _ _ => trivial
    | diverge => trivial
  | loopNil => simp [KeptCall, instsL, keptL]
  | loopFirst _ ih => trivial
  | loopRest _ _ _ _ => trivial
  | @loopOk top old path kpath idx raw key infos s s1 new s2 news hc hl ih1 ih2 =>
    have hlk : deepL (lookupKid old key).toList := by
      refine deepL_sub (fun n hn => ?_) ho
      simp at hn; exact lookupKid_mem hn
    have hot : deepL (othersOf old key) := deepL_sub (fun n hn => (List.mem_filter.1 hn).1) ho
    have hnd : key ∉ infos.map (·.2) ∧ (infos.map (·.2)).Nodup := by simpa [InfoPre] using hi
    have h1 := ih1 hb hlk trivial
    have hn1 := run_next hc
    have h2 := ih2 (by omega) hot hnd.2
    obtain ⟨n, rfl, hpos⟩ := (run_shape hc hlk).1
    have hsh := (run_shape hl hot).1
    simp only [KeptCall, Shape] at h1 h2 hsh ⊢
    simp only [List.singleton_append, instsL, keptL_append]
    constructor
    · rw [keptL_iff]
      intro x hx
      have ht : n.isText = false := by
        cases hcx : n.isText with
        | false => rfl
        | true => have := (insts_shape n).1; rw [hcx] at this; simp at this; rw [this] at hx; simp at hx
      have hkey : n.key? = some key := by rw [Node.key?_eq n ht, hpos ht]; rfl
      rw [insts_key n x hx, hkey, find_insts]
      exact h1 x (by simp [instsL, hx])
    · refine keptL_lookup (keys := infos.map (·.2)) ?_ ?_ h2
      · intro k hk
        apply lookup_filter
        intro m hm ht hke
        have : k ≠ key := by rintro rfl; exact hnd.1 hk
        simp [hke, this]
      · intro m hm ht
        have hpos : ∀ (idx : Nat) (l : List Node), PosFrom path kpath idx l → ∀ n ∈ l, n.isText = false → ∃ k, n.key? = some k := by
          intro idx l
          induction l generalizing idx with
          | nil => intro _ n hn; simp at hn
          | cons m ms ihm =>
            intro hp n hn ht
            simp only [PosFrom] at hp
            simp only [List.mem_cons] at hn
            rcases hn with rfl | hn
            · obtain ⟨key, hkk⟩ := hp.1 ht
              exact ⟨key, by rw [Node.key?_eq n ht, hkk]; rfl⟩
            · exact ihm _ hp.2 n hn ht
        obtain ⟨k, hke⟩ := hpos _ news hsh.1 m hm ht
        exact ⟨k, hsh.2.subset (List.mem_filterMap.2 ⟨m, hm, hke⟩), hke⟩
  | @childElem top old pos i cs s s1 r hm ih =>
    have := ih hb ho trivial
    cases r <;> first | exact this | trivial
  | @childComp top old pos c s s1 r hm ih =>
    have := ih hb ho trivial
    cases r <;> first | exact this | trivial
  | childText => simp [KeptCall, instsL, Node.insts]
  | childTextOld hu => simp [KeptCall, instsL, Node.insts]
  | childTextErr hu => trivial
  | childNone => trivial

/-! ### The rest of the tree -/

theorem posFrom_key {path kpath} : ∀ {idx : Nat} {l : List Node}, PosFrom path kpath idx l → ∀ n ∈ l, n.isText = false → ∃ k, n.key? = some k
  | _, [], _, n, hn, _ => by simp at hn
  | _, m :: ms, hp, n, hn, ht => by
    simp only [PosFrom] at hp
    simp only [List.mem_cons] at hn
    rcases hn with rfl | hn
    · obtain ⟨key, hkk⟩ := hp.1 ht
      exact ⟨key, by rw [Node.key?_eq n ht, hkk]; rfl⟩
    · exact posFrom_key hp.2 n hn ht

theorem lookup_self {full : List Node} (hn : (keysL full).Nodup) {n : Node} (hm : n ∈ full) (ht : n.isText = false) {k : Key}
    (hk : n.key? = some k) : lookupKid full k = some n := by
  induction full with
  | nil => simp at hm
  | cons m ms ih =>
    simp only [lookupKid, List.find?_cons]
    simp only [List.mem_cons] at hm
    rcases hm with rfl | hm
    · simp [ht, hk]
    · have hkm : m.key? ≠ some k := by
        intro hmk
        have : keysL (m :: ms) = k :: keysL ms := by simp [keysL, hmk]
        rw [this, List.nodup_cons] at hn
        exact hn.1 (List.mem_filterMap.2 ⟨n, hm, hk⟩)
      have : (keysL ms).Nodup := by
        refine hn.sublist ?_
        unfold keysL
        exact (List.sublist_cons_self _ _).filterMap _
      have := ih this hm
      simp only [lookupKid] at this
      simpa [hkm] using this

/-- Siblings replaced one by one. -/
theorem keptL_map {known : Nat → Prop} {f : Node → Node} {ks : List Node} {path kpath idx} (hn : (keysL ks).Nodup)
    (hp : PosFrom path kpath idx ks) (hf : ∀ n ∈ ks, (f n).pos = n.pos ∧ (f n).isText = n.isText)
    (hk : ∀ n ∈ ks, ∀ x ∈ (f n).insts, x.Kept known (optInst (some n))) :
    keptL known (instsL ks) (instsL (ks.map f)) := by
  rw [keptL_iff]
  intro x hx
  obtain ⟨n', hm', hxn⟩ := mem_instsL.1 hx
  obtain ⟨n, hm, rfl⟩ := List.mem_map.1 hm'
  have ht' : (f n).isText = false := by
    cases hcx : (f n).isText with
    | false => rfl
    | true => have := (insts_shape (f n)).1; rw [hcx] at this; simp at this; rw [this] at hxn; simp at hxn
  have ht : n.isText = false := by rw [← (hf n hm).2]; exact ht'
  obtain ⟨k, hke⟩ := posFrom_key hp n hm ht
  have : (f n).key? = some k := by rw [Node.key?_eq _ ht', (hf n hm).1, ← Node.key?_eq n ht, hke]
  rw [insts_key _ x hxn, this, find_insts, lookup_self hn hm ht hke]
  exact hk n hm x hxn

mutual
theorem kept_refl (known : Nat → Prop) (n : Node) (hd : n.deep) : ∀ x ∈ n.insts, x.Kept known (optInst (some n)) := by
  match n with
  | .text _ => simp [Node.insts]
  | .elem p sh ts none =>
    intro x hx
    rw [insts_elem] at hx
    simp at hx; subst hx
    simp [Inst.Kept, instsL, keptL]
  | .elem p sh ts (some ks) =>
    intro x hx
    rw [insts_elem] at hx
    simp at hx; subst hx
    rw [optInst_elem]
    simp only [Inst.Kept, Option.getD_some]
    simp only [Node.deep] at hd
    have := keptL_map (known := known) (f := id) hd.1 hd.2.1 (fun n hn => ⟨rfl, rfl⟩) (keptL_refl known ks hd.2.2)
    simpa using this
  | .comp p id' c e ks =>
    intro x hx
    simp [Node.insts] at hx; subst hx
    rw [optInst_comp]
    simp only [Inst.Kept, if_true, true_and]
    simp only [Node.deep] at hd
    have := keptL_map (known := known) (f := id) hd.1 hd.2.1 (fun n hn => ⟨rfl, rfl⟩) (keptL_refl known ks hd.2.2)
    simpa using this
theorem keptL_refl (known : Nat → Prop) (ks : List Node) (hd : deepL ks) : ∀ n ∈ ks, ∀ x ∈ n.insts, x.Kept known (optInst (some n)) := by
  match ks with
  | [] => simp
  | k :: ks =>
    simp only [deepL_cons] at hd
    have h1 := kept_refl known k hd.1
    have h2 := keptL_refl known ks hd.2
    intro n hn
    rcases List.mem_cons.1 hn with rfl | hn
    · exact h1
    · exact h2 n hn
end

theorem mem_idsL_of {ns : List Node} {m : Node} {i : Nat} (hm : m ∈ ns) (hi : i ∈ m.ids) : i ∈ idsL ns := by
  induction ns with
  | nil => simp at hm
  | cons a as ih =>
    simp only [List.mem_cons] at hm
    rcases hm with rfl | hm
    · simp [hi]
    · simp [ih hm]

mutual
theorem replaceComp_kept (known : Nat → Prop) (id : Nat) (new n old : Node) (hn : n.ids.Nodup) (h : findComp id n = some old)
    (hnew : new.pos = old.pos ∧ new.isText = false) (hd : n.deep)
    (hk : ∀ x ∈ new.insts, x.Kept known (optInst (some old))) :
    ∀ x ∈ (replaceComp id new n).insts, x.Kept known (optInst (some n)) := by
  match n with
  | .text _ => simp [findComp] at h
  | .elem _ _ _ none => simp [findComp] at h
  | .elem p _ _ (some ks) =>
    simp only [findComp] at h
    simp only [Node.deep] at hd
    have hn' : (idsL ks).Nodup := by simpa [Node.ids] using hn
    have hp := replaceCompL_pos hn' h hnew
    intro x hx
    rw [replaceComp, insts_elem] at hx
    simp at hx; subst hx
    rw [optInst_elem]
    simp only [Inst.Kept, Option.getD_some]
    rw [replaceCompL_map]
    exact keptL_map hd.1 hd.2.1 hp (replaceCompL_kept known id new ks old hn' h hnew hd.2.2 hk)
  | .comp p i c e ks =>
    simp only [findComp] at h
    simp only [replaceComp]
    split at h
    · rename_i hi
      cases h
      rw [if_pos hi]; exact hk
    · rename_i hi
      rw [if_neg hi]
      simp at hn
      simp only [Node.deep] at hd
      have hp := replaceCompL_pos hn.2 h hnew
      intro x hx
      simp [Node.insts] at hx; subst hx
      rw [optInst_comp]
      simp only [Inst.Kept, if_true, true_and]
      rw [replaceCompL_map]
      exact keptL_map hd.1 hd.2.1 hp (replaceCompL_kept known id new ks old hn.2 h hnew hd.2.2 hk)
theorem replaceCompL_kept (known : Nat → Prop) (id : Nat) (new : Node) (ns : List Node) (old : Node) (hn : (idsL ns).Nodup)
    (h : findCompL id ns = some old) (hnew : new.pos = old.pos ∧ new.isText = false) (hd : deepL ns)
    (hk : ∀ x ∈ new.insts, x.Kept known (optInst (some old))) :
    ∀ n ∈ ns, ∀ x ∈ (replaceComp id new n).insts, x.Kept known (optInst (some n)) := by
  match ns with
  | [] => simp
  | n :: ns =>
    simp only [findCompL] at h
    simp only [idsL_cons, List.nodup_append] at hn
    simp only [deepL_cons] at hd
    cases hf : findComp id n with
    | some o =>
      rw [hf] at h; simp at h; subst h
      have hid := (findComp_mem id n o hf).1
      have h1 := replaceComp_kept known id new n o hn.1 hf hnew hd.1 hk
      intro m hm
      rcases List.mem_cons.1 hm with rfl | hm
      · exact h1
      · rw [replaceComp_id id new m (fun hh => hn.2.2 id hid id (mem_idsL_of hm hh) rfl)]
        exact keptL_refl known ns hd.2 m hm
    | none =>
      rw [hf] at h; simp at h
      have hid := (findCompL_mem id ns old h).1
      have h2 := replaceCompL_kept known id new ns old hn.2.1 h hnew hd.2 hk
      intro m hm
      rcases List.mem_cons.1 hm with rfl | hm
      · rw [replaceComp_id id new m (fun hh => hn.2.2 id hh id hid rfl)]
        exact kept_refl known m hd.1
      · exact h2 m hm
end

theorem kept_render {root : Comp} {l : Layout U} (hl : LInv root l) {id : Nat} {old new : Node} {fuel s'}
    (hf : findComp id l.tree = some old) (hr : renderAt fuel old l.st = some (s', new)) :
    ∀ x ∈ (replaceComp id new l.tree).insts, x.Kept (· < l.st.nextId) (optInst (some l.tree)) := by
  obtain ⟨p, id', c, e, ks, e', ks', s1, rfl, rfl, rfl, hrun⟩ := renderAt_run hr
  have hnt : l.tree.ids.Nodup := (List.nodup_append.1 hl.nodup).1
  have hd : deepL [Node.comp p id' c e ks] := by
    simp only [deepL_cons, deepL_nil, and_true]; exact findComp_deep id l.tree _ hf hl.deep
  have hk := run_kept hrun l.st.nextId (Nat.le_refl _) hd trivial
  refine replaceComp_kept _ id _ l.tree _ hnt hf ⟨rfl, rfl⟩ hl.deep ?_
  intro x hx
  exact hk x (by simpa [instsL] using hx)

end Verif.Layout
