import Verif.Layout.Keys
import Verif.Layout.Count
/-! # The table of event handlers (helper lemmas) -/
namespace Verif.Layout
variable {U : User}

/-- Targets of the displayed handlers. -/
def tnames (ns : List Node) : List String := (tgtsL ns).map (·.1)

@[simp] theorem tnames_nil : tnames [] = [] := rfl
theorem tnames_cons (n ns) : tnames (n :: ns) = tnames [n] ++ tnames ns := by
  simp [tnames, tgtsL]
theorem tgtsL_append (a b) : tgtsL (a ++ b) = tgtsL a ++ tgtsL b := by
  induction a with
  | nil => simp [tgtsL]
  | cons n ns ih => simp [tgtsL, ih]
theorem tnames_append (a b) : tnames (a ++ b) = tnames a ++ tnames b := by simp [tnames, tgtsL_append]
@[simp] theorem tnames_text (t) : tnames [.text t] = [] := by simp [tnames, tgtsL, Node.tgts]
@[simp] theorem tnames_comp (p id c e ks) : tnames [.comp p id c e ks] = tnames ks := by
  simp [tnames, tgtsL, Node.tgts]
theorem tnames_elem (p sh ts ks) : tnames [.elem p sh ts ks] = ts.map (·.2.1) ++ tnames (ks.getD []) := by
  simp only [tnames, tgtsL, tgts_elem, List.append_nil, List.map_append, List.map_map]
  rfl
theorem tgtsL_mem {ns p} : p ∈ tgtsL ns ↔ ∃ n ∈ ns, p ∈ n.tgts := by
  induction ns with
  | nil => simp [tgtsL]
  | cons n ns ih => simp [tgtsL, ih]
theorem tnames_mem {ns t} : t ∈ tnames ns ↔ ∃ n ∈ ns, t ∈ tnames [n] := by
  induction ns with
  | nil => simp
  | cons n ns ih => rw [tnames_cons, List.mem_append, ih]; simp

mutual
/-- Every element was given the default targets of its plain key path. -/
def Node.canon : Node → Prop
  | .text _ => True
  | .elem p _ ts none => PlainL p.kpath ∧ (ts.map (·.1)).Nodup ∧ (∀ x ∈ ts, x.2.1 = autoTarget p.kpath x.1)
  | .elem p _ ts (some ks) => (PlainL p.kpath ∧ (ts.map (·.1)).Nodup ∧
      (∀ x ∈ ts, x.2.1 = autoTarget p.kpath x.1)) ∧ canonL ks
  | .comp p _ _ _ ks => PlainL p.kpath ∧ canonL ks
def canonL : List Node → Prop
  | [] => True
  | n :: ns => n.canon ∧ canonL ns
end

theorem canonL_iff (ns) : canonL ns ↔ ∀ n ∈ ns, n.canon := by
  induction ns with
  | nil => simp [canonL]
  | cons n ns ih => simp [canonL, ih]
theorem canonL_sub {a b : List Node} (h : ∀ n ∈ a, n ∈ b) (hb : canonL b) : canonL a := by
  rw [canonL_iff] at *; exact fun n hn => hb n (h n hn)
theorem canon_elem (p sh ts ks) : (Node.elem p sh ts ks).canon ↔
    (PlainL p.kpath ∧ (ts.map (·.1)).Nodup ∧ ∀ x ∈ ts, x.2.1 = autoTarget p.kpath x.1) ∧
      canonL (ks.getD []) := by
  cases ks <;> simp [Node.canon, canonL]
theorem Node.canon.kpath {n : Node} (h : n.canon) : PlainL n.pos.kpath := by
  cases n with
  | text => simp [Node.pos, PlainL]
  | elem p sh ts ks => rw [canon_elem] at h; exact h.1.1
  | comp p i c e ks => simp only [Node.canon] at h; exact h.1

/-- The states in `ns` are children, by key, of a state with key path `K`. -/
def AtKeys (K : List Key) (ns : List Node) : Prop :=
  ∀ n ∈ ns, n.isText = false → ∃ k, k.Plain ∧ n.key? = some k ∧ n.pos.kpath = K ++ [k]

theorem AtKeys.sub {K} {a b : List Node} (h : ∀ n ∈ a, n ∈ b) (hb : AtKeys K b) : AtKeys K a :=
  fun n hn => hb n (h n hn)

theorem PosFrom.atKeys {path K idx ns} (h : PosFrom path K idx ns) (hc : canonL ns) : AtKeys K ns := by
  induction ns generalizing idx with
  | nil => simp [AtKeys]
  | cons n ns ih =>
    simp only [PosFrom] at h
    simp only [canonL] at hc
    intro m hm hmt
    simp at hm
    rcases hm with rfl | hm
    · obtain ⟨k, hk⟩ := h.1 hmt
      refine ⟨k, ?_, ?_, ?_⟩
      · have := hc.1.kpath; rw [hk] at this; exact this k (by simp [kidPos])
      · rw [Node.key?_eq _ hmt, hk]; rfl
      · rw [hk]; rfl
    · exact ih h.2 hc.2 m hm hmt

theorem tnames_isText {n : Node} (h : n.isText = true) : tnames [n] = [] := by
  cases n <;> simp_all [Node.isText]

mutual
theorem node_scope (n : Node) (hd : n.deep) (hc : n.canon) : ∀ t ∈ tnames [n], Scope n.pos.kpath t := by
  match n with
  | .text t => simp
  | .elem p sh ts none =>
    rw [canon_elem] at hc
    intro t ht
    rw [tnames_elem] at ht
    simp only [Option.getD_none, tnames_nil, List.append_nil, List.mem_map] at ht
    obtain ⟨x, hx, rfl⟩ := ht
    rw [hc.1.2.2 x hx]; exact scope_self _ _
  | .elem p sh ts (some ks) =>
    rw [canon_elem] at hc
    intro t ht
    rw [tnames_elem] at ht
    simp only [Option.getD_some, List.mem_append, List.mem_map] at ht
    rcases ht with ⟨x, hx, rfl⟩ | ht
    · rw [hc.1.2.2 x hx]; exact scope_self _ _
    · simp only [Node.deep] at hd
      obtain ⟨k, _, hk, hs⟩ := list_scope ks hd.2.2 hc.2 p.kpath (hd.2.1.atKeys hc.2) t ht
      exact hs.up hk
  | .comp p id c e ks =>
    simp only [Node.canon] at hc
    intro t ht
    rw [tnames_comp] at ht
    simp only [Node.deep] at hd
    obtain ⟨k, _, hk, hs⟩ := list_scope ks hd.2.2 hc.2 p.kpath (hd.2.1.atKeys hc.2) t ht
    exact hs.up hk
theorem list_scope (ns : List Node) (hd : deepL ns) (hc : canonL ns) (K : List Key) (ha : AtKeys K ns) :
    ∀ t ∈ tnames ns, ∃ k ∈ keysL ns, k.Plain ∧ Scope (K ++ [k]) t := by
  match ns with
  | [] => simp
  | n :: ns =>
    simp only [canonL] at hc
    rw [deepL_cons] at hd
    intro t ht
    rw [tnames_cons, List.mem_append] at ht
    rcases ht with ht | ht
    · cases hT : n.isText with
      | true => rw [tnames_isText hT] at ht; simp at ht
      | false =>
        obtain ⟨k, h1, h2, h3⟩ := ha n (by simp) hT
        have := node_scope n hd.1 hc.1 t ht
        rw [h3] at this
        exact ⟨k, by simp [keysL, h2], h1, this⟩
    · obtain ⟨k, h1, h2, h3⟩ := list_scope ns hd.2 hc.2 K (ha.sub (by simp +contextual)) t ht
      refine ⟨k, ?_, h2, h3⟩
      simp only [keysL, List.filterMap_cons]
      split
      · exact h1
      · exact List.mem_cons_of_mem _ h1
end

mutual
theorem node_nodup (n : Node) (hd : n.deep) (hc : n.canon) : (tnames [n]).Nodup := by
  match n with
  | .text t => simp
  | .elem p sh ts none =>
    rw [canon_elem] at hc
    rw [tnames_elem]
    simp only [Option.getD_none, tnames_nil, List.append_nil]
    exact shell_nodup hc.1.1 hc.1.2.1 hc.1.2.2
  | .elem p sh ts (some ks) =>
    rw [canon_elem] at hc
    rw [tnames_elem]
    simp only [Node.deep] at hd
    simp only [Option.getD_some] at hc ⊢
    have ha := hd.2.1.atKeys hc.2
    rw [List.nodup_append]
    refine ⟨shell_nodup hc.1.1 hc.1.2.1 hc.1.2.2, list_nodup ks hd.2.2 hc.2 p.kpath hc.1.1 ha hd.1, ?_⟩
    rintro a h1 b h2 rfl
    rw [List.mem_map] at h1
    obtain ⟨x, hx, rfl⟩ := h1
    rw [hc.1.2.2 x hx] at h2
    obtain ⟨k, _, hk, hs⟩ := list_scope ks hd.2.2 hc.2 p.kpath ha _ h2
    exact scope_not_self hc.1.1 hk hs
  | .comp p id c e ks =>
    simp only [Node.canon] at hc
    rw [tnames_comp]
    simp only [Node.deep] at hd
    exact list_nodup ks hd.2.2 hc.2 p.kpath hc.1 (hd.2.1.atKeys hc.2) hd.1
theorem list_nodup (ns : List Node) (hd : deepL ns) (hc : canonL ns) (K : List Key) (hK : PlainL K)
    (ha : AtKeys K ns) (hk : (keysL ns).Nodup) : (tnames ns).Nodup := by
  match ns with
  | [] => simp
  | n :: ns =>
    simp only [canonL] at hc
    rw [deepL_cons] at hd
    have ha' : AtKeys K ns := ha.sub (by simp +contextual)
    rw [tnames_cons]
    have hk' : (keysL ns).Nodup := by
      simp only [keysL, List.filterMap_cons] at hk
      split at hk
      · exact hk
      · exact (List.nodup_cons.1 hk).2
    rw [List.nodup_append]
    refine ⟨node_nodup n hd.1 hc.1, list_nodup ns hd.2 hc.2 K hK ha' hk', ?_⟩
    rintro a h1 b h2 rfl
    cases hT : n.isText with
    | true => rw [tnames_isText hT] at h1; simp at h1
    | false =>
      obtain ⟨k, e1, e2, e3⟩ := ha n (by simp) hT
      have hs := node_scope n hd.1 hc.1 a h1
      rw [e3] at hs
      obtain ⟨k', f1, f2, f3⟩ := list_scope ns hd.2 hc.2 K ha' a h2
      have : k = k' := scope_disj hK e1 f2 hs f3
      subst this
      simp only [keysL, List.filterMap_cons, e2, List.nodup_cons] at hk
      exact hk.1 f1
theorem shell_nodup {K : List Key} {ts : List (String × String × Handler)} (hK : PlainL K)
    (hn : (ts.map (·.1)).Nodup) (ht : ∀ x ∈ ts, x.2.1 = autoTarget K x.1) : (ts.map (·.2.1)).Nodup := by
  induction ts with
  | nil => simp
  | cons x xs ih =>
    simp only [List.map_cons, List.nodup_cons] at hn ⊢
    refine ⟨?_, ih hn.2 (fun y hy => ht y (by simp [hy]))⟩
    intro h
    rw [List.mem_map] at h
    obtain ⟨y, hy, he⟩ := h
    rw [ht y (by simp [hy]), ht x (by simp)] at he
    exact hn.1 (by rw [← (autoTarget_inj hK hK he).2]; exact List.mem_map_of_mem hy)
end

/-- The displayed handlers are in the table. -/
def HOK (h : List (String × Handler)) (ns : List Node) : Prop := ∀ p ∈ tgtsL ns, dictGet h p.1 = some p.2

theorem HOK.present {h ns} (hk : HOK h ns) : ∀ t ∈ tnames ns, dictGet h t ≠ none := by
  intro t ht
  simp only [tnames, List.mem_map] at ht
  obtain ⟨p, hp, rfl⟩ := ht
  rw [hk p hp]; simp

theorem HOK.sub {h} {a b : List Node} (hs : ∀ n ∈ a, n ∈ b) (hk : HOK h b) : HOK h a := by
  intro p hp
  rw [tgtsL_mem] at hp
  obtain ⟨n, hn, hp⟩ := hp
  exact hk p (tgtsL_mem.2 ⟨n, hs n hn, hp⟩)

theorem HOK.append {h} {a b : List Node} (ha : HOK h a) (hb : HOK h b) : HOK h (a ++ b) := by
  intro p hp; rw [tgtsL_append, List.mem_append] at hp; exact hp.elim (ha p) (hb p)

theorem HOK.congr {h h'} {ns : List Node} (hk : HOK h ns) (he : ∀ t ∈ tnames ns, dictGet h' t = dictGet h t) :
    HOK h' ns := by
  intro p hp
  rw [he p.1 (by simp only [tnames]; exact List.mem_map_of_mem hp)]; exact hk p hp

theorem HOK.del {h h' ts} {ns : List Node} (hk : HOK h ns) (hd : Del h ts h') (hn : ∀ t ∈ tnames ns, t ∉ ts) :
    HOK h' ns := hk.congr (fun t ht => by rw [hd.get, if_neg (hn t ht)])

theorem Del.refl {h : List (String × Handler)} (hd : DictOK h) : Del h [] h := ⟨hd, by simp⟩

mutual
theorem unmountNode_hand (n : Node) (s : St U) (hd : n.deep) (hc : n.canon) (hn : (idsL [n]).Nodup)
    (hr : ∀ x ∈ idsL [n], x ∈ s.reg) (hreg : s.reg.Nodup) (hh : HOK s.handlers [n]) (ho : DictOK s.handlers) :
    ∃ s', unmountNode n s = (s', []) ∧ Del s.handlers (tnames [n]) s'.handlers := by
  match n with
  | .text t => exact ⟨s, rfl, by simpa using Del.refl ho⟩
  | .elem p sh ts none =>
    have hnd := node_nodup _ hd hc
    have hpr := hh.present
    rw [tnames_elem] at hnd hpr ⊢
    simp only [Option.getD_none, tnames_nil, List.append_nil] at hnd hpr ⊢
    obtain ⟨h', e1, e2⟩ := delTargets_del ts s.handlers ho hnd hpr
    exact ⟨{ s with handlers := h' }, by simp [unmountNode, e1], e2⟩
  | .elem p sh ts (some ks) =>
    have hnd := node_nodup _ hd hc
    have hpr := hh.present
    rw [tnames_elem] at hnd hpr ⊢
    simp only [Option.getD_some] at hnd hpr ⊢
    rw [List.nodup_append] at hnd
    obtain ⟨h', e1, e2⟩ := delTargets_del ts s.handlers ho hnd.1 (fun t ht => hpr t (by
      rw [List.mem_append]; exact .inl ht))
    rw [canon_elem] at hc
    simp only [Node.deep] at hd
    simp only [Option.getD_some] at hc
    have hh' : HOK s.handlers ks := fun q hq => hh q (by simp [tgtsL, Node.tgts, hq])
    obtain ⟨s', f1, f2⟩ := unmountKids_hand ks { s with handlers := h' } hd.2.2 hc.2 hnd.2.1
      (by simpa [ids_elem] using hn) (by simpa [ids_elem] using hr) hreg
      (hh'.del e2 (fun t ht h => hnd.2.2 t h t ht rfl)) e2.ok
    exact ⟨s', by simp [unmountNode, e1, f1], e2.comp f2 (by simp [List.mem_append])⟩
  | .comp p id c e ks =>
    simp only [Node.canon] at hc
    simp only [Node.deep] at hd
    rw [tnames_comp]
    have hnd := list_nodup ks hd.2.2 hc.2 p.kpath hc.1 (hd.2.1.atKeys hc.2) hd.1
    have hid : id ∈ s.reg := hr id (by simp)
    simp only [idsL_cons, ids_comp, idsL_nil, List.append_nil, List.nodup_cons] at hn
    obtain ⟨s', f1, f2⟩ := unmountKids_hand ks { s with
        reg := s.reg.erase id, world := U.unmount s.world id, log := .unmounted id :: s.log } hd.2.2 hc.2 hnd
      hn.2 (by
        intro x hx
        show x ∈ s.reg.erase id
        rw [hreg.mem_erase_iff]
        exact ⟨by rintro rfl; exact hn.1 hx, hr x (by simp [hx])⟩) (hreg.erase id)
      (fun q hq => hh q (by simp [tgtsL, Node.tgts, hq])) ho
    exact ⟨s', by simp [unmountNode, hid, f1], f2⟩
theorem unmountKids_hand (ks : List Node) (s : St U) (hd : deepL ks) (hc : canonL ks) (ht : (tnames ks).Nodup)
    (hn : (idsL ks).Nodup) (hr : ∀ x ∈ idsL ks, x ∈ s.reg) (hreg : s.reg.Nodup) (hh : HOK s.handlers ks)
    (ho : DictOK s.handlers) :
    ∃ s', unmountKids ks s = (s', []) ∧ Del s.handlers (tnames ks) s'.handlers := by
  match ks with
  | [] => exact ⟨s, rfl, by simpa using Del.refl ho⟩
  | k :: ks =>
    simp only [canonL] at hc
    rw [deepL_cons] at hd
    rw [tnames_cons, List.nodup_append] at ht
    simp only [idsL_cons, List.nodup_append] at hn
    obtain ⟨s1, e1, e2⟩ := unmountKids_hand ks s hd.2 hc.2 ht.2.1 hn.2.1
      (fun x hx => hr x (by simp [hx])) hreg (hh.sub (by simp +contextual)) ho
    have hsp := unmountKids_spec ks s
    rw [e1] at hsp
    obtain ⟨s2, f1, f2⟩ := unmountNode_hand k s1 hd.1 hc.1 (by simpa using hn.1)
      (by
        intro x hx
        have hx : x ∈ k.ids := by simpa using hx
        rw [hsp.reg hreg hn.2.1]
        exact ⟨hr x (by simp [hx]), .inl (fun h => hn.2.2 x hx x h rfl)⟩) (hsp.nodup hreg)
      ((hh.sub (a := [k]) (by simp +contextual)).del e2 (fun t h1 h2 => ht.2.2 t h1 t h2 rfl)) e2.ok
    refine ⟨s2, by simp [unmountKids, e1, f1], e2.comp f2 ?_⟩
    intro t; rw [tnames_cons, List.mem_append]; exact Or.comm
end

theorem unmountAll_hand (ks : List Node) (s : St U) (hd : deepL ks) (hc : canonL ks) (ht : (tnames ks).Nodup)
    (hn : (idsL ks).Nodup) (hr : ∀ x ∈ idsL ks, x ∈ s.reg) (hreg : s.reg.Nodup) (hh : HOK s.handlers ks)
    (ho : DictOK s.handlers) :
    ∃ s', unmountAll ks s = (s', []) ∧ Del s.handlers (tnames ks) s'.handlers := by
  induction ks generalizing s with
  | nil => exact ⟨s, rfl, by simpa using Del.refl ho⟩
  | cons k ks ih =>
    simp only [canonL] at hc
    rw [deepL_cons] at hd
    rw [tnames_cons, List.nodup_append] at ht
    simp only [idsL_cons, List.nodup_append] at hn
    obtain ⟨s1, e1, e2⟩ := unmountNode_hand k s hd.1 hc.1 (by simpa using hn.1)
      (fun x hx => hr x (by simp at hx; simp [hx])) hreg (hh.sub (by simp +contextual)) ho
    have hsp := unmountNode_spec k s
    rw [e1] at hsp
    obtain ⟨s2, f1, f2⟩ := ih s1 hd.2 hc.2 ht.2.1 hn.2.1
      (by
        intro x hx
        rw [hsp.reg hreg (by simpa using hn.1)]
        refine ⟨hr x (by simp [hx]), .inl (fun h => ?_)⟩
        have h : x ∈ k.ids := by simpa using h
        exact hn.2.2 x h x hx rfl) (hsp.nodup hreg)
      ((hh.sub (a := ks) (by simp +contextual)).del e2 (fun t h1 h2 => ht.2.2 t h2 t h1 rfl)) e2.ok
    refine ⟨s2, by simp [unmountAll, e1, f1], e2.comp f2 ?_⟩
    intro t; rw [tnames_cons, List.mem_append]

/-! ### Children infos -/

theorem childrenInfo_mem {raws : List Raw} {idx : Nat} {p : Raw × Key} (h : p ∈ childrenInfo idx raws) :
    p.1 ∈ raws ∧ p.1.isNone = false ∧ ∃ j, p.2 = p.1.effKey j := by
  have h1 : (p.1, some p.2) ∈ (childrenInfo idx raws).map (fun p => (p.1, some p.2)) :=
    List.mem_map_of_mem h
  rw [childrenInfo_zip, List.mem_map] at h1
  obtain ⟨⟨r, j⟩, hq, he⟩ := h1
  simp only [Prod.mk.injEq, Option.some.injEq] at he
  rw [List.mem_filter] at hq
  have hm := List.mem_zipIdx hq.1
  refine ⟨?_, ?_, j, ?_⟩
  · rw [← he.1]; rw [hm.2.2]; exact List.getElem_mem _
  · rw [← he.1]; simpa using hq.2
  · rw [← he.2, he.1]

theorem childrenInfo_all {raws : List Raw} {r : Raw} (h : r ∈ raws) (hn : r.isNone = false) (idx : Nat) :
    ∃ p ∈ childrenInfo idx raws, p.1 = r := by
  induction raws generalizing idx with
  | nil => simp at h
  | cons x xs ih =>
    simp at h
    rcases h with rfl | h
    · cases r <;> simp_all [childrenInfo, Raw.isNone]
    · obtain ⟨p, hp, he⟩ := ih h (idx + 1)
      refine ⟨p, ?_, he⟩
      cases x <;> simp [childrenInfo, hp]

theorem plainL_iff (rs) : plainL rs ↔ ∀ r ∈ rs, r.Plain := by
  induction rs with
  | nil => simp [plainL]
  | cons r rs ih => simp [plainL, ih]
theorem malformedL_iff (rs) : malformedL rs ↔ ∃ r ∈ rs, r.Malformed := by
  induction rs with
  | nil => simp [malformedL]
  | cons r rs ih => simp [malformedL, ih]

theorem Raw.Plain.key {r : Raw} (h : r.Plain) : ∀ k, r.explicitKey = some k → k.Plain := by
  cases r with
  | none => simp [Raw.explicitKey]
  | text => simp [Raw.explicitKey]
  | comp c => simpa [Raw.Plain, Raw.explicitKey] using h
  | elem i cs => simp only [Raw.Plain] at h; exact h.1

theorem effKey_plain {r : Raw} (h : r.Plain) (j : Nat) : (r.effKey j).Plain := by
  unfold Raw.effKey
  cases he : r.explicitKey with
  | none => simp [Key.Plain]
  | some k => exact h.key k he

theorem childrenInfo_plain {raws : List Raw} (h : plainL raws) (idx : Nat) :
    ∀ p ∈ childrenInfo idx raws, p.1.Plain ∧ p.2.Plain ∧ p.1.isNone = false := by
  intro p hp
  obtain ⟨h1, h2, j, h3⟩ := childrenInfo_mem hp
  have := (plainL_iff raws).1 h p.1 h1
  exact ⟨this, by rw [h3]; exact effKey_plain this j, h2⟩

theorem childrenInfo_malformed (raws : List Raw) (idx : Nat) :
    malformedL raws ↔ ∃ p ∈ childrenInfo idx raws, p.1.Malformed := by
  rw [malformedL_iff]
  constructor
  · rintro ⟨r, hr, hm⟩
    have hn : r.isNone = false := by cases r <;> simp_all [Raw.Malformed, Raw.isNone]
    obtain ⟨p, hp, rfl⟩ := childrenInfo_all hr hn idx
    exact ⟨p, hp, hm⟩
  · rintro ⟨p, hp, hm⟩
    exact ⟨p.1, (childrenInfo_mem hp).1, hm⟩

theorem nodup_map_some {l : List Key} : (l.map some).Nodup ↔ l.Nodup := by
  induction l with
  | nil => simp
  | cons a l ih => simp only [List.map_cons, List.nodup_cons, ih]; simp

theorem hasDup_iff (raws : List Raw) :
    hasDupKeys (childrenInfo 0 raws) = true ↔ ¬ ((keyed raws).map (·.2)).Nodup := by
  have : (keyed raws).map (·.2) = ((childrenInfo 0 raws).map (·.2)).map some := by
    rw [keyed_eq, List.map_map, List.map_map]; rfl
  rw [this, nodup_map_some]
  simp [hasDupKeys]

/-! ### The handler table across a call -/

/-- Targets a call may touch. -/
def Call.scope : Call → String → Prop
  | .comp _ _ pos _ => Scope pos.kpath
  | .model _ _ pos _ _ => Scope pos.kpath
  | .child _ _ pos _ => Scope pos.kpath
  | .kids _ _ _ K _ => fun t => ∃ k, k.Plain ∧ Scope (K ++ [k]) t
  | .loop _ _ _ K _ infos => fun t => ∃ k ∈ infos.map (·.2), Scope (K ++ [k]) t

def Call.plain : Call → Prop
  | .comp _ _ pos _ => PlainL pos.kpath
  | .model _ _ pos i cs => PlainL pos.kpath ∧ (Raw.elem i cs).Plain
  | .child _ _ pos raw => PlainL pos.kpath ∧ raw.Plain ∧ raw.isNone = false
  | .kids _ _ _ K raws => PlainL K ∧ plainL raws
  | .loop _ _ _ K _ infos => PlainL K ∧ (∀ p ∈ infos, p.1.Plain ∧ p.2.Plain ∧ p.1.isNone = false) ∧
      (infos.map (·.2)).Nodup

def Call.placed : Call → Prop
  | .comp _ old pos _ => ∀ o ∈ old.toList, o.pos.kpath = pos.kpath
  | .model _ old pos _ _ => ∀ o ∈ old.toList, o.pos.kpath = pos.kpath
  | .child _ old pos _ => ∀ o ∈ old.toList, o.pos.kpath = pos.kpath
  | .kids _ old _ K _ => AtKeys K old
  | .loop _ old _ K _ _ => AtKeys K old

/-- What the call renders cannot be displayed. -/
def Call.bad : Call → Prop
  | .comp _ _ _ _ => False
  | .model _ _ _ i cs => (Raw.elem i cs).Malformed
  | .child _ _ _ raw => raw.Malformed
  | .kids _ _ _ _ raws => ¬ ((keyed raws).map (·.2)).Nodup ∨ malformedL raws
  | .loop _ _ _ _ _ infos => ∃ p ∈ infos, p.1.Malformed

/-- Nothing else in the table, in the given scope. -/
def Exact (P : String → Prop) (h : List (String × Handler)) (ns : List Node) : Prop :=
  ∀ t, P t → dictGet h t ≠ none → t ∈ tnames ns

/-- Every recorded outcome is caused by what the body did. -/
def LogOK (U : User) (log : List Ev) : Prop :=
  ∀ id c seen out, .rendered id c seen out ∈ log →
    match out with
    | .ok raw => Returned U id c seen raw ∧ ¬ raw.Malformed
    | .error e => RaisedIn U id c seen e ∨
        ∃ raw, Returned U id c seen raw ∧ raw.Malformed ∧ e = "ValueError"

structure HPre (call : Call) (s : St U) : Prop where
  plain : call.plain
  placed : call.placed
  canon : canonL call.old
  hok : HOK s.handlers call.old
  dict : DictOK s.handlers

structure HPost (call : Call) (s s' : St U) (r : Res) : Prop where
  clean : RunQ (fun raw e => raw.Malformed ∧ e = "ValueError") call s s' r
  dict : DictOK s'.handlers
  frame : ∀ t, ¬ call.scope t → dictGet s'.handlers t = dictGet s.handlers t
  ok : ∀ ns, r = .ok ns → HOK s'.handlers ns ∧ canonL ns ∧ ¬ call.bad
  err : ∀ e lost, r = .err e lost → call.bad ∧ e = "ValueError"
  exact : ¬ Failed s'.log → Exact call.scope s.handlers call.old →
    ∀ ns, r = .ok ns → Exact call.scope s'.handlers ns
  log : LogOK U s.log → LogOK U s'.log

theorem mem_completed {id c seen out} {t : List Ev} (h : Ev.rendered id c seen out ∈ t) :
    id ∈ completedOf t := by
  induction t with
  | nil => simp at h
  | cons e t ih =>
    simp at h
    rcases h with rfl | h
    · simp [completedOf]
    · have := ih h; cases e <;> simp [completedOf, this]

theorem LogOK.quiet {l t : List Ev} (h : LogOK U l) (hq : Quiet t) : LogOK U (t ++ l) := by
  intro id c seen out hm
  rw [List.mem_append] at hm
  rcases hm with hm | hm
  · have := mem_completed hm; rw [hq.completed] at this; simp at this
  · exact h id c seen out hm

theorem unmountOne_hand {o : Node} {s : St U} (hd : o.deep) (hc : o.canon) (hn : (idsL [o]).Nodup)
    (hr : ∀ x ∈ idsL [o], x ∈ s.reg) (hi : Inv s) (hh : HOK s.handlers [o]) (ho : DictOK s.handlers) :
    ∃ s', unmountAll [o] s = (s', []) ∧ Del s.handlers (tnames [o]) s'.handlers :=
  unmountAll_hand [o] s (by simpa using hd) (by simpa [canonL] using hc) (node_nodup o hd hc) hn hr hi.nodup hh ho

theorem Del.exact_nil {P : String → Prop} {h h' : List (String × Handler)} {ns : List Node}
    (hd : Del h (tnames ns) h') (he : Exact P h ns) : Exact P h' [] := by
  intro t hP hg
  rw [hd.get] at hg
  by_cases ht : t ∈ tnames ns
  · rw [if_pos ht] at hg; simp at hg
  · rw [if_neg ht] at hg; exact absurd (he t hP hg) ht

theorem prepareComp_hand {top old pos c} {s s1 : St U} {r} (h : prepareComp old c s = (s1, r))
    (hi : Inv s) (hn : (idsL old.toList).Nodup) (hr : ∀ x ∈ idsL old.toList, x ∈ s.reg)
    (hd : deepL old.toList) (hp : HPre (.comp top old pos c) s) :
    ∃ id ks, r = .ok (id, ks) ∧ DictOK s1.handlers ∧ HOK s1.handlers ks ∧ canonL ks ∧ AtKeys pos.kpath ks ∧
      (∀ t, ¬ Scope pos.kpath t → dictGet s1.handlers t = dictGet s.handlers t) ∧
      (Exact (Scope pos.kpath) s.handlers old.toList → Exact (Scope pos.kpath) s1.handlers ks) ∧
      (LogOK U s.log → LogOK U s1.log) := by
  have hlog : LogOK U s.log → LogOK U s1.log := by
    obtain ⟨⟨t, ht, hq⟩, _⟩ := prepareComp_quiet h
    intro hl; rw [ht]; exact hl.quiet hq
  have key : ∀ o, old = some o → ∃ s', unmountAll [o] s = (s', []) ∧ Del s.handlers (tnames [o]) s'.handlers ∧
      (∀ t, ¬ Scope pos.kpath t → dictGet s'.handlers t = dictGet s.handlers t) := by
    rintro o rfl
    have hd' : o.deep := by simpa using hd
    have hc' : o.canon := by simpa [canonL, Call.old] using hp.canon
    obtain ⟨s', h1, h2⟩ := unmountOne_hand hd' hc' hn hr hi hp.hok hp.dict
    refine ⟨s', h1, h2, fun t ht => ?_⟩
    rw [h2.get, if_neg]
    intro hm
    have := node_scope o hd' hc' t hm
    rw [hp.placed o (by simp)] at this
    exact ht this
  unfold prepareComp at h
  split at h
  · simp [allocate] at h
    obtain ⟨rfl, rfl⟩ := h
    refine ⟨_, _, rfl, hp.dict, by simp [HOK, tgtsL], by simp [canonL], by simp [AtKeys], fun _ _ => rfl, ?_, hlog⟩
    simp
  · rename_i p id oc e ks
    split at h
    · obtain ⟨s', h1, h2, h3⟩ := key _ rfl
      rw [h1] at h
      simp [allocate] at h
      obtain ⟨rfl, rfl⟩ := h
      refine ⟨_, _, rfl, h2.ok, by simp [HOK, tgtsL], by simp [canonL], by simp [AtKeys], h3, ?_, hlog⟩
      simpa using h2.exact_nil
    · simp at h
      obtain ⟨rfl, rfl⟩ := h
      have hc := hp.canon
      simp only [Call.old, Option.toList_some, canonL, Node.canon, and_true] at hc
      simp only [Option.toList_some, deepL_cons, deepL_nil, and_true, deep_comp] at hd
      have hpl := hp.placed (.comp p id oc e ks) (by simp)
      simp only [Node.pos] at hpl
      refine ⟨_, _, rfl, hp.dict, ?_, hc.2, ?_, fun _ _ => rfl, ?_, hlog⟩
      · intro q hq; exact hp.hok q (by simp [Call.old, tgtsL, Node.tgts, hq])
      · rw [← hpl]; exact hd.2.1.atKeys hc.2
      · intro he t ht hg; have := he t ht hg; simpa using this
  · rename_i o _
    obtain ⟨s', h1, h2, h3⟩ := key _ rfl
    rw [h1] at h
    simp [allocate] at h
    obtain ⟨rfl, rfl⟩ := h
    refine ⟨_, _, rfl, h2.ok, by simp [HOK, tgtsL], by simp [canonL], by simp [AtKeys], h3, ?_, hlog⟩
    simpa using h2.exact_nil

theorem prepareModel_hand {top old pos i cs} {s s1 : St U} {r} (h : prepareModel old i s = (s1, r))
    (hi : Inv s) (hn : (idsL old.toList).Nodup) (hr : ∀ x ∈ idsL old.toList, x ∈ s.reg)
    (hd : deepL old.toList) (hp : HPre (.model top old pos i cs) s) :
    DictOK s1.handlers ∧ (∀ t, ¬ Scope pos.kpath t → dictGet s1.handlers t = dictGet s.handlers t) ∧
      (LogOK U s.log → LogOK U s1.log) ∧
      ((∃ lost, r = .error ("ValueError", lost) ∧ i.tag = none) ∨
       (∃ tag ks, r = .ok (tag, ks) ∧ i.tag = some tag ∧ HOK s1.handlers ks ∧ canonL ks ∧ AtKeys pos.kpath ks ∧
        (Exact (Scope pos.kpath) s.handlers old.toList → ∀ t, Scope pos.kpath t → dictGet s1.handlers t ≠ none →
          t ∈ tnames ks ∨ ∃ p ∈ i.handlers, t = autoTarget pos.kpath p.1))) := by
  have hlog : LogOK U s.log → LogOK U s1.log := by
    obtain ⟨⟨t, ht, hq⟩, _⟩ := prepareModel_quiet h
    intro hl; rw [ht]; exact hl.quiet hq
  have key : ∀ o, old = some o → ∃ s', unmountAll [o] s = (s', []) ∧ Del s.handlers (tnames [o]) s'.handlers ∧
      (∀ t, ¬ Scope pos.kpath t → dictGet s'.handlers t = dictGet s.handlers t) := by
    rintro o rfl
    have hd' : o.deep := by simpa using hd
    have hc' : o.canon := by simpa [canonL, Call.old] using hp.canon
    obtain ⟨s', h1, h2⟩ := unmountOne_hand hd' hc' hn hr hi hp.hok hp.dict
    refine ⟨s', h1, h2, fun t ht => ?_⟩
    rw [h2.get, if_neg]
    intro hm
    have := node_scope o hd' hc' t hm
    rw [hp.placed o (by simp)] at this
    exact ht this
  unfold prepareModel at h
  split at h
  · split at h
    · rename_i ht
      simp at h; obtain ⟨rfl, rfl⟩ := h
      exact ⟨hp.dict, fun _ _ => rfl, hlog, .inl ⟨_, rfl, ht⟩⟩
    · rename_i tag ht
      simp at h; obtain ⟨rfl, rfl⟩ := h
      refine ⟨hp.dict, fun _ _ => rfl, hlog, .inr ⟨tag, _, rfl, ht, by simp [HOK, tgtsL], by simp [canonL],
        by simp [AtKeys], ?_⟩⟩
      intro he t h1 h2; exact .inl (he t h1 h2)
  · rename_i p sh ts oks
    split at h
    · rename_i ht
      simp at h; obtain ⟨rfl, rfl⟩ := h
      exact ⟨hp.dict, fun _ _ => rfl, hlog, .inl ⟨_, rfl, ht⟩⟩
    · rename_i tag ht
      have hd' : (Node.elem p sh ts oks).deep := by simpa using hd
      have hc' : (Node.elem p sh ts oks).canon := by simpa [canonL, Call.old] using hp.canon
      have hnd := node_nodup _ hd' hc'
      have hpr := hp.hok.present
      have hpl : p.kpath = pos.kpath := by
        have := hp.placed (.elem p sh ts oks) (by simp); simpa [Node.pos] using this
      rw [tnames_elem, List.nodup_append] at hnd
      simp only [Call.old, Option.toList_some] at hpr
      rw [tnames_elem] at hpr
      rw [canon_elem] at hc'
      rw [deep_elem] at hd'
      have hsub : ((droppedTargets ts i).map (·.2.1)).Sublist (ts.map (·.2.1)) :=
        (List.filter_sublist (l := ts)).map _
      obtain ⟨h', e1, e2⟩ := delTargets_del (droppedTargets ts i) s.handlers hp.dict (hnd.1.sublist hsub)
        (fun t ht => hpr t (by rw [List.mem_append]; exact .inl (hsub.subset ht)))
      rw [e1] at h
      simp at h; obtain ⟨rfl, rfl⟩ := h
      have hat := hd'.2.1.atKeys hc'.2
      refine ⟨e2.ok, ?_, hlog, .inr ⟨tag, _, rfl, ht, ?_, hc'.2, by rw [← hpl]; exact hat, ?_⟩⟩
      · intro t hns
        rw [e2.get, if_neg]
        intro hm
        have hm := hsub.subset hm
        rw [List.mem_map] at hm
        obtain ⟨x, hx, rfl⟩ := hm
        apply hns
        rw [hc'.1.2.2 x hx, hpl]; exact scope_self _ _
      · refine HOK.del (h := s.handlers) ?_ e2 ?_
        · intro q hq
          exact hp.hok q (by simp only [Call.old, Option.toList_some, tgtsL, tgts_elem, List.append_nil, List.mem_append]; exact .inr hq)
        · intro t h1 h2; exact hnd.2.2 t (hsub.subset h2) t h1 rfl
      · intro he t hsc hg
        simp only at hg
        rw [e2.get] at hg
        by_cases hm : t ∈ (droppedTargets ts i).map (·.2.1)
        · rw [if_pos hm] at hg; simp at hg
        · rw [if_neg hm] at hg
          have := he t hsc hg
          simp only [Option.toList_some] at this
          rw [tnames_elem, List.mem_append] at this
          rcases this with h1 | h1
          · right
            rw [List.mem_map] at h1
            obtain ⟨x, hx, rfl⟩ := h1
            have hnot : x ∉ droppedTargets ts i := fun h => hm (List.mem_map_of_mem h)
            simp only [droppedTargets, List.mem_filter, hx, true_and, Bool.not_eq_true', Bool.not_eq_false,
              List.any_eq_true, beq_iff_eq] at hnot
            obtain ⟨q, hq, hqe⟩ := hnot
            exact ⟨q, hq, by rw [hc'.1.2.2 x hx, hpl, hqe]⟩
          · exact .inl h1
  · obtain ⟨s', h1, h2, h3⟩ := key _ rfl
    rw [h1] at h
    simp only at h
    split at h
    · rename_i ht
      simp at h; obtain ⟨rfl, rfl⟩ := h
      exact ⟨h2.ok, h3, hlog, .inl ⟨_, rfl, ht⟩⟩
    · rename_i tag ht
      simp at h; obtain ⟨rfl, rfl⟩ := h
      refine ⟨h2.ok, h3, hlog, .inr ⟨tag, _, rfl, ht, by simp [HOK, tgtsL], by simp [canonL],
        by simp [AtKeys], ?_⟩⟩
      intro he t e1 e2; exact .inl (h2.exact_nil he t e1 e2)

theorem addHandlers_dict (K : List Key) (hs : List (String × Handler)) {h : List (String × Handler)}
    (hd : DictOK h) : DictOK (addHandlers K hs h) := by
  induction hs generalizing h with
  | nil => exact hd
  | cons p r ih => exact ih (dictSet_ok hd _ _)

theorem addHandlers_other (K : List Key) (hs : List (String × Handler)) (h : List (String × Handler))
    (hn : ∀ p ∈ hs, p.2.target = none) {t : String} (ht : ∀ p ∈ hs, t ≠ autoTarget K p.1) :
    dictGet (addHandlers K hs h) t = dictGet h t := by
  induction hs generalizing h with
  | nil => rfl
  | cons p r ih =>
    obtain ⟨ev, hd⟩ := p
    simp only [addHandlers]
    rw [ih _ (fun p hp => hn p (by simp [hp])) (fun p hp => ht p (by simp [hp])), dictSet_get]
    have h1 := hn (ev, hd) (by simp)
    have h2 := ht (ev, hd) (by simp)
    simp only at h1 h2
    rw [if_neg]
    simp only [targetOf, h1, Option.getD_none]
    exact fun h => h2 h.symm

theorem addHandlers_get (K : List Key) (hK : PlainL K) (hs : List (String × Handler)) (h : List (String × Handler))
    (hn : ∀ p ∈ hs, p.2.target = none) (hnd : (hs.map (·.1)).Nodup) {p} (hp : p ∈ hs) :
    dictGet (addHandlers K hs h) (autoTarget K p.1) = some p.2 := by
  induction hs generalizing h with
  | nil => simp at hp
  | cons q r ih =>
    obtain ⟨ev, hd⟩ := q
    simp only [addHandlers]
    simp only [List.map_cons, List.nodup_cons] at hnd
    simp only [List.mem_cons] at hp
    rcases hp with rfl | hp
    · rw [addHandlers_other K r _ (fun p hp => hn p (by simp [hp])), dictSet_get]
      · have h1 := hn (ev, hd) (by simp)
        simp only at h1
        simp [targetOf, h1]
      · intro q hq he
        have : ev = q.1 := (autoTarget_inj hK hK he).2
        exact hnd.1 (by rw [this]; exact List.mem_map_of_mem hq)
    · exact ih _ (fun p hp => hn p (by simp [hp])) hnd.2 hp

end Verif.Layout
