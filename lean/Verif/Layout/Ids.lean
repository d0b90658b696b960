import Verif.Layout.Run
import Verif.Layout.Spec
/-! # Which instances a render touches: unmounting, registry, frames (helper lemmas) -/
namespace Verif.Layout
variable {U : User}

mutual
/-- Instance ids of a state, in document order. -/
def Node.ids : Node → List Nat
  | .text _ => []
  | .elem _ _ _ none => []
  | .elem _ _ _ (some ks) => idsL ks
  | .comp _ id _ _ ks => id :: idsL ks
def idsL : List Node → List Nat
  | [] => []
  | n :: ns => n.ids ++ idsL ns
end

@[simp] theorem idsL_nil : idsL [] = [] := by simp [idsL]
@[simp] theorem idsL_cons (n ns) : idsL (n :: ns) = n.ids ++ idsL ns := by simp [idsL]
@[simp] theorem idsL_append (a b : List Node) : idsL (a ++ b) = idsL a ++ idsL b := by
  induction a with
  | nil => simp
  | cons n ns ih => simp [ih]
@[simp] theorem ids_text (t) : (Node.text t).ids = [] := by simp [Node.ids]
@[simp] theorem ids_comp (p id c e ks) : (Node.comp p id c e ks).ids = id :: idsL ks := by
  simp [Node.ids]
theorem ids_elem (p sh ts ks) : (Node.elem p sh ts ks).ids = idsL (ks.getD []) := by
  cases ks <;> simp [Node.ids]

theorem idsL_filter_sublist (p : Node → Bool) (ns : List Node) :
    (idsL (ns.filter p)).Sublist (idsL ns) := by
  induction ns with
  | nil => simp
  | cons n ns ih =>
    by_cases h : p n
    · simp only [List.filter_cons_of_pos h, idsL_cons]
      exact List.Sublist.append (List.Sublist.refl _) ih
    · simp only [List.filter_cons_of_neg h, idsL_cons]
      exact ih.trans (List.sublist_append_right _ _)

/-- Effect of unmounting the states `ns`, `rest` being those left over. -/
structure UnmSpec (ns : List Node) (s s' : St U) (rest : List Node) : Prop where
  nextId : s'.nextId = s.nextId
  ctx : s'.ctx = s.ctx
  seqs : s'.seqs = s.seqs
  exit : s'.exit = s.exit
  orphans : s'.orphans = s.orphans
  log : lastRender s'.log = lastRender s.log
  sub : (idsL rest).Sublist (idsL ns)
  nodup : s.reg.Nodup → s'.reg.Nodup
  reg : s.reg.Nodup → (idsL ns).Nodup →
    ∀ x, x ∈ s'.reg ↔ x ∈ s.reg ∧ (x ∉ idsL ns ∨ x ∈ idsL rest)

theorem UnmSpec.refl (ns : List Node) (s : St U) : UnmSpec ns s s ns :=
  ⟨rfl, rfl, rfl, rfl, rfl, rfl, .refl _, id, fun _ _ x => by
    by_cases h : x ∈ idsL ns <;> simp [h]⟩

mutual
theorem unmountNode_spec (n : Node) (s : St U) :
    UnmSpec [n] s (unmountNode n s).1 (unmountNode n s).2 := by
  match n with
  | .text t =>
    simp only [unmountNode]
    exact ⟨rfl, rfl, rfl, rfl, rfl, rfl, by simp, id, by simp⟩
  | .elem p sh ts none =>
    simp only [unmountNode]
    rcases delTargets s.handlers ts with ⟨h, _ | _⟩
    · exact ⟨rfl, rfl, rfl, rfl, rfl, rfl, .refl _, id, fun _ _ x =>
        ⟨fun h => ⟨h, (Classical.em _).symm⟩, And.left⟩⟩
    · exact ⟨rfl, rfl, rfl, rfl, rfl, rfl, by simp, id, by simp [Node.ids]⟩
  | .elem p sh ts (some ks) =>
    simp only [unmountNode]
    rcases delTargets s.handlers ts with ⟨h, _ | _⟩
    · exact ⟨rfl, rfl, rfl, rfl, rfl, rfl, .refl _, id, fun _ _ x =>
        ⟨fun h => ⟨h, (Classical.em _).symm⟩, And.left⟩⟩
    · have := unmountKids_spec ks { s with handlers := h }
      simp only
      exact ⟨this.nextId, this.ctx, this.seqs, this.exit, this.orphans, this.log,
        by simpa [Node.ids] using this.sub, this.nodup, fun hr hn x => by
          have := this.reg hr (by simpa [Node.ids] using hn) x
          simpa [Node.ids] using this⟩
  | .comp p id c e ks =>
    simp only [unmountNode]
    by_cases hid : id ∈ s.reg
    · rw [if_pos hid]
      have := unmountKids_spec ks { s with
        reg := s.reg.erase id
        world := U.unmount s.world id
        log := .unmounted id :: s.log }
      refine ⟨this.nextId, this.ctx, this.seqs, this.exit, this.orphans, ?_, ?_, ?_, ?_⟩
      · rw [this.log]; funext x; simp [lastRender]
      · simpa using this.sub.trans (List.sublist_cons_self _ _)
      · intro hr; exact this.nodup (hr.erase id)
      · intro hr hn x
        have hn' : (idsL ks).Nodup ∧ id ∉ idsL ks := by
          simp at hn; exact ⟨hn.2, hn.1⟩
        have h2 := this.reg (hr.erase id) hn'.1 x
        rw [h2]
        simp only [hr.mem_erase_iff, idsL_cons, ids_comp, idsL_nil, List.append_nil, List.mem_cons,
          not_or]
        constructor
        · rintro ⟨⟨h1, h3⟩, h4⟩; exact ⟨h3, h4.imp (fun h => ⟨h1, h⟩) (fun h => h)⟩
        · rintro ⟨h1, h3⟩
          refine ⟨⟨?_, h1⟩, h3.imp And.right (fun h => h)⟩
          rcases h3 with h3 | h3
          · exact h3.1
          · rintro rfl; exact hn'.2 (this.sub.subset h3)
    · rw [if_neg hid]; exact UnmSpec.refl _ _
theorem unmountKids_spec (ks : List Node) (s : St U) :
    UnmSpec ks s (unmountKids ks s).1 (unmountKids ks s).2 := by
  match ks with
  | [] => simp only [unmountKids]; exact UnmSpec.refl _ _
  | k :: ks =>
    have h1 := unmountKids_spec ks s
    simp only [unmountKids]
    rcases hu : unmountKids ks s with ⟨s1, _ | ⟨r, rest⟩⟩
    · rw [hu] at h1
      have h2 := unmountNode_spec k s1
      simp only at h1 ⊢
      refine ⟨h2.nextId.trans h1.nextId, h2.ctx.trans h1.ctx, h2.seqs.trans h1.seqs,
        h2.exit.trans h1.exit, h2.orphans.trans h1.orphans, h2.log.trans h1.log, ?_, ?_, ?_⟩
      · have := h2.sub
        simp only [idsL_cons, idsL_nil, List.append_nil] at this ⊢
        exact this.trans (List.sublist_append_left _ _)
      · intro hr; exact h2.nodup (h1.nodup hr)
      · intro hr hn x
        simp only [idsL_cons, List.nodup_append] at hn
        have e1 := h1.reg hr hn.2.1 x
        have e2 := h2.reg (h1.nodup hr) (by simpa using hn.1) x
        rw [e2, e1]
        simp only [idsL_cons, idsL_nil, List.append_nil, List.mem_append, List.not_mem_nil, or_false,
          not_or]
        constructor
        · rintro ⟨⟨h1, h3⟩, h4⟩; exact ⟨h1, h4.imp (fun h => ⟨h, h3⟩) (fun h => h)⟩
        · rintro ⟨h1, h3⟩
          refine ⟨⟨h1, ?_⟩, h3.imp And.left (fun h => h)⟩
          rcases h3 with h3 | h3
          · exact h3.2
          · intro hx
            have := h2.sub.subset h3
            simp at this
            exact hn.2.2 x this x hx rfl
    · rw [hu] at h1
      simp only at h1 ⊢
      refine ⟨h1.nextId, h1.ctx, h1.seqs, h1.exit, h1.orphans, h1.log, ?_, h1.nodup, ?_⟩
      · simp only [idsL_cons]
        have := h1.sub
        simp only [idsL_cons] at this
        exact List.Sublist.append (.refl _) this
      · intro hr hn x
        simp only [idsL_cons, List.nodup_append] at hn
        have e1 := h1.reg hr hn.2.1 x
        rw [e1]
        simp only [idsL_cons, List.mem_append, not_or]
        by_cases hk : x ∈ k.ids
        · have : x ∉ idsL ks := fun h => hn.2.2 x hk x h rfl
          simp [hk, this]
        · simp [hk]
end

theorem unmountAll_spec (ks : List Node) (s : St U) :
    UnmSpec ks s (unmountAll ks s).1 (unmountAll ks s).2 := by
  induction ks generalizing s with
  | nil => simp only [unmountAll]; exact UnmSpec.refl _ _
  | cons k ks ih =>
    have h1 := unmountNode_spec k s
    simp only [unmountAll]
    rcases hu : unmountNode k s with ⟨s1, _ | ⟨r, rest⟩⟩
    · rw [hu] at h1
      have h2 := ih s1
      simp only at h1 ⊢
      refine ⟨h2.nextId.trans h1.nextId, h2.ctx.trans h1.ctx, h2.seqs.trans h1.seqs,
        h2.exit.trans h1.exit, h2.orphans.trans h1.orphans, h2.log.trans h1.log, ?_, ?_, ?_⟩
      · simp only [idsL_cons]; exact h2.sub.trans (List.sublist_append_right _ _)
      · intro hr; exact h2.nodup (h1.nodup hr)
      · intro hr hn x
        simp only [idsL_cons, List.nodup_append] at hn
        have e1 := h1.reg hr (by simpa using hn.1) x
        have e2 := h2.reg (h1.nodup hr) hn.2.1 x
        rw [e2, e1]
        simp only [idsL_cons, idsL_nil, List.append_nil, List.mem_append, List.not_mem_nil, or_false,
          not_or]
        constructor
        · rintro ⟨⟨h1, h3⟩, h4⟩; exact ⟨h1, h4.imp (fun h => ⟨h3, h⟩) (fun h => h)⟩
        · rintro ⟨h1, h3⟩
          refine ⟨⟨h1, ?_⟩, h3.imp And.right (fun h => h)⟩
          rcases h3 with h3 | h3
          · exact h3.1
          · intro hx
            exact hn.2.2 x hx x (h2.sub.subset h3) rfl
    · rw [hu] at h1
      simp only at h1 ⊢
      refine ⟨h1.nextId, h1.ctx, h1.seqs, h1.exit, h1.orphans, h1.log, ?_, h1.nodup, ?_⟩
      · have := h1.sub
        simp only [idsL_cons, idsL_nil, List.append_nil, List.cons_append, idsL_append] at this ⊢
        rw [← List.append_assoc]
        exact List.Sublist.append this (.refl _)
      · intro hr hn x
        simp only [idsL_cons, List.nodup_append] at hn
        have e1 := h1.reg hr (by simpa using hn.1) x
        rw [e1]
        simp only [idsL_cons, idsL_nil, List.append_nil, List.mem_append, List.cons_append,
          idsL_append, not_or]
        by_cases hk : x ∈ idsL ks
        · have : x ∉ k.ids := fun h => hn.2.2 x h x hk rfl
          simp [hk, this]
        · simp [hk]


theorem unmountAll_spec' {ks : List Node} {s s' : St U} {rest}
    (h : unmountAll ks s = (s', rest)) : UnmSpec ks s s' rest := by
  have := unmountAll_spec ks s; rw [h] at this; exact this

/-! ### Shape of the tree: keys and positions -/

/-- Keys of the children that are states. -/
def keysL (ns : List Node) : List Key := ns.filterMap Node.key?

/-- `ns` are placed at consecutive indices from `idx` under the given parent paths. -/
def PosFrom (path : List Nat) (kpath : List Key) : Nat → List Node → Prop
  | _, [] => True
  | idx, n :: ns =>
    (n.isText = false → ∃ key, n.pos = kidPos path kpath idx key) ∧ PosFrom path kpath (idx + 1) ns

mutual
/-- Children have distinct keys and consistent positions, at every level. -/
def Node.deep : Node → Prop
  | .text _ => True
  | .elem _ _ _ none => True
  | .elem p _ _ (some ks) => (keysL ks).Nodup ∧ PosFrom p.path p.kpath 0 ks ∧ deepL ks
  | .comp p _ _ _ ks => (keysL ks).Nodup ∧ PosFrom p.path p.kpath 0 ks ∧ deepL ks
def deepL : List Node → Prop
  | [] => True
  | n :: ns => n.deep ∧ deepL ns
end

@[simp] theorem deepL_nil : deepL [] := by simp [deepL]
@[simp] theorem deepL_cons (n ns) : deepL (n :: ns) ↔ n.deep ∧ deepL ns := by simp [deepL]
theorem deepL_iff (ns) : deepL ns ↔ ∀ n ∈ ns, n.deep := by
  induction ns with
  | nil => simp
  | cons n ns ih => simp [ih]
@[simp] theorem deepL_append (a b) : deepL (a ++ b) ↔ deepL a ∧ deepL b := by
  simp only [deepL_iff, List.mem_append]
  exact ⟨fun h => ⟨fun n hn => h n (.inl hn), fun n hn => h n (.inr hn)⟩,
    fun h n hn => hn.elim (h.1 n) (h.2 n)⟩
theorem deepL_sub {a b : List Node} (h : ∀ n ∈ a, n ∈ b) (hb : deepL b) : deepL a := by
  rw [deepL_iff] at *; exact fun n hn => hb n (h n hn)
theorem deep_comp (p id c e ks) : (Node.comp p id c e ks).deep ↔
    (keysL ks).Nodup ∧ PosFrom p.path p.kpath 0 ks ∧ deepL ks := by simp [Node.deep]
theorem deep_elem (p sh ts ks) : (Node.elem p sh ts ks).deep ↔
    (keysL (ks.getD [])).Nodup ∧ PosFrom p.path p.kpath 0 (ks.getD []) ∧ deepL (ks.getD []) := by
  cases ks <;> simp [Node.deep, keysL, PosFrom]

mutual
theorem unmountNode_deep (n : Node) (s : St U) (h : n.deep) : deepL (unmountNode n s).2 := by
  match n with
  | .text t => simp [unmountNode]
  | .elem p sh ts none =>
    simp only [unmountNode]
    rcases delTargets s.handlers ts with ⟨hh, _ | _⟩
    · simpa using h
    · simp
  | .elem p sh ts (some ks) =>
    simp only [unmountNode]
    rcases delTargets s.handlers ts with ⟨hh, _ | _⟩
    · simpa using h
    · exact unmountKids_deep ks _ (by simp [Node.deep] at h; exact h.2.2)
  | .comp p id c e ks =>
    simp only [unmountNode]
    split
    · exact unmountKids_deep ks _ (by simp [Node.deep] at h; exact h.2.2)
    · simpa using h
theorem unmountKids_deep (ks : List Node) (s : St U) (h : deepL ks) : deepL (unmountKids ks s).2 := by
  match ks with
  | [] => simp [unmountKids]
  | k :: ks =>
    have h1 := unmountKids_deep ks s (by simp at h; exact h.2)
    simp only [unmountKids]
    rcases hu : unmountKids ks s with ⟨s1, _ | ⟨r, rest⟩⟩
    · exact unmountNode_deep k s1 (by simp at h; exact h.1)
    · rw [hu] at h1; simp at h h1 ⊢; exact ⟨h.1, h1⟩
end

theorem unmountAll_deep (ks : List Node) (s : St U) (h : deepL ks) : deepL (unmountAll ks s).2 := by
  induction ks generalizing s with
  | nil => simp [unmountAll]
  | cons k ks ih =>
    simp at h
    have h1 := unmountNode_deep k s h.1
    simp only [unmountAll]
    rcases hu : unmountNode k s with ⟨s1, _ | ⟨r, rest⟩⟩
    · exact ih s1 h.2
    · rw [hu] at h1; simp at h1 ⊢; exact ⟨h1.1, h1.2, h.2⟩

theorem unmountAll_deep' {ks : List Node} {s s' : St U} {rest}
    (h : unmountAll ks s = (s', rest)) (hd : deepL ks) : deepL rest := by
  have := unmountAll_deep ks s hd; rw [h] at this; exact this

mutual
theorem compRootsN_deep (n : Node) (h : n.deep) : deepL (compRootsN n) := by
  match n with
  | .text _ => simp [compRootsN]
  | .elem _ _ _ none => simp [compRootsN]
  | .elem p sh ts (some ks) =>
    simp only [compRootsN]; exact compRoots_deep ks (by simp [Node.deep] at h; exact h.2.2)
  | .comp p id c e ks => simpa [compRootsN] using h
theorem compRoots_deep (ns : List Node) (h : deepL ns) : deepL (compRoots ns) := by
  match ns with
  | [] => simp [compRoots]
  | n :: ns =>
    simp at h
    simp only [compRoots, deepL_append]
    exact ⟨compRootsN_deep n h.1, compRoots_deep ns h.2⟩
end

mutual
theorem compRootsN_ids (n : Node) : idsL (compRootsN n) = n.ids := by
  match n with
  | .text _ => simp [compRootsN]
  | .elem _ _ _ none => simp [compRootsN, Node.ids]
  | .elem p sh ts (some ks) =>
    simp only [compRootsN, Node.ids]; exact compRoots_ids ks
  | .comp p id c e ks => simp [compRootsN]
theorem compRoots_ids (ns : List Node) : idsL (compRoots ns) = idsL ns := by
  match ns with
  | [] => simp [compRoots]
  | n :: ns =>
    simp only [compRoots, idsL_append, idsL_cons]
    rw [compRootsN_ids n, compRoots_ids ns]
end

/-- The old states handed to a call. -/
def Call.old : Call → List Node
  | .comp _ old _ _ => old.toList
  | .model _ old _ _ _ => old.toList
  | .kids _ old _ _ _ => old
  | .loop _ old _ _ _ _ => old
  | .child _ old _ _ => old.toList

def Res.nodes : Res → List Node
  | .ok ns => ns
  | .err _ lost => lost
  | .diverge => []

theorem lookupKid_mem {ks : List Node} {key n} (h : lookupKid ks key = some n) : n ∈ ks :=
  List.mem_of_find?_eq_some h

theorem lookupKid_key {ks : List Node} {key n} (h : lookupKid ks key = some n) :
    n.isText = false ∧ n.key? = some key := by
  have := List.find?_some h
  simpa using this

theorem prepareComp_shape {old c} {s s1 : St U} {id ks} (h : prepareComp old c s = (s1, .ok (id, ks))) :
    s1.orphans = s.orphans ∧
    (ks = [] ∨ ∃ p oc e, old = some (.comp p id oc e ks) ∧ oc.type = c.type ∧ s1 = s) := by
  unfold prepareComp at h
  split at h
  · simp [allocate] at h; obtain ⟨rfl, rfl, rfl⟩ := h; exact ⟨rfl, .inl rfl⟩
  · rename_i p id' oc e ks'
    split at h
    · have hs := unmountAll_spec [Node.comp p id' oc e ks'] s
      split at h
      · rename_i hu; rw [hu] at hs; simp [allocate] at h; obtain ⟨rfl, rfl, rfl⟩ := h
        exact ⟨hs.orphans, .inl rfl⟩
      · simp at h
    · rename_i ht
      simp at h; obtain ⟨rfl, rfl, rfl⟩ := h
      exact ⟨rfl, .inr ⟨p, oc, e, rfl, by simpa using ht, rfl⟩⟩
  · rename_i n _
    have hs := unmountAll_spec [n] s
    split at h
    · rename_i hu; rw [hu] at hs; simp [allocate] at h; obtain ⟨rfl, rfl, rfl⟩ := h
      exact ⟨hs.orphans, .inl rfl⟩
    · simp at h

theorem prepareComp_err {old c} {s s1 : St U} {rest} (h : prepareComp old c s = (s1, .error rest)) :
    ∃ o, old = some o ∧ unmountAll [o] s = (s1, rest) ∧ rest ≠ [] := by
  unfold prepareComp at h
  split at h
  · simp at h
  · split at h
    · split at h
      · simp at h
      · rename_i hu hne; simp at h; obtain ⟨rfl, rfl⟩ := h
        exact ⟨_, rfl, hne, by rintro rfl; exact hu rfl⟩
    · simp at h
  · split at h
    · simp at h
    · rename_i hu hne; simp at h; obtain ⟨rfl, rfl⟩ := h
      exact ⟨_, rfl, hne, by rintro rfl; exact hu rfl⟩

theorem runBody_orphans {s s' : St U} {id c r} (h : runBody s id c = (s', r)) :
    s'.orphans = s.orphans := by
  unfold runBody at h
  split at h <;> · simp at h; rw [← h.1]

theorem prepareModel_ok {old i} {s s1 : St U} {tag ks} (h : prepareModel old i s = (s1, .ok (tag, ks))) :
    i.tag = some tag ∧ s1.orphans = s.orphans ∧
    (ks = [] ∨ ∃ p sh ts oks, old = some (.elem p sh ts oks) ∧ ks = oks.getD []) := by
  unfold prepareModel at h
  split at h
  · split at h <;> simp at h
    obtain ⟨rfl, rfl, rfl⟩ := h; rename_i ht; exact ⟨ht, rfl, .inl rfl⟩
  · split at h
    · simp at h
    · split at h <;> simp at h
      obtain ⟨rfl, rfl, rfl⟩ := h; rename_i ht _ _ _
      exact ⟨ht, rfl, .inr ⟨_, _, _, _, rfl, rfl⟩⟩
  · rename_i o _
    have hs := unmountAll_spec [o] s
    split at h
    · rename_i hu; rw [hu] at hs
      split at h <;> simp at h
      obtain ⟨rfl, rfl, rfl⟩ := h; rename_i ht; exact ⟨ht, hs.orphans, .inl rfl⟩
    · simp at h

theorem prepareModel_err {old i} {s s1 : St U} {e lost}
    (h : prepareModel old i s = (s1, .error (e, lost))) :
    (∃ hs, s1 = { s with handlers := hs } ∧
      ((old = none ∧ lost = []) ∨ ∃ p sh ts oks, old = some (.elem p sh ts oks) ∧ lost = oks.getD [])) ∨
    (∃ o, old = some o ∧ unmountAll [o] s = (s1, lost)) := by
  unfold prepareModel at h
  split at h
  · split at h <;> simp at h
    obtain ⟨rfl, rfl, rfl⟩ := h; exact .inl ⟨_, rfl, .inl ⟨rfl, rfl⟩⟩
  · split at h
    · simp at h
      obtain ⟨rfl, rfl, rfl⟩ := h; exact .inl ⟨_, rfl, .inr ⟨_, _, _, _, rfl, rfl⟩⟩
    · split at h <;> simp at h
      obtain ⟨rfl, rfl, rfl⟩ := h
      exact .inl ⟨_, rfl, .inr ⟨_, _, _, _, rfl, rfl⟩⟩
  · split at h
    · rename_i hu
      split at h <;> simp at h
      obtain ⟨rfl, rfl, rfl⟩ := h; exact .inr ⟨_, rfl, hu⟩
    · simp at h; obtain ⟨rfl, rfl, rfl⟩ := h; exact .inr ⟨_, rfl, by assumption⟩

/-- Shape of the result of a call. -/
def Shape (call : Call) (r : Res) : Prop :=
  match call, r with
  | .comp _ _ pos c, .ok ns => ∃ id e ks, ns = [.comp pos id c e ks]
  | .model _ _ pos _ _, .ok ns => ∃ sh ts ks, ns = [.elem pos sh ts ks]
  | .child _ _ pos _, .ok ns => ∃ n, ns = [n] ∧ (n.isText = false → n.pos = pos)
  | .loop _ _ path kpath idx infos, .ok ns =>
      PosFrom path kpath idx ns ∧ (keysL ns).Sublist (infos.map (·.2))
  | .kids _ _ path kpath _, .ok ns => PosFrom path kpath 0 ns ∧ (keysL ns).Nodup
  | _, _ => True

theorem Node.key?_eq (n : Node) (h : n.isText = false) : n.key? = n.pos.key := by
  cases n <;> simp_all [Node.key?, Node.pos, Node.isText]

theorem run_shape {call} {s s' : St U} {r} (h : Run call s s' r) (ho : deepL call.old) :
    Shape call r ∧ deepL r.nodes ∧ ∃ o, s'.orphans = s.orphans ++ o ∧ deepL o := by
  induction h with
  | compUnm hp =>
    obtain ⟨o, rfl, hu, _⟩ := prepareComp_err hp
    have hs := unmountAll_spec' hu
    have hd := unmountAll_deep' hu ho
    exact ⟨trivial, hd, [], by simp [hs.orphans], by simp⟩
  | @compRaise top old pos c s s1 id ks s2 e hp hb =>
    obtain ⟨ho1, hks⟩ := prepareComp_shape hp
    have hb' := runBody_orphans hb
    refine ⟨⟨_, _, _, rfl⟩, by simp [Res.nodes, deep_comp, keysL, PosFrom], compRoots ks, ?_, ?_⟩
    · simp only [hb', enterComp, ho1]
    · apply compRoots_deep
      rcases hks with rfl | ⟨p, oc, e, rfl, _⟩
      · simp
      · simp [Call.old, deep_comp] at ho; exact ho.2.2
  | @compOk top old pos c s s1 id ks s2 raw s3 kids hp hb hk ih =>
    obtain ⟨ho1, hks⟩ := prepareComp_shape hp
    have hb' := runBody_orphans hb
    have hd : deepL ks := by
      rcases hks with rfl | ⟨p, oc, e, rfl, _⟩
      · simp
      · simp [Call.old, deep_comp] at ho; exact ho.2.2
    obtain ⟨hsh, hdn, o, hoo, hod⟩ := ih hd
    refine ⟨⟨_, _, _, rfl⟩, ?_, o, ?_, hod⟩
    · simp only [Res.nodes, deepL_cons, deep_comp, deepL_nil, and_true]
      exact ⟨hsh.2, hsh.1, hdn⟩
    · simp only [hoo, hb', enterComp, ho1]
  | @compErr top old pos c s s1 id ks s2 raw s3 e lost hp hb hk ih =>
    obtain ⟨ho1, hks⟩ := prepareComp_shape hp
    have hb' := runBody_orphans hb
    have hd : deepL ks := by
      rcases hks with rfl | ⟨p, oc, e, rfl, _⟩
      · simp
      · simp [Call.old, deep_comp] at ho; exact ho.2.2
    obtain ⟨hsh, hdn, o, hoo, hod⟩ := ih hd
    refine ⟨⟨_, _, _, rfl⟩, by simp [Res.nodes, deep_comp, keysL, PosFrom], o ++ compRoots lost, ?_, ?_⟩
    · simp only [hoo, hb', enterComp, ho1, List.append_assoc]
    · simp only [deepL_append]; exact ⟨hod, compRoots_deep _ hdn⟩
  | @modelPrep top old pos i cs s s1 e lost hp =>
    rcases prepareModel_err hp with ⟨hh, rfl, h | ⟨p, sh, ts, oks, rfl, rfl⟩⟩ | ⟨o, rfl, hu⟩
    · simp only [h.2]; exact ⟨trivial, by simp [Res.nodes], [], by simp, by simp⟩
    · simp [Call.old, deep_elem] at ho
      exact ⟨trivial, by simpa [Res.nodes] using ho.2.2, [], by simp, by simp⟩
    · have hs := unmountAll_spec' hu
      have hd := unmountAll_deep' hu ho
      exact ⟨trivial, hd, [], by simp [hs.orphans], by simp⟩
  | @modelOk top old pos i cs s s1 tag ks s2 kids hp hk ih =>
    obtain ⟨_, ho1, hks⟩ := prepareModel_ok hp
    have hd : deepL ks := by
      rcases hks with rfl | ⟨p, sh, ts, oks, rfl, rfl⟩
      · simp
      · simp [Call.old, deep_elem] at ho; exact ho.2.2
    obtain ⟨hsh, hdn, o, hoo, hod⟩ := ih hd
    refine ⟨⟨_, _, _, rfl⟩, ?_, o, ?_, hod⟩
    · simp only [Res.nodes, deepL_cons, deepL_nil, and_true, deep_elem]
      split
      · simp [keysL, PosFrom]
      · exact ⟨hsh.2, hsh.1, hdn⟩
    · simp only [hoo, ho1]
  | @modelErr top old pos i cs s s1 tag ks s2 e lost hp hk ih =>
    obtain ⟨_, ho1, hks⟩ := prepareModel_ok hp
    have hd : deepL ks := by
      rcases hks with rfl | ⟨p, sh, ts, oks, rfl, rfl⟩
      · simp
      · simp [Call.old, deep_elem] at ho; exact ho.2.2
    obtain ⟨hsh, hdn, o, hoo, hod⟩ := ih hd
    exact ⟨trivial, hdn, o, by simp only [hoo, ho1], hod⟩
  | kidsDup hd => exact ⟨trivial, ho, [], by simp, by simp⟩
  | @kidsUnm top old path kpath raws s s1 r rest hd hu =>
    have hs := unmountAll_spec' hu
    have hdd := unmountAll_deep' hu (deepL_sub (fun n hn => (List.mem_filter.1 hn).1) ho)
    refine ⟨trivial, ?_, [], by simp [hs.orphans], by simp⟩
    show deepL ((r :: rest) ++ _)
    rw [deepL_append]
    exact ⟨hdd, deepL_sub (fun n hn => (List.mem_filter.1 hn).1) ho⟩
  | @kidsLoop top old path kpath raws s s1 s2 r hd hu hl ih =>
    have hs := unmountAll_spec' hu
    obtain ⟨hsh, hdn, o, hoo, hod⟩ := ih (deepL_sub (fun n hn => (List.mem_filter.1 hn).1) ho)
    refine ⟨?_, hdn, o, by simp [hoo, hs.orphans], hod⟩
    cases r with
    | ok ns =>
      simp only [Shape] at hsh ⊢
      refine ⟨hsh.1, hsh.2.nodup ?_⟩
      simpa [hasDupKeys] using hd
    | err _ _ => trivial
    | diverge => trivial
  | loopNil => exact ⟨⟨trivial, by simp [keysL]⟩, by simp [Res.nodes], [], by simp, by simp⟩
  | @loopFirst top old path kpath idx raw key infos s s1 e lost hc ih =>
    have hlk : deepL (lookupKid old key).toList := by
      refine deepL_sub (fun n hn => ?_) ho
      simp at hn; exact lookupKid_mem hn
    obtain ⟨hsh, hdn, o, hoo, hod⟩ := ih hlk
    refine ⟨trivial, ?_, o, hoo, hod⟩
    simp only [Res.nodes, deepL_append] at hdn ⊢
    exact ⟨hdn, deepL_sub (fun n hn => (List.mem_filter.1 hn).1) ho⟩
  | @loopRest top old path kpath idx raw key infos s s1 new s2 e lost hc hl ih1 ih2 =>
    have hlk : deepL (lookupKid old key).toList := by
      refine deepL_sub (fun n hn => ?_) ho
      simp at hn; exact lookupKid_mem hn
    obtain ⟨hsh, hdn, o, hoo, hod⟩ := ih1 hlk
    obtain ⟨hsh2, hdn2, o2, hoo2, hod2⟩ := ih2 (deepL_sub (fun n hn => (List.mem_filter.1 hn).1) ho)
    refine ⟨trivial, ?_, o ++ o2, by simp [hoo2, hoo], by simp [hod, hod2]⟩
    simp only [Res.nodes, deepL_append] at hdn hdn2 ⊢
    exact ⟨hdn, hdn2⟩
  | @loopOk top old path kpath idx raw key infos s s1 new s2 news hc hl ih1 ih2 =>
    have hlk : deepL (lookupKid old key).toList := by
      refine deepL_sub (fun n hn => ?_) ho
      simp at hn; exact lookupKid_mem hn
    obtain ⟨hsh, hdn, o, hoo, hod⟩ := ih1 hlk
    obtain ⟨hsh2, hdn2, o2, hoo2, hod2⟩ := ih2 (deepL_sub (fun n hn => (List.mem_filter.1 hn).1) ho)
    refine ⟨?_, ?_, o ++ o2, by simp [hoo2, hoo], by simp [hod, hod2]⟩
    · obtain ⟨n, rfl, hpos⟩ := hsh
      simp only [Shape, List.singleton_append, PosFrom, List.map_cons] at hsh2 ⊢
      refine ⟨⟨fun ht => ⟨key, hpos ht⟩, hsh2.1⟩, ?_⟩
      cases ht : n.isText with
      | true =>
        have : keysL (n :: news) = keysL news := by
          cases n with
          | text t => simp [keysL, List.filterMap_cons, Node.key?]
          | elem _ _ _ _ => simp [Node.isText] at ht
          | comp _ _ _ _ _ => simp [Node.isText] at ht
        rw [this]; exact hsh2.2.trans (List.sublist_cons_self _ _)
      | false =>
        have : keysL (n :: news) = key :: keysL news := by
          simp [keysL, Node.key?_eq n ht, hpos ht, kidPos]
        rw [this]; exact hsh2.2.cons_cons _
    · simp only [Res.nodes, deepL_append] at hdn hdn2 ⊢
      exact ⟨hdn, hdn2⟩
  | @childElem top old pos i cs s s1 r hm ih =>
    obtain ⟨hsh, rest⟩ := ih ho
    refine ⟨?_, rest⟩
    cases r with
    | ok ns => obtain ⟨sh, ts, ks, rfl⟩ := hsh; exact ⟨_, rfl, fun _ => rfl⟩
    | _ => trivial
  | @childComp top old pos c s s1 r hm ih =>
    obtain ⟨hsh, rest⟩ := ih ho
    refine ⟨?_, rest⟩
    cases r with
    | ok ns => obtain ⟨sh, ts, ks, rfl⟩ := hsh; exact ⟨_, rfl, fun _ => rfl⟩
    | _ => trivial
  | childText => exact ⟨⟨_, rfl, by simp [Node.isText]⟩, by simp [Res.nodes, Node.deep], [], by simp, by simp⟩
  | @childTextOld top o pos t s s1 hu =>
    have hs := unmountAll_spec' hu
    exact ⟨⟨_, rfl, by simp [Node.isText]⟩, by simp [Res.nodes, Node.deep], [], by simp [hs.orphans], by simp⟩
  | @childTextErr top o pos t s s1 r rest hu =>
    have hs := unmountAll_spec' hu
    have hd := unmountAll_deep' hu ho
    exact ⟨trivial, hd, [], by simp [hs.orphans], by simp⟩
  | childNone => exact ⟨trivial, ho, [], by simp, by simp⟩

end Verif.Layout
