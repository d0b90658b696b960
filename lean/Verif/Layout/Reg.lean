import Verif.Layout.Ids
/-! # Registry and frame invariants of a render (helper lemmas) -/
namespace Verif.Layout
variable {U : User}

structure Inv (s : St U) : Prop where
  nodup : s.reg.Nodup
  lt : ∀ x ∈ s.reg, x < s.nextId
  ctx : ∀ x, s.nextId ≤ x → ∀ y, s.ctx x y = none

/-- Nothing outside `I` and the newly created instances is affected. -/
structure Frame (I : List Nat) (s s' : St U) : Prop where
  mono : s.nextId ≤ s'.nextId
  log : ∀ x, x < s.nextId → x ∉ I → lastRender s'.log x = lastRender s.log x
  ctx : ∀ x, x < s.nextId → x ∉ I → s'.ctx x = s.ctx x
  reg : ∀ x, x < s.nextId → x ∉ I → (x ∈ s'.reg ↔ x ∈ s.reg)
  seqs : s'.seqs = s.seqs

/-- Started with the registered instances `I`, the computation ended with the instances `L` in its
result and those of `o` orphaned; exactly these are registered. -/
structure Post (I : List Nat) (s s' : St U) (L : List Nat) : Prop where
  inv : Inv s'
  frame : Frame I s s'
  orph : ∃ o, s'.orphans = s.orphans ++ o ∧ (L ++ idsL o).Nodup ∧
    (∀ x ∈ L ++ idsL o, x ∈ I ∨ s.nextId ≤ x) ∧
    (∀ x, (x ∈ I ∨ s.nextId ≤ x) → (x ∈ s'.reg ↔ x ∈ L ++ idsL o))

theorem Post.refl {s : St U} {I : List Nat} (hi : Inv s) (hn : I.Nodup) (hr : ∀ x ∈ I, x ∈ s.reg) :
    Post I s s I where
  inv := hi
  frame := ⟨Nat.le_refl _, fun _ _ _ => rfl, fun _ _ _ => rfl, fun _ _ _ => Iff.rfl, rfl⟩
  orph := ⟨[], by simp, by simpa using hn, fun x hx => .inl (by simpa using hx), fun x hx => by
    simp only [idsL_nil, List.append_nil]
    refine ⟨fun h => hx.resolve_right ?_, hr x⟩
    have := hi.lt x h; omega⟩

theorem Post.chain {s s1 s2 : St U} {I L P J M : List Nat} (h1 : Post I s s1 L)
    (hp : L.Perm (P ++ J)) (h2 : Post J s1 s2 M) : Post I s s2 (P ++ M) := by
  obtain ⟨i1, f1, o1, ho1, n1, s1', r1⟩ := h1
  obtain ⟨i2, f2, o2, ho2, n2, s2', r2⟩ := h2
  have hJ : ∀ x ∈ J, x ∈ L := fun x hx => hp.mem_iff.2 (by simp [hx])
  have hP : ∀ x ∈ P, x ∈ L := fun x hx => hp.mem_iff.2 (by simp [hx])
  have hJI : ∀ x ∈ J, x ∈ I ∨ s.nextId ≤ x := fun x hx => s1' x (by simp [hJ x hx])
  have n1' : ((P ++ J) ++ idsL o1).Nodup := (hp.append_right _).nodup_iff.1 n1
  have hlt : ∀ x ∈ L ++ idsL o1, x < s1.nextId := fun x hx =>
    i1.lt x ((r1 x (s1' x hx)).2 hx)
  -- `P` and `o1` are disjoint from what the second part may touch
  have hdis : ∀ x, x ∈ P ∨ x ∈ idsL o1 → x ∉ J ∧ x < s1.nextId := by
    intro x hx
    simp only [List.nodup_append, List.mem_append] at n1'
    rcases hx with hx | hx
    · exact ⟨fun h => n1'.1.2.2 x hx x h rfl, hlt x (by simp [hP x hx])⟩
    · exact ⟨fun h => n1'.2.2 x (.inr h) x hx rfl, hlt x (by simp [hx])⟩
  refine ⟨i2, ⟨Nat.le_trans f1.mono f2.mono, ?_, ?_, ?_, f2.seqs.trans f1.seqs⟩,
    o1 ++ o2, by simp [ho2, ho1], ?_, ?_, ?_⟩
  · intro x hx hI
    rw [f2.log x (Nat.lt_of_lt_of_le hx f1.mono) (fun h => by rcases hJI x h with h | h; exact hI h; omega),
      f1.log x hx hI]
  · intro x hx hI
    rw [f2.ctx x (Nat.lt_of_lt_of_le hx f1.mono) (fun h => by rcases hJI x h with h | h; exact hI h; omega),
      f1.ctx x hx hI]
  · intro x hx hI
    rw [f2.reg x (Nat.lt_of_lt_of_le hx f1.mono) (fun h => by rcases hJI x h with h | h; exact hI h; omega),
      f1.reg x hx hI]
  · have e : ((P ++ idsL o1) ++ (M ++ idsL o2)).Nodup := by
      rw [List.nodup_append]
      refine ⟨?_, n2, ?_⟩
      · refine n1'.sublist ?_
        exact List.Sublist.append (List.sublist_append_left _ _) (.refl _)
      · intro a ha b hb hab
        subst hab
        have := hdis a (by simpa using ha)
        rcases s2' a hb with h | h
        · exact this.1 h
        · omega
    refine e.perm ?_
    simp only [idsL_append, List.append_assoc]
    refine List.Perm.append_left _ ?_
    rw [← List.append_assoc, ← List.append_assoc]
    exact List.Perm.append_right _ List.perm_append_comm
  · intro x hx
    simp only [idsL_append, List.mem_append] at hx
    have h1 : x ∈ M ++ idsL o2 ∨ x ∈ L ++ idsL o1 := by
      simp only [List.mem_append]
      rcases hx with (h | h) | h | h
      · exact .inr (.inl (hP x h))
      · exact .inl (.inl h)
      · exact .inr (.inr h)
      · exact .inl (.inr h)
    rcases h1 with h | h
    · rcases s2' x h with h | h
      · exact hJI x h
      · exact .inr (Nat.le_trans f1.mono h)
    · exact s1' x h
  · intro x hx
    by_cases hJx : x ∈ J ∨ s1.nextId ≤ x
    · rw [r2 x hJx]
      simp only [idsL_append, List.mem_append]
      constructor
      · rintro (h | h) <;> simp [h]
      · rintro ((h | h) | h | h)
        · have := hdis x (.inl h); rcases hJx with h | h; exact absurd h this.1; omega
        · exact .inl h
        · have := hdis x (.inr h); rcases hJx with h | h; exact absurd h this.1; omega
        · exact .inr h
    · have hn : x ∉ J ∧ x < s1.nextId := ⟨fun h => hJx (.inl h), Nat.lt_of_not_le (fun h => hJx (.inr h))⟩
      rw [f2.reg x hn.2 hn.1, r1 x hx]
      simp only [idsL_append, List.mem_append]
      have hL : x ∈ L ↔ x ∈ P := by
        rw [hp.mem_iff]; simp [hn.1]
      have hM : ¬ (x ∈ M ∨ x ∈ idsL o2) := fun h => hJx (s2' x (by simpa using h))
      rw [hL]
      constructor
      · rintro (h | h) <;> simp [h]
      · rintro ((h | h) | h | h)
        · exact .inl h
        · exact absurd (.inl h) hM
        · exact .inr h
        · exact absurd (.inr h) hM

theorem Post.perm {s s' : St U} {I L M : List Nat} (h : Post I s s' L) (hp : L.Perm M) :
    Post I s s' M := by
  obtain ⟨i, f, o, ho, n, s1, r⟩ := h
  refine ⟨i, f, o, ho, (hp.append_right _).nodup_iff.1 n, fun x hx => s1 x ((hp.append_right _).mem_iff.2 hx),
    fun x hx => (r x hx).trans (hp.append_right _).mem_iff⟩

/-- Handlers and the world are irrelevant to `Post`. -/
theorem Post.congr_left {s t s' : St U} {I L : List Nat} (h : Post I s s' L)
    (h1 : t.nextId = s.nextId) (h2 : t.ctx = s.ctx) (h3 : t.reg = s.reg) (h4 : t.seqs = s.seqs)
    (h5 : lastRender t.log = lastRender s.log) (h6 : t.orphans = s.orphans) : Post I t s' L := by
  obtain ⟨i, ⟨f1, f2, f3, f4, f5⟩, o, ho, n, s1, r⟩ := h
  refine ⟨i, ⟨by rw [h1]; exact f1, by rw [h1, h5]; exact f2, by rw [h1, h2]; exact f3,
    by rw [h1, h3]; exact f4, by rw [f5, h4]⟩, o, by rw [h6]; exact ho, n, by rw [h1]; exact s1,
    by rw [h1]; exact r⟩

theorem Post.congr_right {s t s' : St U} {I L : List Nat} (h : Post I s s' L)
    (h1 : t.nextId = s'.nextId) (h2 : t.ctx = s'.ctx) (h3 : t.reg = s'.reg) (h4 : t.seqs = s'.seqs)
    (h5 : lastRender t.log = lastRender s'.log) (h6 : t.orphans = s'.orphans) : Post I s t L := by
  obtain ⟨⟨i1, i2, i3⟩, ⟨f1, f2, f3, f4, f5⟩, o, ho, n, s1, r⟩ := h
  refine ⟨⟨by rw [h3]; exact i1, by rw [h3, h1]; exact i2, by rw [h1, h2]; exact i3⟩,
    ⟨by rw [h1]; exact f1, by rw [h5]; exact f2, by rw [h2]; exact f3,
    by rw [h3]; exact f4, by rw [h4, f5]⟩, o, by rw [h6]; exact ho, n, s1, by rw [h3]; exact r⟩

/-- The orphaned part of the result. -/
theorem Post.orphan {s s' : St U} {I P : List Nat} {lost : List Node} (h : Post I s s' (P ++ idsL lost))
    : Post I s { s' with orphans := s'.orphans ++ compRoots lost } P := by
  obtain ⟨⟨i1, i2, i3⟩, ⟨f1, f2, f3, f4, f5⟩, o, ho, n, s1, r⟩ := h
  have hperm : (P ++ idsL lost ++ idsL o).Perm (P ++ idsL (o ++ compRoots lost)) := by
    simp only [idsL_append, compRoots_ids, List.append_assoc]
    exact List.Perm.append_left _ List.perm_append_comm
  exact ⟨⟨i1, i2, i3⟩, ⟨f1, f2, f3, f4, f5⟩, o ++ compRoots lost, by simp [ho],
    hperm.nodup_iff.1 n, fun x hx => s1 x (hperm.mem_iff.2 hx), fun x hx => (r x hx).trans hperm.mem_iff⟩

theorem UnmSpec.post {ns rest : List Node} {s s' : St U} (h : UnmSpec ns s s' rest) (hi : Inv s)
    (hn : (idsL ns).Nodup) (hr : ∀ x ∈ idsL ns, x ∈ s.reg) : Post (idsL ns) s s' (idsL rest) where
  inv := ⟨h.nodup hi.nodup, fun x hx => by
      rw [h.nextId]; exact hi.lt x ((h.reg hi.nodup hn x).1 hx).1, by rw [h.nextId, h.ctx]; exact hi.ctx⟩
  frame := ⟨Nat.le_of_eq h.nextId.symm, fun _ _ _ => by rw [h.log], fun _ _ _ => by rw [h.ctx],
    fun x _ hx => by rw [h.reg hi.nodup hn x]; simp [hx], h.seqs⟩
  orph := ⟨[], by simp [h.orphans], by simpa using h.sub.nodup hn,
    fun x hx => .inl (h.sub.subset (by simpa using hx)), fun x hx => by
      rw [h.reg hi.nodup hn x]
      simp only [idsL_nil, List.append_nil]
      rcases hx with hx | hx
      · have hh := hr x hx
        simp [hx, hh]
      · have h1 : x ∉ s.reg := fun h => by have := hi.lt x h; omega
        have h2 : x ∉ idsL rest := fun h' => h1 (hr x (h.sub.subset h'))
        simp [h1, h2]⟩

/-- After `prepareComp` and `enterComp`, exactly the instance and its old children are registered. -/
theorem prepareComp_post {old c} {s s1 : St U} {id ks} (top : Option Nat)
    (h : prepareComp old c s = (s1, .ok (id, ks)))
    (hi : Inv s) (hn : (idsL old.toList).Nodup) (hr : ∀ x ∈ idsL old.toList, x ∈ s.reg) :
    Post (idsL old.toList) s (enterComp s1 top id) (id :: idsL ks) ∧
      (∀ p, top = some p → p < s.nextId → (∀ x, s.ctx p x = s1.ctx p x)) ∧
      (id ∈ idsL old.toList ∨ (s.nextId ≤ id ∧ ks = [])) := by
  -- the freshly allocated case
  have fresh : ∀ s0 : St U, Post (idsL old.toList) s s0 [] → s0.nextId = s.nextId → s0.ctx = s.ctx →
      Post (idsL old.toList) s (enterComp (allocate s0).1 top s0.nextId) [s0.nextId] := by
    rintro s0 ⟨⟨i1, i2, i3⟩, ⟨f1, f2, f3, f4, f5⟩, o, ho, n, hs1, r⟩ hnx hcx
    have hnot : s0.nextId ∉ s0.reg := fun h => by have := i2 _ h; omega
    have hno : s0.nextId ∉ idsL o := fun h => hnot ((r s0.nextId (.inr (by omega))).2 (by simpa using h))
    have hreg : (enterComp (allocate s0).1 top s0.nextId).reg = s0.nextId :: s0.reg := if_neg hnot
    have hnxt : (enterComp (allocate s0).1 top s0.nextId).nextId = s0.nextId + 1 := rfl
    refine ⟨⟨?_, ?_, ?_⟩, ⟨?_, ?_, ?_, ?_, ?_⟩, o, ho, ?_, ?_, ?_⟩
    · rw [hreg]; simp [i1, hnot]
    · rw [hreg, hnxt]
      simp only [List.mem_cons]
      rintro x (rfl | h)
      · omega
      · have := i2 x h; omega
    · simp only [enterComp, allocate, inheritCtx]
      intro x hx y
      cases top with
      | none => exact i3 x (by omega) y
      | some p =>
        simp only
        rw [if_neg (by omega)]; exact i3 x (by omega) y
    · simp only [enterComp, allocate]; omega
    · intro x hx hI
      simp only [enterComp, allocate, lastRender]
      exact f2 x hx hI
    · intro x hx hI
      simp only [enterComp, allocate, inheritCtx]
      cases top with
      | none => exact f3 x hx hI
      | some p => simp only; funext y; rw [if_neg (by omega)]; exact congrFun (f3 x hx hI) y
    · intro x hx hI
      rw [hreg, List.mem_cons, f4 x hx hI]
      have : x ≠ s0.nextId := by omega
      simp [this]
    · exact f5
    · simp only [List.singleton_append, List.nodup_cons]
      exact ⟨hno, by simpa using n⟩
    · intro x hx
      simp only [List.singleton_append, List.mem_cons] at hx
      rcases hx with rfl | hx
      · exact .inr (by omega)
      · exact hs1 x (by simpa using hx)
    · intro x hx
      rw [hreg, List.mem_cons, r x hx]; simp
  unfold prepareComp at h
  split at h
  · simp [allocate] at h; obtain ⟨rfl, rfl, rfl⟩ := h
    refine ⟨?_, fun _ _ _ _ => rfl, .inr ⟨Nat.le_refl _, rfl⟩⟩
    have := fresh s (by simpa using Post.refl hi hn hr) rfl rfl
    simpa [allocate] using this
  · rename_i p id' oc e ks'
    split at h
    · split at h
      · rename_i hu
        have hs := unmountAll_spec' hu
        simp [allocate] at h; obtain ⟨rfl, rfl, rfl⟩ := h
        refine ⟨?_, fun q _ _ x => by rw [hs.ctx], .inr ⟨Nat.le_of_eq hs.nextId.symm, rfl⟩⟩
        have := fresh _ (by simpa using hs.post hi (by simpa using hn) (by simpa using hr)) hs.nextId hs.ctx
        simpa [allocate] using this
      · simp at h
    · simp at h; obtain ⟨rfl, rfl, rfl⟩ := h
      have hid : id' ∈ s.reg := hr id' (by simp)
      refine ⟨?_, fun _ _ _ _ => rfl, .inl (by simp)⟩
      have hP := Post.refl hi hn hr
      obtain ⟨⟨i1, i2, i3⟩, ⟨f1, f2, f3, f4, f5⟩, o, ho, n, hs1, r⟩ := hP
      have hreg : (enterComp s top id').reg = s.reg := by simp [enterComp, hid]
      refine ⟨⟨?_, ?_, ?_⟩, ⟨?_, ?_, ?_, ?_, ?_⟩, o, by simpa [enterComp] using ho, by simpa using n,
        by simpa using hs1, by rw [hreg]; simpa using r⟩
      · rw [hreg]; exact i1
      · rw [hreg]; exact i2
      · intro x hx y
        have hlt := i2 id' hid
        have hx' : s.nextId ≤ x := hx
        simp only [enterComp, inheritCtx]
        cases top with
        | none => exact i3 x hx y
        | some q => simp only; rw [if_neg (by omega)]; exact i3 x hx y
      · exact f1
      · intro x hx hI; simp only [enterComp, lastRender]
      · intro x hx hI
        simp only [enterComp, inheritCtx]
        cases top with
        | none => rfl
        | some q =>
          simp only; funext y; rw [if_neg]
          rintro rfl; exact hI (by simp)
      · intro x hx hI; rw [hreg]
      · rfl
  · rename_i n' _
    split at h
    · rename_i hu
      have hs := unmountAll_spec' hu
      simp [allocate] at h; obtain ⟨rfl, rfl, rfl⟩ := h
      refine ⟨?_, fun q _ _ x => by rw [hs.ctx], .inr ⟨Nat.le_of_eq hs.nextId.symm, rfl⟩⟩
      have := fresh _ (by simpa using hs.post hi (by simpa using hn) (by simpa using hr)) hs.nextId hs.ctx
      simpa [allocate] using this
    · simp at h


theorem Post.pre {s s1 : St U} {I L P J : List Nat} (h : Post I s s1 L) (hp : L.Perm (P ++ J)) :
    J.Nodup ∧ ∀ x ∈ J, x ∈ s1.reg := by
  obtain ⟨i1, f1, o1, ho1, n1, s1', r1⟩ := h
  have hJ : ∀ x ∈ J, x ∈ L := fun x hx => hp.mem_iff.2 (by simp [hx])
  refine ⟨?_, fun x hx => (r1 x (s1' x (by simp [hJ x hx]))).2 (by simp [hJ x hx])⟩
  have := hp.nodup_iff.1 (n1.sublist (List.sublist_append_left _ _))
  exact this.sublist (List.sublist_append_right _ _)

theorem Post.rendered {s s' : St U} {I L : List Nat} (h : Post I s s' L) {id c ctx out}
    (hid : id ∈ I ∨ s.nextId ≤ id) :
    Post I s { s' with log := .rendered id c ctx out :: s'.log } L := by
  obtain ⟨⟨i1, i2, i3⟩, ⟨f1, f2, f3, f4, f5⟩, o, ho, n, s1, r⟩ := h
  refine ⟨⟨i1, i2, i3⟩, ⟨f1, ?_, f3, f4, f5⟩, o, ho, n, s1, r⟩
  intro x hx hI
  simp only [lastRender]
  rw [if_neg]
  · exact f2 x hx hI
  · rintro rfl; rcases hid with h | h
    · exact hI h
    · omega

theorem runBody_post {s s1 s2 : St U} {I L : List Nat} {id c r} (h : Post I s s1 L)
    (hid : id ∈ I ∨ s.nextId ≤ id) (hL : id ∈ L) (hb : runBody s1 id c = (s2, r)) : Post I s s2 L := by
  have hreg : id ∈ s1.reg := by
    obtain ⟨i1, f1, o1, ho1, n1, s1', r1⟩ := h
    exact (r1 id hid).2 (by simp [hL])
  have hlt := h.inv.lt id hreg
  unfold runBody at hb
  split at hb
  · simp only [Prod.mk.injEq] at hb; rw [← hb.1]
    obtain ⟨⟨i1, i2, i3⟩, ⟨f1, f2, f3, f4, f5⟩, o, ho, n, s1', r⟩ := h
    refine ⟨⟨i1, i2, ?_⟩, ⟨f1, f2, ?_, f4, f5⟩, o, ho, n, s1', r⟩
    · intro x hx y
      have hx' : s1.nextId ≤ x := hx
      simp only; rw [if_neg (by omega)]; exact i3 x hx y
    · intro x hx hI
      funext y
      simp only
      rw [if_neg]
      · exact congrFun (f3 x hx hI) y
      · rintro ⟨rfl, _⟩; rcases hid with h | h
        · exact hI h
        · omega
  · simp only [Prod.mk.injEq] at hb; rw [← hb.1]
    exact h.congr_right rfl rfl rfl rfl rfl rfl

theorem prepareModel_post {old i} {s s1 : St U} {tag ks} (h : prepareModel old i s = (s1, .ok (tag, ks)))
    (hi : Inv s) (hn : (idsL old.toList).Nodup) (hr : ∀ x ∈ idsL old.toList, x ∈ s.reg) :
    Post (idsL old.toList) s s1 (idsL ks) := by
  unfold prepareModel at h
  split at h
  · split at h <;> simp at h
    obtain ⟨rfl, rfl, rfl⟩ := h; simpa using Post.refl hi hn hr
  · split at h
    · simp at h
    · split at h <;> simp at h
      obtain ⟨rfl, rfl, rfl⟩ := h
      have := Post.refl hi hn hr
      simp only [Option.toList_some, idsL_cons, ids_elem, idsL_nil, List.append_nil] at this ⊢
      exact this.congr_right rfl rfl rfl rfl rfl rfl
  · split at h
    · rename_i hu
      split at h <;> simp at h
      obtain ⟨rfl, rfl, rfl⟩ := h
      exact (unmountAll_spec' hu).post hi hn hr
    · simp at h

theorem removed_kept_perm (old : List Node) (infos : List (Raw × Key)) :
    (idsL old).Perm (idsL (keptKids old infos) ++ idsL (removedKids old infos)) := by
  unfold keptKids removedKids
  induction old with
  | nil => simp
  | cons n ns ih =>
    simp only [List.filter_cons]
    cases ht : n.isText with
    | true =>
      have : n.ids = [] := by cases n <;> simp_all [Node.isText, Node.ids]
      simp [this, ih]
    | false =>
      cases hk : infos.any (fun i => decide (n.key? = some i.2)) with
      | true =>
        simp only [Bool.not_false, Bool.true_and, if_true, Bool.not_true, Bool.false_eq_true, if_false,
          idsL_cons, List.append_assoc]
        exact List.Perm.append_left _ ih
      | false =>
        simp only [Bool.not_false, Bool.true_and, if_true, Bool.false_eq_true, if_false,
          idsL_cons]
        refine (List.Perm.append_left _ ih).trans ?_
        rw [← List.append_assoc, ← List.append_assoc]
        exact List.Perm.append_right _ List.perm_append_comm

theorem othersOf_eq (old : List Node) (key : Key) (h : key ∉ keysL old) :
    othersOf old key = old ∧ lookupKid old key = none := by
  induction old with
  | nil => simp [othersOf, lookupKid]
  | cons n ns ih =>
    have h1 : n.key? ≠ some key := by
      intro hk; apply h; simp [keysL, List.filterMap_cons, hk]
    have h2 : key ∉ keysL ns := by
      intro hk; apply h; unfold keysL at *; rw [List.filterMap_cons]; split <;> simp [hk]
    obtain ⟨e1, e2⟩ := ih h2
    constructor
    · unfold othersOf at *; rw [List.filter_cons]; simp [h1, e1]
    · unfold lookupKid at *; rw [List.find?_cons]; simp [h1, e2]

theorem lookup_others_perm (old : List Node) (key : Key) (hk : (keysL old).Nodup) :
    (idsL old).Perm (idsL (othersOf old key) ++ idsL (lookupKid old key).toList) := by
  induction old with
  | nil => simp [othersOf, lookupKid]
  | cons n ns ih =>
    by_cases h1 : n.key? = some key
    · have hnt : n.isText = false := by cases n <;> simp_all [Node.isText, Node.key?]
      have hkk : key ∉ keysL ns := by
        have : keysL (n :: ns) = key :: keysL ns := by simp [keysL, List.filterMap_cons, h1]
        rw [this] at hk; exact (List.nodup_cons.1 hk).1
      obtain ⟨e1, e2⟩ := othersOf_eq ns key hkk
      have e3 : othersOf (n :: ns) key = ns := by
        unfold othersOf at *; rw [List.filter_cons]; simp [h1, e1]
      have e4 : lookupKid (n :: ns) key = some n := by
        unfold lookupKid; rw [List.find?_cons]; simp [h1, hnt]
      rw [e3, e4]; simpa using List.perm_append_comm
    · have hk' : (keysL ns).Nodup := by
        unfold keysL at *; rw [List.filterMap_cons] at hk
        split at hk
        · exact hk
        · exact (List.nodup_cons.1 hk).2
      have e3 : othersOf (n :: ns) key = n :: othersOf ns key := by
        unfold othersOf at *; rw [List.filter_cons]; simp [h1]
      have e4 : lookupKid (n :: ns) key = lookupKid ns key := by
        unfold lookupKid; rw [List.find?_cons]; simp [h1]
      rw [e3, e4]
      simp only [idsL_cons, List.append_assoc]
      exact List.Perm.append_left _ (ih hk')

theorem keysL_filter (p : Node → Bool) (ns : List Node) (h : (keysL ns).Nodup) :
    (keysL (ns.filter p)).Nodup := by
  refine h.sublist ?_
  unfold keysL
  exact (List.filter_sublist).filterMap _

/-- Old children handed to a call have distinct keys. -/
def KeyPre : Call → Prop
  | .kids _ old _ _ _ => (keysL old).Nodup
  | .loop _ old _ _ _ infos => (keysL old).Nodup ∧ ∀ n ∈ old, ∃ k ∈ infos.map (·.2), n.key? = some k
  | _ => True

theorem keyPre_kept (old : List Node) (infos : List (Raw × Key)) (h : (keysL old).Nodup) :
    (keysL (keptKids old infos)).Nodup ∧
      ∀ n ∈ keptKids old infos, ∃ k ∈ infos.map (·.2), n.key? = some k := by
  refine ⟨keysL_filter _ _ h, fun n hn => ?_⟩
  have := (List.mem_filter.1 hn).2
  simp only [Bool.and_eq_true, List.any_eq_true, decide_eq_true_eq] at this
  obtain ⟨_, i, hi, hk⟩ := this
  exact ⟨i.2, List.mem_map_of_mem hi, hk⟩

theorem keyPre_others (old : List Node) (key : Key) (raw : Raw) (infos : List (Raw × Key))
    (h : (keysL old).Nodup ∧ ∀ n ∈ old, ∃ k ∈ ((raw, key) :: infos).map (·.2), n.key? = some k) :
    (keysL (othersOf old key)).Nodup ∧
      ∀ n ∈ othersOf old key, ∃ k ∈ infos.map (·.2), n.key? = some k := by
  refine ⟨keysL_filter _ _ h.1, fun n hn => ?_⟩
  have hm := List.mem_filter.1 hn
  obtain ⟨k, hk, he⟩ := h.2 n hm.1
  simp only [List.map_cons, List.mem_cons] at hk
  rcases hk with rfl | hk
  · simp [he] at hm
  · exact ⟨k, hk, he⟩

theorem run_post {call} {s s' : St U} {r} (h : Run call s s' r) (hi : Inv s)
    (hn : (idsL call.old).Nodup) (hr : ∀ x ∈ idsL call.old, x ∈ s.reg) (hd : deepL call.old)
    (hk : KeyPre call) : Post (idsL call.old) s s' (idsL r.nodes) := by
  induction h with
  | compUnm hp =>
    obtain ⟨o, rfl, hu, _⟩ := prepareComp_err hp
    exact (unmountAll_spec' hu).post hi hn hr
  | @compRaise top old pos c s s1 id ks s2 e hp hb =>
    obtain ⟨h1, _, h3⟩ := prepareComp_post top hp hi hn hr
    have hid : id ∈ idsL old.toList ∨ s.nextId ≤ id := h3.imp (fun h => h) And.left
    have h2 := runBody_post h1 hid (by simp) hb
    have h4 := Post.orphan (P := [id]) (lost := ks) h2
    have h5 := Post.rendered (c := c) (ctx := (enterComp s1 top id).ctx id) (out := .error e) h4 hid
    simpa [Res.nodes, Call.old] using h5
  | @compOk top old pos c s s1 id ks s2 raw s3 kids hp hb hkids ih =>
    obtain ⟨h1, _, h3⟩ := prepareComp_post top hp hi hn hr
    have hid : id ∈ idsL old.toList ∨ s.nextId ≤ id := h3.imp (fun h => h) And.left
    have h2 := runBody_post h1 hid (by simp) hb
    have hpre := h2.pre (P := [id]) (J := idsL ks) (.refl _)
    have hks : deepL ks ∧ (keysL ks).Nodup := by
      rcases (prepareComp_shape hp).2 with rfl | ⟨p, oc, e, rfl, _⟩
      · simp [keysL]
      · simp [Call.old, deep_comp] at hd; exact ⟨hd.2.2, hd.1⟩
    have h4 := h2.chain (P := [id]) (J := idsL ks) (.refl _) (ih h2.inv hpre.1 hpre.2 hks.1 hks.2)
    have h5 := Post.rendered (c := c) (ctx := (enterComp s1 top id).ctx id) (out := .ok raw) h4 hid
    simpa [Res.nodes, Call.old] using h5
  | @compErr top old pos c s s1 id ks s2 raw s3 e lost hp hb hkids ih =>
    obtain ⟨h1, _, h3⟩ := prepareComp_post top hp hi hn hr
    have hid : id ∈ idsL old.toList ∨ s.nextId ≤ id := h3.imp (fun h => h) And.left
    have h2 := runBody_post h1 hid (by simp) hb
    have hpre := h2.pre (P := [id]) (J := idsL ks) (.refl _)
    have hks : deepL ks ∧ (keysL ks).Nodup := by
      rcases (prepareComp_shape hp).2 with rfl | ⟨p, oc, e, rfl, _⟩
      · simp [keysL]
      · simp [Call.old, deep_comp] at hd; exact ⟨hd.2.2, hd.1⟩
    have h4 := h2.chain (P := [id]) (J := idsL ks) (.refl _) (ih h2.inv hpre.1 hpre.2 hks.1 hks.2)
    have h4' := Post.orphan (P := [id]) (lost := lost) h4
    have h5 := Post.rendered (c := c) (ctx := (enterComp s1 top id).ctx id) (out := .error e) h4' hid
    simpa [Res.nodes, Call.old] using h5
  | @modelPrep top old pos i cs s s1 e lost hp =>
    rcases prepareModel_err hp with ⟨hh, rfl, h | ⟨p, sh, ts, oks, rfl, rfl⟩⟩ | ⟨o, rfl, hu⟩
    · obtain ⟨rfl, rfl⟩ := h
      have := Post.refl hi hn hr
      exact this.congr_right rfl rfl rfl rfl rfl rfl
    · have := Post.refl hi hn hr
      have e : idsL (Call.model top (some (Node.elem p sh ts oks)) pos i cs).old = idsL (oks.getD []) := by
        simp [Call.old, ids_elem]
      have h2 := this.congr_right (t := { s with handlers := hh }) rfl rfl rfl rfl rfl rfl
      rw [e] at h2 ⊢
      exact h2
    · exact (unmountAll_spec' hu).post hi hn hr
  | @modelOk top old pos i cs s s1 tag ks s2 kids hp hkids ih =>
    have h1 := prepareModel_post hp hi hn hr
    have hpre := h1.pre (P := []) (J := idsL ks) (.refl _)
    have hks : deepL ks ∧ (keysL ks).Nodup := by
      rcases (prepareModel_ok hp).2.2 with rfl | ⟨p, sh, ts, oks, rfl, rfl⟩
      · simp [keysL]
      · simp [Call.old, deep_elem] at hd; exact ⟨hd.2.2, hd.1⟩
    have h2 := h1.congr_right (t := { s1 with handlers := addHandlers pos.kpath i.handlers s1.handlers })
      rfl rfl rfl rfl rfl rfl
    have h4 := h2.chain (P := []) (J := idsL ks) (.refl _) (ih h2.inv hpre.1 hpre.2 hks.1 hks.2)
    have : idsL (Res.ok [Node.elem pos (mkShell pos.kpath i tag s1.seqs) (mkTargets pos.kpath i)
        (if cs.isEmpty = true then none else some kids)]).nodes = idsL kids := by
      simp only [Res.nodes, idsL_cons, ids_elem, idsL_nil, List.append_nil]
      split
      · have hcs : cs = [] := by simpa using ‹cs.isEmpty = true›
        subst hcs
        cases hkids with
        | kidsLoop _ _ hl => cases hl; simp
      · rfl
    rw [this]; simpa [Res.nodes, Call.old] using h4
  | @modelErr top old pos i cs s s1 tag ks s2 e lost hp hkids ih =>
    have h1 := prepareModel_post hp hi hn hr
    have hpre := h1.pre (P := []) (J := idsL ks) (.refl _)
    have hks : deepL ks ∧ (keysL ks).Nodup := by
      rcases (prepareModel_ok hp).2.2 with rfl | ⟨p, sh, ts, oks, rfl, rfl⟩
      · simp [keysL]
      · simp [Call.old, deep_elem] at hd; exact ⟨hd.2.2, hd.1⟩
    have h2 := h1.congr_right (t := { s1 with handlers := addHandlers pos.kpath i.handlers s1.handlers })
      rfl rfl rfl rfl rfl rfl
    have h4 := h2.chain (P := []) (J := idsL ks) (.refl _) (ih h2.inv hpre.1 hpre.2 hks.1 hks.2)
    simpa [Res.nodes, Call.old] using h4
  | kidsDup _ => exact Post.refl hi hn hr
  | @kidsUnm top old path kpath raws s s1 r rest hdup hu =>
    have h0 := Post.refl hi hn hr
    have hperm := removed_kept_perm old (childrenInfo 0 raws)
    have hpre := h0.pre hperm
    have h1 := h0.chain hperm ((unmountAll_spec' hu).post hi hpre.1 hpre.2)
    refine h1.perm ?_
    show List.Perm _ (idsL ((r :: rest) ++ keptKids old (childrenInfo 0 raws)))
    rw [idsL_append]; exact List.perm_append_comm
  | @kidsLoop top old path kpath raws s s1 s2 r hdup hu hl ih =>
    have h0 := Post.refl hi hn hr
    have hperm := removed_kept_perm old (childrenInfo 0 raws)
    have hpre := h0.pre hperm
    have h1 := h0.chain hperm ((unmountAll_spec' hu).post hi hpre.1 hpre.2)
    simp only [idsL_nil, List.append_nil] at h1
    have hpre2 := h1.pre (P := []) (J := idsL (keptKids old (childrenInfo 0 raws))) (.refl _)
    have h2 := ih h1.inv hpre2.1 hpre2.2 (deepL_sub (fun n hn => (List.mem_filter.1 hn).1) hd)
      (keyPre_kept _ _ hk)
    simpa using h1.chain (P := []) (.refl _) h2
  | @loopNil top old path kpath idx s =>
    have : old = [] := by
      cases old with
      | nil => rfl
      | cons n ns => obtain ⟨k, hk', _⟩ := hk.2 n (by simp); simp at hk'
    subst this
    exact Post.refl hi hn hr
  | @loopFirst top old path kpath idx raw key infos s s1 e lost hc ih =>
    have h0 := Post.refl hi hn hr
    have hperm := lookup_others_perm old key hk.1
    have hpre := h0.pre hperm
    have hlk : deepL (lookupKid old key).toList := by
      refine deepL_sub (fun n hn => ?_) hd
      simp at hn; exact lookupKid_mem hn
    have h1 := h0.chain hperm (ih hi hpre.1 hpre.2 hlk trivial)
    refine h1.perm ?_
    simp only [Res.nodes, idsL_append]
    exact List.perm_append_comm
  | @loopRest top old path kpath idx raw key infos s s1 new s2 e lost hc hl ih1 ih2 =>
    have h0 := Post.refl hi hn hr
    have hperm := lookup_others_perm old key hk.1
    have hpre := h0.pre hperm
    have hlk : deepL (lookupKid old key).toList := by
      refine deepL_sub (fun n hn => ?_) hd
      simp at hn; exact lookupKid_mem hn
    have h1 := h0.chain hperm (ih1 hi hpre.1 hpre.2 hlk trivial)
    have hpre2 := h1.pre (List.perm_append_comm)
    have h2 := h1.chain (List.perm_append_comm) (ih2 h1.inv hpre2.1 hpre2.2
      (deepL_sub (fun n hn => (List.mem_filter.1 hn).1) hd) (keyPre_others _ _ _ _ hk))
    simpa [Res.nodes] using h2
  | @loopOk top old path kpath idx raw key infos s s1 new s2 news hc hl ih1 ih2 =>
    have h0 := Post.refl hi hn hr
    have hperm := lookup_others_perm old key hk.1
    have hpre := h0.pre hperm
    have hlk : deepL (lookupKid old key).toList := by
      refine deepL_sub (fun n hn => ?_) hd
      simp at hn; exact lookupKid_mem hn
    have h1 := h0.chain hperm (ih1 hi hpre.1 hpre.2 hlk trivial)
    have hpre2 := h1.pre (List.perm_append_comm)
    have h2 := h1.chain (List.perm_append_comm) (ih2 h1.inv hpre2.1 hpre2.2
      (deepL_sub (fun n hn => (List.mem_filter.1 hn).1) hd) (keyPre_others _ _ _ _ hk))
    simpa [Res.nodes] using h2
  | childElem _ ih => exact ih hi hn hr hd trivial
  | childComp _ ih => exact ih hi hn hr hd trivial
  | childText => simpa [Res.nodes, Call.old] using Post.refl (I := []) hi (by simp) (by simp)
  | childTextOld hu =>
    have := (unmountAll_spec' hu).post hi hn hr
    simpa [Res.nodes, Call.old] using this
  | childTextErr hu => exact (unmountAll_spec' hu).post hi hn hr
  | childNone => exact Post.refl hi hn hr

end Verif.Layout
