import Verif.Layout.System
/-! # What a render writes to the observable history (helper lemmas) -/
namespace Verif.Layout
variable {U : User}

theorem bodiesOf_append (a b : List Ev) : bodiesOf (a ++ b) = bodiesOf a ++ bodiesOf b := by
  induction a with
  | nil => rfl
  | cons x xs ih => cases x <;> simp [bodiesOf, ih]
theorem completedOf_append (a b : List Ev) : completedOf (a ++ b) = completedOf a ++ completedOf b := by
  induction a with
  | nil => rfl
  | cons x xs ih => cases x <;> simp [completedOf, ih]
theorem effectsOf_append (a b : List Ev) : effectsOf (a ++ b) = effectsOf a ++ effectsOf b := by
  induction a with
  | nil => rfl
  | cons x xs ih => cases x <;> simp [effectsOf, ih]
theorem mountsOf_append (a b : List Ev) : mountsOf (a ++ b) = mountsOf a ++ mountsOf b := by
  induction a with
  | nil => rfl
  | cons x xs ih => cases x <;> simp [mountsOf, ih]
theorem unmountsOf_append (a b : List Ev) : unmountsOf (a ++ b) = unmountsOf a ++ unmountsOf b := by
  induction a with
  | nil => rfl
  | cons x xs ih => cases x <;> simp [unmountsOf, ih]
theorem Failed.append_left {a b : List Ev} (h : Failed a) : Failed (a ++ b) := by
  obtain ⟨i, c, x, e, h⟩ := h; exact ⟨i, c, x, e, by simp [h]⟩
theorem Failed.append_right {a b : List Ev} (h : Failed b) : Failed (a ++ b) := by
  obtain ⟨i, c, x, e, h⟩ := h; exact ⟨i, c, x, e, by simp [h]⟩

/-! ### Unmounting -/

mutual
theorem unmountNode_log (n : Node) (s : St U) :
    ∃ u : List Nat, (unmountNode n s).1.log = u.map Ev.unmounted ++ s.log := by
  match n with
  | .text _ => exact ⟨[], by simp [unmountNode]⟩
  | .elem p sh ts none =>
    simp only [unmountNode]
    rcases delTargets s.handlers ts with ⟨h, _ | _⟩ <;> exact ⟨[], by simp⟩
  | .elem p sh ts (some ks) =>
    simp only [unmountNode]
    rcases delTargets s.handlers ts with ⟨h, _ | _⟩
    · exact ⟨[], by simp⟩
    · simpa using unmountKids_log ks { s with handlers := h }
  | .comp p id c e ks =>
    simp only [unmountNode]
    split
    · obtain ⟨u, hu⟩ := unmountKids_log ks { s with
        reg := s.reg.erase id, world := U.unmount s.world id, log := .unmounted id :: s.log }
      exact ⟨u ++ [id], by simp [hu]⟩
    · exact ⟨[], by simp⟩
theorem unmountKids_log (ks : List Node) (s : St U) :
    ∃ u : List Nat, (unmountKids ks s).1.log = u.map Ev.unmounted ++ s.log := by
  match ks with
  | [] => exact ⟨[], by simp [unmountKids]⟩
  | k :: ks =>
    simp only [unmountKids]
    obtain ⟨u, hu⟩ := unmountKids_log ks s
    rcases hk : unmountKids ks s with ⟨s', _ | ⟨r, rest⟩⟩
    · rw [hk] at hu
      obtain ⟨v, hv⟩ := unmountNode_log k s'
      exact ⟨v ++ u, by simp only at hu; simp [hv, hu]⟩
    · rw [hk] at hu; exact ⟨u, by simpa using hu⟩
end

theorem unmountAll_log (ks : List Node) (s : St U) :
    ∃ u : List Nat, (unmountAll ks s).1.log = u.map Ev.unmounted ++ s.log := by
  induction ks generalizing s with
  | nil => exact ⟨[], by simp [unmountAll]⟩
  | cons k ks ih =>
    simp only [unmountAll]
    obtain ⟨u, hu⟩ := unmountNode_log k s
    rcases hk : unmountNode k s with ⟨s', _ | ⟨r, rest⟩⟩
    · rw [hk] at hu
      obtain ⟨v, hv⟩ := ih s'
      exact ⟨v ++ u, by simp only at hu; simp [hv, hu]⟩
    · rw [hk] at hu; exact ⟨u, by simpa using hu⟩

/-- A stretch of history in which nothing was rendered. -/
structure Quiet (t : List Ev) : Prop where
  bodies : bodiesOf t = []
  completed : completedOf t = []
  effects : effectsOf t = []
  ok : ¬ Failed t

theorem quiet_unmounts (u : List Nat) : Quiet (u.map Ev.unmounted) := by
  refine ⟨?_, ?_, ?_, ?_⟩
  · induction u <;> simp_all [bodiesOf]
  · induction u <;> simp_all [completedOf]
  · induction u <;> simp_all [effectsOf]
  · rintro ⟨i, c, x, e, h⟩; simp at h

theorem unmountAll_quiet {ks : List Node} {s s' : St U} {rest} (h : unmountAll ks s = (s', rest)) :
    ∃ t, s'.log = t ++ s.log ∧ Quiet t := by
  obtain ⟨u, hu⟩ := unmountAll_log ks s
  rw [h] at hu
  exact ⟨_, hu, quiet_unmounts u⟩

theorem Quiet.mount {t : List Ev} (h : Quiet t) (id : Nat) : Quiet (.mounted id :: t) := by
  obtain ⟨a, b, c, d⟩ := h
  refine ⟨by simpa [bodiesOf], by simpa [completedOf], by simpa [effectsOf], ?_⟩
  rintro ⟨i, c, x, e, h⟩
  simp at h; exact d ⟨i, c, x, e, h⟩

theorem quiet_nil : Quiet [] := ⟨rfl, rfl, rfl, by rintro ⟨_, _, _, _, h⟩; simp at h⟩

theorem prepareComp_quiet {old c} {s s1 : St U} {r} (h : prepareComp old c s = (s1, r)) :
    (∃ t, s1.log = t ++ s.log ∧ Quiet t) ∧ s1.exit = s.exit := by
  unfold prepareComp at h
  split at h
  · simp [allocate] at h; rw [← h.1]; exact ⟨⟨[.mounted _], rfl, quiet_nil.mount _⟩, rfl⟩
  · split at h
    · split at h
      · rename_i hu; simp [allocate] at h; rw [← h.1]
        obtain ⟨t, ht, hq⟩ := unmountAll_quiet hu
        exact ⟨⟨_ :: t, by simp only [ht, List.cons_append]; rfl, hq.mount _⟩, (unmountAll_spec' hu).exit⟩
      · rename_i hu; simp at h; rw [← h.1]
        exact ⟨unmountAll_quiet hu, (unmountAll_spec' hu).exit⟩
    · simp at h; rw [← h.1]; exact ⟨⟨[], rfl, quiet_nil⟩, rfl⟩
  · split at h
    · rename_i hu; simp [allocate] at h; rw [← h.1]
      obtain ⟨t, ht, hq⟩ := unmountAll_quiet hu
      exact ⟨⟨_ :: t, by simp only [ht, List.cons_append]; rfl, hq.mount _⟩, (unmountAll_spec' hu).exit⟩
    · rename_i hu; simp at h; rw [← h.1]
      exact ⟨unmountAll_quiet hu, (unmountAll_spec' hu).exit⟩

theorem prepareModel_quiet {old i} {s s1 : St U} {r} (h : prepareModel old i s = (s1, r)) :
    (∃ t, s1.log = t ++ s.log ∧ Quiet t) ∧ s1.exit = s.exit ∧ s1.orphans = s.orphans := by
  unfold prepareModel at h
  split at h
  · split at h <;> · simp at h; rw [← h.1]; exact ⟨⟨[], rfl, quiet_nil⟩, rfl, rfl⟩
  · split at h
    · simp at h; rw [← h.1]; exact ⟨⟨[], rfl, quiet_nil⟩, rfl, rfl⟩
    · split at h <;> · simp at h; rw [← h.1]; exact ⟨⟨[], rfl, quiet_nil⟩, rfl, rfl⟩
  · split at h
    · rename_i hu
      split at h <;> · simp at h; rw [← h.1]
                       exact ⟨unmountAll_quiet hu, (unmountAll_spec' hu).exit, (unmountAll_spec' hu).orphans⟩
    · rename_i hu; simp at h; rw [← h.1]
      exact ⟨unmountAll_quiet hu, (unmountAll_spec' hu).exit, (unmountAll_spec' hu).orphans⟩

theorem runBody_log {s s2 : St U} {id c r} (h : runBody s id c = (s2, r)) :
    s2.log = s.log ∧ s2.exit = s.exit ∧ s2.nextId = s.nextId := by
  unfold runBody at h
  split at h <;> · simp at h; rw [← h.1]; exact ⟨rfl, rfl, rfl⟩

/-- History and exit stack after a call. -/
structure Trace (I : List Nat) (s s' : St U) (r : Res) (t : List Ev) : Prop where
  log : s'.log = t ++ s.log
  exit : s'.exit = bodiesOf t ++ s.exit
  nodup : (bodiesOf t).Nodup
  sub : ∀ x ∈ bodiesOf t, x ∈ I ∨ s.nextId ≤ x
  lt : ∀ x ∈ bodiesOf t, x < s'.nextId
  effects : effectsOf t = []
  completed : (completedOf t).Perm (bodiesOf t)
  shown : ∀ ns, r = .ok ns → (idsL ns).reverse.Sublist (bodiesOf t)
  good : ¬ Failed t → s'.orphans = s.orphans ∧ ∀ ns, r = .ok ns → bodiesOf t = (idsL ns).reverse

theorem Quiet.trace {I} {s s' : St U} {r} {t : List Ev} (h : Quiet t) (hl : s'.log = t ++ s.log)
    (he : s'.exit = s.exit) (ho : s'.orphans = s.orphans) (hr : ∀ ns, r = .ok ns → idsL ns = []) :
    Trace I s s' r t where
  log := hl
  exit := by simp [h.bodies, he]
  nodup := by simp [h.bodies]
  sub := by simp [h.bodies]
  lt := by simp [h.bodies]
  effects := h.effects
  completed := by simp [h.completed, h.bodies]
  shown := fun ns hn => by simp [hr ns hn]
  good := fun _ => ⟨ho, fun ns hn => by simp [hr ns hn, h.bodies]⟩

/-- A component call, given the trace of its children. -/
theorem comp_trace {top old pos c} {s s1 : St U} {id ks s2 out s3 r t} {s4 : St U} {ns}
    (hp : prepareComp old c s = (s1, .ok (id, ks)))
    (hb : runBody (enterComp s1 top id) id c = (s2, out)) (hi : Inv s)
    (hn : (idsL old.toList).Nodup) (hr : ∀ x ∈ idsL old.toList, x ∈ s.reg)
    (ht : Trace (idsL ks) s2 s3 r t) (hm : s2.nextId ≤ s3.nextId) {ev}
    (hev : ∃ seen o, ev = Ev.rendered id c seen o ∧ ((∃ raw, o = .ok raw) ∨ (∃ e, o = .error e)))
    (hlog : s4.log = ev :: s3.log) (hexit : s4.exit = s3.exit) (hnext : s4.nextId = s3.nextId)
    (hns : ∃ e kids, ns = [.comp pos id c e kids] ∧
      ((e = none ∧ r = .ok kids ∧ s4.orphans = s3.orphans) ∨ (kids = [] ∧ Failed [ev]))) :
    ∃ t', Trace (idsL old.toList) s s4 (.ok ns) t' := by
  obtain ⟨⟨t0, ht0, hq⟩, hex0⟩ := prepareComp_quiet hp
  obtain ⟨h1, _, h3⟩ := prepareComp_post top hp hi hn hr
  have hid : id ∈ idsL old.toList ∨ s.nextId ≤ id := h3.imp (fun h => h) And.left
  have h2 := runBody_post h1 hid (by simp) hb
  obtain ⟨hl2, he2, hn2⟩ := runBody_log hb
  have hlt := h2.lt (x := id) (by simp)
  have hidks : id ∉ idsL ks := by
    obtain ⟨_, _, o, _, n, _, _⟩ := h2
    have := n.sublist (List.sublist_append_left _ _)
    exact (List.nodup_cons.1 this).1
  have hks : ∀ x ∈ idsL ks, x ∈ idsL old.toList ∨ s.nextId ≤ x := fun x hx =>
    (h2.lt (x := x) (by simp [hx])).2.2
  have horph : s2.orphans = s.orphans := by
    rw [runBody_orphans hb]; simp only [enterComp]; exact (prepareComp_shape hp).1
  have hmono := h2.frame.mono
  obtain ⟨seen, o, rfl, ho⟩ := hev
  have hidt : id ∉ bodiesOf t := by
    intro h
    rcases ht.sub id h with h | h
    · exact hidks h
    · omega
  have hbod : bodiesOf (Ev.rendered id c seen o :: t ++ Ev.entered id :: t0) = bodiesOf t ++ [id] := by
    simp [bodiesOf_append, bodiesOf, hq.bodies]
  obtain ⟨e, kids, rfl, hcase⟩ := hns
  refine ⟨.rendered id c seen o :: t ++ .entered id :: t0, ?_⟩
  refine ⟨?_, ?_, ?_, ?_, ?_, ?_, ?_, ?_, ?_⟩
  · rw [hlog, ht.log, hl2]; simp [enterComp, ht0]
  · rw [hexit, ht.exit, he2, hbod]; simp [enterComp, hex0]
  · rw [hbod, List.nodup_append]
    refine ⟨ht.nodup, by simp, ?_⟩
    rintro a ha b hb rfl; simp at hb; subst hb; exact hidt ha
  · rw [hbod]
    intro x hx
    simp at hx
    rcases hx with hx | rfl
    · rcases ht.sub x hx with h | h
      · exact hks x h
      · right; omega
    · exact hid
  · rw [hbod, hnext]
    intro x hx
    simp at hx
    rcases hx with hx | rfl
    · exact ht.lt x hx
    · omega
  · simp [effectsOf_append, effectsOf, ht.effects, hq.effects]
  · rw [hbod]
    simp only [completedOf_append, completedOf, List.cons_append, hq.completed, List.append_nil]
    exact (List.Perm.cons id ht.completed).trans (List.perm_append_singleton id _).symm
  · intro ns hns
    cases hns
    rw [hbod]
    rcases hcase with ⟨_, hk, _⟩ | ⟨rfl, _⟩
    · simp only [idsL_cons, ids_comp, idsL_nil, List.append_nil, List.reverse_cons]
      exact (ht.shown kids hk).append (.refl _)
    · simp
  · intro hnf
    have hnf1 : ¬ Failed [Ev.rendered id c seen o] := fun h => hnf (by
      have := h.append_left (b := t ++ Ev.entered id :: t0); simpa using this)
    have hnf2 : ¬ Failed t := fun h => hnf (by
      have := (h.append_left (b := Ev.entered id :: t0)).append_right (a := [Ev.rendered id c seen o]); simpa using this)
    rcases hcase with ⟨_, hk, hor⟩ | ⟨_, hf⟩
    · have := ht.good hnf2
      refine ⟨by rw [hor, this.1, horph], ?_⟩
      intro ns hns; cases hns
      rw [hbod, this.2 kids hk]; simp
    · exact absurd hf hnf1

theorem Trace.seq {I I1 I2 : List Nat} {s s1 s2 : St U} {new r2 r} {t1 t2 : List Ev}
    (h1 : Trace I1 s s1 (.ok new) t1) (h2 : Trace I2 s1 s2 r2 t2) (hn : I.Nodup)
    (hp : I.Perm (I1 ++ I2)) (hlt : ∀ x ∈ I, x < s.nextId) (hm1 : s.nextId ≤ s1.nextId)
    (hm2 : s1.nextId ≤ s2.nextId)
    (hr : ∀ ns, r = .ok ns → ∃ news, r2 = .ok news ∧ ns = new ++ news) :
    Trace I s s2 r (t2 ++ t1) := by
  have hn' := (hp.nodup_iff).1 hn
  rw [List.nodup_append] at hn'
  have hI2 : ∀ x ∈ I2, x < s.nextId := fun x hx => hlt x (hp.mem_iff.2 (by simp [hx]))
  refine ⟨?_, ?_, ?_, ?_, ?_, ?_, ?_, ?_, ?_⟩
  · rw [h2.log, h1.log]; simp
  · rw [h2.exit, h1.exit, bodiesOf_append]; simp
  · rw [bodiesOf_append, List.nodup_append]
    refine ⟨h2.nodup, h1.nodup, ?_⟩
    rintro a ha b hb rfl
    have hlt1 := h1.lt a hb
    rcases h2.sub a ha with h | h
    · rcases h1.sub a hb with h' | h'
      · exact hn'.2.2 a h' a h rfl
      · have := hI2 a h; omega
    · omega
  · rw [bodiesOf_append]
    intro x hx
    rw [List.mem_append] at hx
    rcases hx with hx | hx
    · rcases h2.sub x hx with h | h
      · exact .inl (hp.mem_iff.2 (by simp [h]))
      · right; omega
    · rcases h1.sub x hx with h | h
      · exact .inl (hp.mem_iff.2 (by simp [h]))
      · right; omega
  · rw [bodiesOf_append]
    intro x hx
    rw [List.mem_append] at hx
    rcases hx with hx | hx
    · exact h2.lt x hx
    · have := h1.lt x hx; omega
  · simp [effectsOf_append, h1.effects, h2.effects]
  · rw [completedOf_append, bodiesOf_append]; exact h2.completed.append h1.completed
  · intro ns hns
    obtain ⟨news, h, rfl⟩ := hr ns hns
    rw [bodiesOf_append, idsL_append, List.reverse_append]
    exact (h2.shown news h).append (h1.shown new rfl)
  · intro hnf
    have g1 := h1.good (fun h => hnf h.append_right)
    have g2 := h2.good (fun h => hnf h.append_left)
    refine ⟨by rw [g2.1, g1.1], ?_⟩
    intro ns hns
    obtain ⟨news, h, rfl⟩ := hr ns hns
    rw [bodiesOf_append, idsL_append, List.reverse_append, g2.2 news h, g1.2 new rfl]

theorem run_trace {call} {s s' : St U} {r} (h : Run call s s' r) (hi : Inv s)
    (hn : (idsL call.old).Nodup) (hr : ∀ x ∈ idsL call.old, x ∈ s.reg) (hd : deepL call.old)
    (hk : KeyPre call) : ∃ t, Trace (idsL call.old) s s' r t := by
  induction h with
  | compUnm hp =>
    obtain ⟨o, rfl, hu, _⟩ := prepareComp_err hp
    obtain ⟨t, ht, hq⟩ := unmountAll_quiet hu
    exact ⟨t, hq.trace ht (unmountAll_spec' hu).exit (unmountAll_spec' hu).orphans (by simp)⟩
  | @compRaise top old pos c s s1 id ks s2 e hp hb =>
    refine comp_trace (pos := pos) hp hb hi hn hr (quiet_nil.trace (s := s2) (s' := s2) (r := .diverge) rfl rfl rfl (by simp))
      (Nat.le_refl _) ⟨_, _, rfl, .inr ⟨e, rfl⟩⟩ rfl rfl rfl ⟨_, _, rfl, .inr ⟨rfl, ⟨_, _, _, e, List.mem_singleton.2 rfl⟩⟩⟩
  | @compOk top old pos c s s1 id ks s2 raw s3 kids hp hb hkids ih =>
    obtain ⟨h1, _, h3⟩ := prepareComp_post top hp hi hn hr
    have hid : id ∈ idsL old.toList ∨ s.nextId ≤ id := h3.imp (fun h => h) And.left
    have h2 := runBody_post h1 hid (by simp) hb
    have hpre := h2.pre (P := [id]) (J := idsL ks) (.refl _)
    have hks : deepL ks ∧ (keysL ks).Nodup := by
      rcases (prepareComp_shape hp).2 with rfl | ⟨p, oc, e, rfl, _⟩
      · simp [keysL]
      · simp [Call.old, deep_comp] at hd; exact ⟨hd.2.2, hd.1⟩
    have hpost := run_post hkids h2.inv hpre.1 hpre.2 hks.1 hks.2
    obtain ⟨t, ht⟩ := ih h2.inv hpre.1 hpre.2 hks.1 hks.2
    exact comp_trace hp hb hi hn hr ht hpost.frame.mono ⟨_, _, rfl, .inl ⟨raw, rfl⟩⟩ rfl rfl rfl
      ⟨_, _, rfl, .inl ⟨rfl, rfl, rfl⟩⟩
  | @compErr top old pos c s s1 id ks s2 raw s3 e lost hp hb hkids ih =>
    obtain ⟨h1, _, h3⟩ := prepareComp_post top hp hi hn hr
    have hid : id ∈ idsL old.toList ∨ s.nextId ≤ id := h3.imp (fun h => h) And.left
    have h2 := runBody_post h1 hid (by simp) hb
    have hpre := h2.pre (P := [id]) (J := idsL ks) (.refl _)
    have hks : deepL ks ∧ (keysL ks).Nodup := by
      rcases (prepareComp_shape hp).2 with rfl | ⟨p, oc, e, rfl, _⟩
      · simp [keysL]
      · simp [Call.old, deep_comp] at hd; exact ⟨hd.2.2, hd.1⟩
    have hpost := run_post hkids h2.inv hpre.1 hpre.2 hks.1 hks.2
    obtain ⟨t, ht⟩ := ih h2.inv hpre.1 hpre.2 hks.1 hks.2
    exact comp_trace hp hb hi hn hr ht hpost.frame.mono ⟨_, _, rfl, .inr ⟨e, rfl⟩⟩ rfl rfl rfl
      ⟨_, _, rfl, .inr ⟨rfl, ⟨_, _, _, e, List.mem_singleton.2 rfl⟩⟩⟩
  | modelPrep hp =>
    obtain ⟨⟨t, ht, hq⟩, he, ho⟩ := prepareModel_quiet hp
    exact ⟨t, hq.trace ht he ho (by simp)⟩
  | @modelOk top old pos i cs s s1 tag ks s2 kids hp hkids ih =>
    have h1 := prepareModel_post hp hi hn hr
    have hpre := h1.pre (P := []) (J := idsL ks) (.refl _)
    obtain ⟨htag, _, hshape⟩ := prepareModel_ok hp
    have hks : deepL ks ∧ (keysL ks).Nodup := by
      rcases hshape with rfl | ⟨p, sh, ts, oks, rfl, rfl⟩
      · simp [keysL]
      · simp [Call.old, deep_elem] at hd; exact ⟨hd.2.2, hd.1⟩
    have h2 := h1.congr_right (t := { s1 with handlers := addHandlers pos.kpath i.handlers s1.handlers })
      rfl rfl rfl rfl rfl rfl
    obtain ⟨t, ht⟩ := ih h2.inv hpre.1 hpre.2 hks.1 hks.2
    obtain ⟨⟨t0, ht0, hq⟩, he, ho⟩ := prepareModel_quiet hp
    have hids : ∀ ns, Res.ok [Node.elem pos (mkShell pos.kpath i tag s1.seqs) (mkTargets pos.kpath i)
        (if cs.isEmpty then none else some kids)] = .ok ns → idsL ns = idsL kids := by
      intro ns hns; cases hns
      by_cases hcs : cs.isEmpty
      · have : cs = [] := by simpa using hcs
        subst this
        have hkn : kids = [] := by
          cases hkids with
          | kidsLoop _ _ hl => simp [childrenInfo] at hl; cases hl; rfl
        simp [hkn, ids_elem]
      · simp [ids_elem, hcs]
    have hbod : bodiesOf (t ++ t0) = bodiesOf t := by simp [bodiesOf_append, hq.bodies]
    refine ⟨t ++ t0, ?_, ?_, ?_, ?_, ?_, ?_, ?_, ?_, ?_⟩
    · rw [ht.log]; simp [ht0]
    · rw [hbod, ht.exit]; simp [he]
    · rw [hbod]; exact ht.nodup
    · rw [hbod]
      intro x hx
      rcases ht.sub x hx with h | h
      · exact (h1.lt (x := x) h).2.2
      · have := h1.frame.mono; simp only at h; right; omega
    · rw [hbod]; exact ht.lt
    · simp [effectsOf_append, ht.effects, hq.effects]
    · rw [hbod]; simpa [completedOf_append, hq.completed] using ht.completed
    · intro ns hns; rw [hbod, hids ns hns]; exact ht.shown kids rfl
    · intro hnf
      have := ht.good (fun h => hnf h.append_left)
      exact ⟨by rw [this.1]; exact ho, fun ns hns => by rw [hbod, hids ns hns]; exact this.2 kids rfl⟩
  | @modelErr top old pos i cs s s1 tag ks s2 e lost hp hkids ih =>
    have h1 := prepareModel_post hp hi hn hr
    have hpre := h1.pre (P := []) (J := idsL ks) (.refl _)
    obtain ⟨htag, _, hshape⟩ := prepareModel_ok hp
    have hks : deepL ks ∧ (keysL ks).Nodup := by
      rcases hshape with rfl | ⟨p, sh, ts, oks, rfl, rfl⟩
      · simp [keysL]
      · simp [Call.old, deep_elem] at hd; exact ⟨hd.2.2, hd.1⟩
    have h2 := h1.congr_right (t := { s1 with handlers := addHandlers pos.kpath i.handlers s1.handlers })
      rfl rfl rfl rfl rfl rfl
    obtain ⟨t, ht⟩ := ih h2.inv hpre.1 hpre.2 hks.1 hks.2
    obtain ⟨⟨t0, ht0, hq⟩, he, ho⟩ := prepareModel_quiet hp
    have hbod : bodiesOf (t ++ t0) = bodiesOf t := by simp [bodiesOf_append, hq.bodies]
    refine ⟨t ++ t0, ?_, ?_, ?_, ?_, ?_, ?_, ?_, ?_, ?_⟩
    · rw [ht.log]; simp [ht0]
    · rw [hbod, ht.exit]; simp [he]
    · rw [hbod]; exact ht.nodup
    · rw [hbod]
      intro x hx
      rcases ht.sub x hx with h | h
      · exact (h1.lt (x := x) h).2.2
      · have := h1.frame.mono; simp only at h; right; omega
    · rw [hbod]; exact ht.lt
    · simp [effectsOf_append, ht.effects, hq.effects]
    · rw [hbod]; simpa [completedOf_append, hq.completed] using ht.completed
    · intro ns hns; cases hns
    · intro hnf
      have := ht.good (fun h => hnf h.append_left)
      exact ⟨by rw [this.1]; exact ho, fun ns hns => by cases hns⟩
  | kidsDup _ => exact ⟨[], quiet_nil.trace rfl rfl rfl (by simp)⟩
  | kidsUnm _ hu =>
    obtain ⟨t, ht, hq⟩ := unmountAll_quiet hu
    exact ⟨t, hq.trace ht (unmountAll_spec' hu).exit (unmountAll_spec' hu).orphans (by simp)⟩
  | @kidsLoop top old path kpath raws s s1 s2 r hdup hu hl ih =>
    have h0 := Post.refl hi hn hr
    have hperm := removed_kept_perm old (childrenInfo 0 raws)
    have hpre := h0.pre hperm
    have hspec := unmountAll_spec' hu
    have h1 := h0.chain hperm (hspec.post hi hpre.1 hpre.2)
    simp only [idsL_nil, List.append_nil] at h1
    have hpre2 := h1.pre (P := []) (J := idsL (keptKids old (childrenInfo 0 raws))) (.refl _)
    obtain ⟨t, ht⟩ := ih h1.inv hpre2.1 hpre2.2 (deepL_sub (fun n hn => (List.mem_filter.1 hn).1) hd)
      (keyPre_kept _ _ hk)
    obtain ⟨t0, ht0, hq⟩ := unmountAll_quiet hu
    have hbod : bodiesOf (t ++ t0) = bodiesOf t := by simp [bodiesOf_append, hq.bodies]
    refine ⟨t ++ t0, ?_, ?_, ?_, ?_, ?_, ?_, ?_, ?_, ?_⟩
    · rw [ht.log]; simp [ht0]
    · rw [hbod, ht.exit, hspec.exit]
    · rw [hbod]; exact ht.nodup
    · rw [hbod]
      intro x hx
      rcases ht.sub x hx with h | h
      · exact .inl ((idsL_filter_sublist _ _).subset h)
      · rw [hspec.nextId] at h; exact .inr h
    · rw [hbod]; exact ht.lt
    · simp [effectsOf_append, ht.effects, hq.effects]
    · rw [hbod]; simpa [completedOf_append, hq.completed] using ht.completed
    · intro ns hns; rw [hbod]; exact ht.shown ns hns
    · intro hnf
      have := ht.good (fun h => hnf h.append_left)
      exact ⟨by rw [this.1, hspec.orphans], fun ns hns => by rw [hbod]; exact this.2 ns hns⟩
  | loopNil => exact ⟨[], quiet_nil.trace rfl rfl rfl (by intro ns h; cases h; rfl)⟩
  | @loopFirst top old path kpath idx raw key infos s s1 e lost hch ih =>
    have h0 := Post.refl hi hn hr
    have hperm := lookup_others_perm old key hk.1
    have hpre := h0.pre hperm
    have hlk : deepL (lookupKid old key).toList := by
      refine deepL_sub (fun n hn => ?_) hd
      simp at hn; exact lookupKid_mem hn
    obtain ⟨t, ht⟩ := ih hi hpre.1 hpre.2 hlk trivial
    refine ⟨t, ht.log, ht.exit, ht.nodup, ?_, ht.lt, ht.effects, ht.completed, by simp, fun h => ⟨(ht.good h).1, by simp⟩⟩
    intro x hx
    refine (ht.sub x hx).imp_left (fun h => (hperm.mem_iff).2 ?_)
    simp only [List.mem_append]
    exact .inr h
  | @loopRest top old path kpath idx raw key infos s s1 new s2 e lost hch hl ih1 ih2 =>
    have h0 := Post.refl hi hn hr
    have hperm := lookup_others_perm old key hk.1
    have hpre := h0.pre hperm
    have hlk : deepL (lookupKid old key).toList := by
      refine deepL_sub (fun n hn => ?_) hd
      simp at hn; exact lookupKid_mem hn
    have hc1 := run_post hch hi hpre.1 hpre.2 hlk trivial
    have h1 := h0.chain hperm hc1
    have hpre2 := h1.pre (List.perm_append_comm)
    have hd2 := deepL_sub (a := othersOf old key) (b := old) (fun n hn => (List.mem_filter.1 hn).1) hd
    have hk2 : KeyPre (.loop top (othersOf old key) path kpath (idx + 1) infos) := keyPre_others _ _ _ _ hk
    have hc2 := run_post hl h1.inv hpre2.1 hpre2.2 hd2 hk2
    obtain ⟨t1, ht1⟩ := ih1 hi hpre.1 hpre.2 hlk trivial
    obtain ⟨t2, ht2⟩ := ih2 h1.inv hpre2.1 hpre2.2 hd2 hk2
    exact ⟨_, Trace.seq ht1 ht2 hn (hperm.trans List.perm_append_comm) (fun x hx => hi.lt x (hr x hx)) hc1.frame.mono hc2.frame.mono
      (by simp)⟩
  | @loopOk top old path kpath idx raw key infos s s1 new s2 news hch hl ih1 ih2 =>
    have h0 := Post.refl hi hn hr
    have hperm := lookup_others_perm old key hk.1
    have hpre := h0.pre hperm
    have hlk : deepL (lookupKid old key).toList := by
      refine deepL_sub (fun n hn => ?_) hd
      simp at hn; exact lookupKid_mem hn
    have hc1 := run_post hch hi hpre.1 hpre.2 hlk trivial
    have h1 := h0.chain hperm hc1
    have hpre2 := h1.pre (List.perm_append_comm)
    have hd2 := deepL_sub (a := othersOf old key) (b := old) (fun n hn => (List.mem_filter.1 hn).1) hd
    have hk2 : KeyPre (.loop top (othersOf old key) path kpath (idx + 1) infos) := keyPre_others _ _ _ _ hk
    have hc2 := run_post hl h1.inv hpre2.1 hpre2.2 hd2 hk2
    obtain ⟨t1, ht1⟩ := ih1 hi hpre.1 hpre.2 hlk trivial
    obtain ⟨t2, ht2⟩ := ih2 h1.inv hpre2.1 hpre2.2 hd2 hk2
    exact ⟨_, Trace.seq ht1 ht2 hn (hperm.trans List.perm_append_comm) (fun x hx => hi.lt x (hr x hx)) hc1.frame.mono hc2.frame.mono
      (by intro ns h; cases h; exact ⟨_, rfl, rfl⟩)⟩
  | childElem hm ih => exact ih hi hn hr hd trivial
  | childComp hm ih => exact ih hi hn hr hd trivial
  | childText => exact ⟨[], quiet_nil.trace rfl rfl rfl (by intro ns h; cases h; simp)⟩
  | childTextOld hu =>
    obtain ⟨t, ht, hq⟩ := unmountAll_quiet hu
    exact ⟨t, hq.trace ht (unmountAll_spec' hu).exit (unmountAll_spec' hu).orphans
      (by intro ns h; cases h; simp)⟩
  | childTextErr hu =>
    obtain ⟨t, ht, hq⟩ := unmountAll_quiet hu
    exact ⟨t, hq.trace ht (unmountAll_spec' hu).exit (unmountAll_spec' hu).orphans (by simp)⟩
  | childNone => exact ⟨[], quiet_nil.trace rfl rfl rfl (by simp)⟩

end Verif.Layout
