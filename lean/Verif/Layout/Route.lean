import Verif.Layout.Hand
/-! # The renderer keeps the handler table consistent (helper lemmas) -/
namespace Verif.Layout
variable {U : User}

theorem runBody_hand {s s2 : St U} {id c r} (h : runBody s id c = (s2, r)) :
    s2.handlers = s.handlers ∧ s2.log = s.log ∧
    (∀ raw, r = .ok raw → Returned U id c (s.ctx id) raw) ∧
    (∀ e, r = .error e → RaisedIn U id c (s.ctx id) e) := by
  unfold runBody at h
  unfold Returned RaisedIn
  split at h
  · rename_i hc
    simp at h
    obtain ⟨rfl, rfl⟩ := h
    refine ⟨rfl, rfl, ?_, ?_⟩ <;> intro x hx <;> rw [hc] <;> simp at hx ⊢
    exact hx.symm
  · rename_i hc
    simp at h
    obtain ⟨rfl, rfl⟩ := h
    refine ⟨rfl, rfl, ?_, ?_⟩ <;> intro x hx <;> rw [hc] <;> exact ⟨_, hx⟩

theorem Returned.plain (hU : U.Plain) {id c seen raw} (h : Returned U id c seen raw) : raw.Plain := by
  unfold Returned at h
  split at h
  · obtain ⟨w, hw⟩ := h; exact hU.render w id c seen raw hw
  · subst h
    simp [Raw.Plain, Raw.explicitKey, hU.provided]

theorem LogOK.cons {l : List Ev} (h : LogOK U l) {id c seen out}
    (hn : match out with
      | .ok raw => Returned U id c seen raw ∧ ¬ raw.Malformed
      | .error e => RaisedIn U id c seen e ∨
        ∃ raw, Returned U id c seen raw ∧ raw.Malformed ∧ e = "ValueError") :
    LogOK U (.rendered id c seen out :: l) := by
  intro i d s o hm
  simp only [List.mem_cons, Ev.rendered.injEq] at hm
  rcases hm with ⟨rfl, rfl, rfl, rfl⟩ | hm
  · exact hn
  · exact h i d s o hm

theorem LogOK.skip {l : List Ev} (h : LogOK U l) {e : Ev} (hn : ∀ id c seen out, e ≠ .rendered id c seen out) :
    LogOK U (e :: l) := by
  intro i d s o hm
  simp only [List.mem_cons] at hm
  rcases hm with hm | hm
  · exact absurd hm.symm (hn _ _ _ _)
  · exact h i d s o hm

theorem not_failed_suffix {a b : List Ev} (h : ¬ Failed (a ++ b)) : ¬ Failed b := fun hf => h hf.append_right

theorem kids_scope_up {top old path K raws t} (h : (Call.kids top old path K raws).scope t) : Scope K t := by
  obtain ⟨k, hk, hs⟩ := h; exact hs.up hk

/-- The common part of all component cases. -/
theorem comp_pre {top old pos c} {s s1 : St U} {id ks s2 out} (hU : U.Plain)
    (hp : prepareComp old c s = (s1, .ok (id, ks)))
    (hb : runBody (enterComp s1 top id) id c = (s2, out)) (hi : Inv s)
    (hn : (idsL old.toList).Nodup) (hr : ∀ x ∈ idsL old.toList, x ∈ s.reg) (hd : deepL old.toList)
    (hpre : HPre (.comp top old pos c) s) :
    DictOK s2.handlers ∧
    (∀ t, ¬ Scope pos.kpath t → dictGet s2.handlers t = dictGet s.handlers t) ∧
    (Exact (Scope pos.kpath) s.handlers old.toList → Exact (Scope pos.kpath) s2.handlers ks) ∧
    (LogOK U s.log → LogOK U s2.log) ∧
    (∀ raw, out = .ok raw → Returned U id c ((enterComp s1 top id).ctx id) raw ∧
      HPre (.kids (some id) ks pos.path pos.kpath [raw]) s2) ∧
    (∀ e, out = .error e → RaisedIn U id c ((enterComp s1 top id).ctx id) e) := by
  obtain ⟨id', ks', he, h1, h2, h3, h4, h5, h6, h7⟩ := prepareComp_hand (top := top) (pos := pos) hp hi hn hr hd hpre
  cases he
  obtain ⟨b1, b2, b3, b4⟩ := runBody_hand hb
  have hh : s2.handlers = s1.handlers := by rw [b1]; rfl
  have hl : s2.log = .entered id :: s1.log := by rw [b2]; rfl
  refine ⟨by rw [hh]; exact h1, by rw [hh]; exact h5, by rw [hh]; exact h6, ?_, ?_, b4⟩
  · intro h; rw [hl]; exact (h7 h).skip (by simp)
  · intro raw ho
    have hret := b3 raw ho
    refine ⟨hret, ⟨?_, h4, h3, by rw [hh]; exact h2, by rw [hh]; exact h1⟩⟩
    exact ⟨hpre.plain, by simp [plainL, hret.plain hU]⟩

theorem lookupKid_unique {ks : List Node} {key n} (h : (keysL ks).Nodup) (hn : n ∈ ks)
    (hT : n.isText = false) (hk : n.key? = some key) : lookupKid ks key = some n := by
  induction ks with
  | nil => simp at hn
  | cons a ks ih =>
    simp only [lookupKid, List.find?_cons]
    by_cases ha : (!a.isText && decide (a.key? = some key)) = true
    · rw [ha]
      simp only [Bool.and_eq_true, decide_eq_true_eq] at ha
      simp only [List.mem_cons] at hn
      rcases hn with rfl | hn
      · rfl
      · exfalso
        simp only [keysL, List.filterMap_cons, ha.2, List.nodup_cons] at h
        exact h.1 (List.mem_filterMap.2 ⟨n, hn, hk⟩)
    · simp only [Bool.not_eq_true] at ha
      rw [ha]
      simp only [List.mem_cons] at hn
      rcases hn with rfl | hn
      · simp [hT, hk] at ha
      · refine ih ?_ hn
        simp only [keysL, List.filterMap_cons] at h
        split at h
        · exact h
        · exact (List.nodup_cons.1 h).2

theorem run_hand (hU : U.Plain) {call} {s s' : St U} {r} (h : Run call s s' r) (hi : Inv s)
    (hn : (idsL call.old).Nodup) (hr : ∀ x ∈ idsL call.old, x ∈ s.reg) (hd : deepL call.old)
    (hk : KeyPre call) (hp : HPre call s) : HPost call s s' r := by
  induction h with
  | compUnm hpc =>
    obtain ⟨_, _, he, _⟩ := prepareComp_hand hpc hi hn hr hd hp
    simp at he
  | @compRaise top old pos c s s1 id ks s2 e hpc hb =>
    obtain ⟨h1, h2, h3, h4, _, h6⟩ := comp_pre hU hpc hb hi hn hr hd hp
    refine ⟨.compRaise hpc hb, h1, h2, ?_, by simp, ?_, ?_⟩
    · intro ns hns; cases hns
      exact ⟨by simp [HOK, tgtsL, Node.tgts], by simp only [canonL, Node.canon, and_true]; exact hp.plain, by simp [Call.bad]⟩
    · intro hf; exact absurd ⟨_, _, _, e, List.mem_cons_self⟩ hf
    · intro hl; exact (h4 hl).cons (.inl (h6 e rfl))
  | @compOk top old pos c s s1 id ks s2 raw s3 kids hpc hb hkids ih =>
    obtain ⟨h1, h2, h3, h4, h5, _⟩ := comp_pre hU hpc hb hi hn hr hd hp
    obtain ⟨hret, hkp⟩ := h5 raw rfl
    obtain ⟨q1, _, q3⟩ := prepareComp_post top hpc hi hn hr
    have hid : id ∈ idsL old.toList ∨ s.nextId ≤ id := q3.imp (fun h => h) And.left
    have q2 := runBody_post q1 hid (by simp) hb
    have hpre := q2.pre (P := [id]) (J := idsL ks) (.refl _)
    have hks : deepL ks ∧ (keysL ks).Nodup := by
      rcases (prepareComp_shape hpc).2 with rfl | ⟨p, oc, e, rfl, _⟩
      · simp [keysL]
      · simp [Call.old, deep_comp] at hd; exact ⟨hd.2.2, hd.1⟩
    have hkid := ih q2.inv hpre.1 hpre.2 hks.1 hks.2 hkp
    obtain ⟨o1, o2, o3⟩ := hkid.ok kids rfl
    have hraw : ¬ raw.Malformed := fun h => o3 (by
      simp only [Call.bad, malformedL]; exact .inr (.inl h))
    refine ⟨.compOk hpc hb hkid.clean, hkid.dict, ?_, ?_, by simp, ?_, ?_⟩
    · intro t ht
      show dictGet s3.handlers t = _
      rw [hkid.frame t (fun h => ht (kids_scope_up h)), h2 t ht]
    · intro ns hns; cases hns
      refine ⟨?_, by simp only [canonL, Node.canon, and_true]; exact ⟨hp.plain, o2⟩, by simp [Call.bad]⟩
      intro q hq; exact o1 q (by simpa [tgtsL, Node.tgts] using hq)
    · intro hf hex ns hns; cases hns
      have hf' : ¬ Failed s3.log := not_failed_suffix (a := [_]) hf
      have e1 := h3 hex
      have e2 := hkid.exact hf' (fun t ht hg => e1 t (kids_scope_up ht) hg) kids rfl
      intro t ht hg
      rw [tnames_comp]
      by_cases hsc : (Call.kids (some id) ks pos.path pos.kpath [raw]).scope t
      · exact e2 t hsc hg
      · exfalso
        have hg' : dictGet s3.handlers t ≠ none := hg
        rw [hkid.frame t hsc] at hg'
        have := e1 t ht hg'
        obtain ⟨k, _, hk, hs⟩ := list_scope ks hks.1 hkp.canon pos.kpath hkp.placed t this
        exact hsc ⟨k, hk, hs⟩
    · intro hl; exact (hkid.log (h4 hl)).cons ⟨hret, hraw⟩
  | @compErr top old pos c s s1 id ks s2 raw s3 e lost hpc hb hkids ih =>
    obtain ⟨h1, h2, h3, h4, h5, _⟩ := comp_pre hU hpc hb hi hn hr hd hp
    obtain ⟨hret, hkp⟩ := h5 raw rfl
    obtain ⟨q1, _, q3⟩ := prepareComp_post top hpc hi hn hr
    have hid : id ∈ idsL old.toList ∨ s.nextId ≤ id := q3.imp (fun h => h) And.left
    have q2 := runBody_post q1 hid (by simp) hb
    have hpre := q2.pre (P := [id]) (J := idsL ks) (.refl _)
    have hks : deepL ks ∧ (keysL ks).Nodup := by
      rcases (prepareComp_shape hpc).2 with rfl | ⟨p, oc, e, rfl, _⟩
      · simp [keysL]
      · simp [Call.old, deep_comp] at hd; exact ⟨hd.2.2, hd.1⟩
    have hkid := ih q2.inv hpre.1 hpre.2 hks.1 hks.2 hkp
    obtain ⟨hbad, he⟩ := hkid.err e lost rfl
    have hraw : raw.Malformed := by
      simp only [Call.bad, malformedL, or_false] at hbad
      rcases hbad with h | h
      · exact absurd (by cases raw <;> simp [keyed, Raw.isNone]) h
      · exact h
    refine ⟨.compErr hpc hb hkid.clean ⟨hraw, he⟩, hkid.dict, ?_, ?_, by simp, ?_, ?_⟩
    · intro t ht
      show dictGet s3.handlers t = _
      rw [hkid.frame t (fun h => ht (kids_scope_up h)), h2 t ht]
    · intro ns hns; cases hns
      exact ⟨by simp [HOK, tgtsL, Node.tgts], by simp only [canonL, Node.canon, and_true]; exact hp.plain, by simp [Call.bad]⟩
    · intro hf; exact absurd ⟨_, _, _, e, List.mem_cons_self⟩ hf
    · intro hl; exact (hkid.log (h4 hl)).cons (.inr ⟨raw, hret, hraw, he⟩)
  | @modelPrep top old pos i cs s s1 e lost hpm =>
    obtain ⟨h1, h2, h3, h4⟩ := prepareModel_hand hpm hi hn hr hd hp
    rcases h4 with ⟨l, he, ht⟩ | ⟨_, _, he, _⟩
    · cases he
      exact ⟨.modelPrep hpm, h1, h2, by simp, by intro e l h; cases h; exact ⟨by simp [Call.bad, Raw.Malformed, ht], rfl⟩,
        by simp, h3⟩
    · simp at he
  | @modelOk top old pos i cs s s1 tag ks s2 kids hpm hkids ih =>
    obtain ⟨h1, h2, h3, h4⟩ := prepareModel_hand hpm hi hn hr hd hp
    rcases h4 with ⟨l, he, _⟩ | ⟨_, _, he, ht, a1, a2, a3, a4⟩
    · simp at he
    cases he
    have hpl := hp.plain
    simp only [Call.plain, Raw.Plain] at hpl
    obtain ⟨hK, _, hnm, htg, hcs⟩ := hpl
    have q1 := prepareModel_post hpm hi hn hr
    have hpre := q1.pre (P := []) (J := idsL ks) (.refl _)
    obtain ⟨htag, _, hshape⟩ := prepareModel_ok hpm
    have hks : deepL ks ∧ (keysL ks).Nodup := by
      rcases hshape with rfl | ⟨p, sh, ts, oks, rfl, rfl⟩
      · simp [keysL]
      · simp [Call.old, deep_elem] at hd; exact ⟨hd.2.2, hd.1⟩
    have q2 := q1.congr_right (t := { s1 with handlers := addHandlers pos.kpath i.handlers s1.handlers })
      rfl rfl rfl rfl rfl rfl
    have hks_scope := list_scope ks hks.1 a2 pos.kpath a3
    have hoth : ∀ t k, k.Plain → Scope (pos.kpath ++ [k]) t →
        dictGet (addHandlers pos.kpath i.handlers s1.handlers) t = dictGet s1.handlers t := by
      intro t k hk hs
      refine addHandlers_other _ _ _ htg ?_
      rintro p _ rfl
      exact scope_not_self hK hk hs
    have hkp : HPre (.kids top ks pos.path pos.kpath cs)
        { s1 with handlers := addHandlers pos.kpath i.handlers s1.handlers } := by
      refine ⟨⟨hK, hcs⟩, a3, a2, ?_, addHandlers_dict _ _ h1⟩
      refine HOK.congr (h := s1.handlers) a1 (fun t ht => ?_)
      obtain ⟨k, _, hk, hs⟩ := hks_scope t ht
      exact hoth t k hk hs
    have hkid := ih q2.inv hpre.1 hpre.2 hks.1 hks.2 hkp
    obtain ⟨o1, o2, o3⟩ := hkid.ok kids rfl
    have hself : ∀ ev, ¬ (Call.kids top ks pos.path pos.kpath cs).scope (autoTarget pos.kpath ev) := by
      rintro ev ⟨k, hk, hs⟩; exact scope_not_self hK hk hs
    have htn : ∀ x ∈ mkTargets pos.kpath i, x.2.1 = autoTarget pos.kpath x.1 ∧ (x.1, x.2.2) ∈ i.handlers := by
      intro x hx
      simp only [mkTargets, List.mem_map] at hx
      obtain ⟨p, hp', rfl⟩ := hx
      simp [targetOf, htg p hp', hp']
    have hkidsD : (if cs.isEmpty then none else some kids).getD [] = kids := by
      by_cases hc : cs.isEmpty
      · have : cs = [] := by simpa using hc
        subst this
        have hkn : kids = [] := by
          cases hkids with
          | kidsLoop _ _ hl => simp [childrenInfo] at hl; cases hl; rfl
        simp [hkn]
      · simp [hc]
    refine ⟨.modelOk hpm hkid.clean, hkid.dict, ?_, ?_, by simp, ?_, fun hl => hkid.log (h3 hl)⟩
    · intro t ht'
      rw [hkid.frame t (fun h => ht' (kids_scope_up h))]
      show dictGet (addHandlers pos.kpath i.handlers s1.handlers) t = _
      rw [addHandlers_other _ _ _ htg (by rintro p _ rfl; exact ht' (scope_self _ _)), h2 t ht']
    · intro ns hns; cases hns
      refine ⟨?_, ?_, ?_⟩
      · intro q hq
        simp only [tgtsL, tgts_elem, List.append_nil, List.mem_append, hkidsD] at hq
        rcases hq with hq | hq
        · rw [List.mem_map] at hq
          obtain ⟨x, hx, rfl⟩ := hq
          obtain ⟨e1, e2⟩ := htn x hx
          rw [e1, hkid.frame _ (hself _)]
          exact addHandlers_get pos.kpath hK i.handlers s1.handlers htg hnm e2
        · exact o1 q hq
      · simp only [canonL, and_true]
        rw [canon_elem, hkidsD]
        refine ⟨⟨hK, ?_, fun x hx => (htn x hx).1⟩, o2⟩
        have : (mkTargets pos.kpath i).map (·.1) = i.handlers.map (·.1) := by
          simp [mkTargets, List.map_map, Function.comp_def]
        rw [this]; exact hnm
      · simp only [Call.bad, Raw.Malformed]
        rintro (h | h | h)
        · rw [ht] at h; simp at h
        · exact o3 (.inl h)
        · exact o3 (.inr h)
    · intro hf hex ns hns; cases hns
      intro t hsc hg
      rw [tnames_elem, hkidsD, List.mem_append]
      by_cases hsk : (Call.kids top ks pos.path pos.kpath cs).scope t
      · right
        refine hkid.exact hf ?_ kids rfl t hsk hg
        intro u hu hgu
        obtain ⟨k, hk, hs⟩ := hu
        have hgu : dictGet (addHandlers pos.kpath i.handlers s1.handlers) u ≠ none := hgu
        rw [hoth u k hk hs] at hgu
        rcases a4 hex u (hs.up hk) hgu with h | ⟨p, _, rfl⟩
        · exact h
        · exact absurd hs (fun h => scope_not_self hK hk h)
      · left
        rw [hkid.frame t hsk] at hg
        have hg : dictGet (addHandlers pos.kpath i.handlers s1.handlers) t ≠ none := hg
        have : ∃ p ∈ i.handlers, t = autoTarget pos.kpath p.1 := by
          by_cases hex' : ∃ p ∈ i.handlers, t = autoTarget pos.kpath p.1
          · exact hex'
          · rw [addHandlers_other _ _ _ htg (fun p hp he => hex' ⟨p, hp, he⟩)] at hg
            rcases a4 hex t hsc hg with h | h
            · obtain ⟨k, _, hk, hs⟩ := hks_scope t h
              exact absurd ⟨k, hk, hs⟩ hsk
            · exact h
        obtain ⟨p, hp', rfl⟩ := this
        rw [List.mem_map]
        refine ⟨(p.1, targetOf pos.kpath p.1 p.2, p.2), ?_, ?_⟩
        · simp only [mkTargets, List.mem_map]; exact ⟨p, hp', rfl⟩
        · simp [targetOf, htg p hp']
  | @modelErr top old pos i cs s s1 tag ks s2 e lost hpm hkids ih =>
    obtain ⟨h1, h2, h3, h4⟩ := prepareModel_hand hpm hi hn hr hd hp
    rcases h4 with ⟨l, he, _⟩ | ⟨_, _, he, ht, a1, a2, a3, a4⟩
    · simp at he
    cases he
    have hpl := hp.plain
    simp only [Call.plain, Raw.Plain] at hpl
    obtain ⟨hK, _, hnm, htg, hcs⟩ := hpl
    have q1 := prepareModel_post hpm hi hn hr
    have hpre := q1.pre (P := []) (J := idsL ks) (.refl _)
    obtain ⟨htag, _, hshape⟩ := prepareModel_ok hpm
    have hks : deepL ks ∧ (keysL ks).Nodup := by
      rcases hshape with rfl | ⟨p, sh, ts, oks, rfl, rfl⟩
      · simp [keysL]
      · simp [Call.old, deep_elem] at hd; exact ⟨hd.2.2, hd.1⟩
    have q2 := q1.congr_right (t := { s1 with handlers := addHandlers pos.kpath i.handlers s1.handlers })
      rfl rfl rfl rfl rfl rfl
    have hks_scope := list_scope ks hks.1 a2 pos.kpath a3
    have hoth : ∀ t k, k.Plain → Scope (pos.kpath ++ [k]) t →
        dictGet (addHandlers pos.kpath i.handlers s1.handlers) t = dictGet s1.handlers t := by
      intro t k hk hs
      refine addHandlers_other _ _ _ htg ?_
      rintro p _ rfl
      exact scope_not_self hK hk hs
    have hkp : HPre (.kids top ks pos.path pos.kpath cs)
        { s1 with handlers := addHandlers pos.kpath i.handlers s1.handlers } := by
      refine ⟨⟨hK, hcs⟩, a3, a2, ?_, addHandlers_dict _ _ h1⟩
      refine HOK.congr (h := s1.handlers) a1 (fun t ht => ?_)
      obtain ⟨k, _, hk, hs⟩ := hks_scope t ht
      exact hoth t k hk hs
    have hkid := ih q2.inv hpre.1 hpre.2 hks.1 hks.2 hkp
    refine ⟨.modelErr hpm hkid.clean, hkid.dict, ?_, by simp, ?_, by simp, fun hl => hkid.log (h3 hl)⟩
    · intro t ht'
      rw [hkid.frame t (fun h => ht' (kids_scope_up h))]
      show dictGet (addHandlers pos.kpath i.handlers s1.handlers) t = _
      rw [addHandlers_other _ _ _ htg (by rintro p _ rfl; exact ht' (scope_self _ _)), h2 t ht']
    · intro e l h; cases h
      obtain ⟨hb, he⟩ := hkid.err e lost rfl
      exact ⟨by simp only [Call.bad, Raw.Malformed] at hb ⊢; exact .inr hb, he⟩
  | kidsDup hdup =>
    exact ⟨.kidsDup hdup, hp.dict, fun _ _ => rfl, by simp, by
      intro e l h; cases h; exact ⟨.inl ((hasDup_iff _).1 hdup), rfl⟩, by simp, fun h => h⟩
  | @kidsUnm top old path K raws s s1 r rest hdup hu =>
    exfalso
    have hsub : ∀ n ∈ removedKids old (childrenInfo 0 raws), n ∈ old := fun n hn => (List.mem_filter.1 hn).1
    have hids : (idsL (removedKids old (childrenInfo 0 raws))).Sublist (idsL old) := idsL_filter_sublist _ _
    obtain ⟨s', h1, _⟩ := unmountAll_hand (removedKids old (childrenInfo 0 raws)) s (deepL_sub hsub hd)
      (canonL_sub hsub hp.canon)
      (list_nodup _ (deepL_sub hsub hd) (canonL_sub hsub hp.canon) K hp.plain.1 (AtKeys.sub hsub hp.placed)
        (keysL_filter _ _ hk)) (hn.sublist hids) (fun x hx => hr x (hids.subset hx)) hi.nodup
      (hp.hok.sub hsub) hp.dict
    rw [h1] at hu
    simp at hu
  | @kidsLoop top old path K raws s s1 s2 r hdup hu hl ih =>
    have hsub : ∀ n ∈ removedKids old (childrenInfo 0 raws), n ∈ old := fun n hn => (List.mem_filter.1 hn).1
    have hsubk : ∀ n ∈ keptKids old (childrenInfo 0 raws), n ∈ old := fun n hn => (List.mem_filter.1 hn).1
    have hids : (idsL (removedKids old (childrenInfo 0 raws))).Sublist (idsL old) := idsL_filter_sublist _ _
    have hdR := deepL_sub hsub hd
    have hcR := canonL_sub hsub hp.canon
    have hdK := deepL_sub hsubk hd
    have hcK := canonL_sub hsubk hp.canon
    have haR := AtKeys.sub hsub hp.placed
    have haK := AtKeys.sub hsubk hp.placed
    have hK := hp.plain.1
    obtain ⟨s', h1, h2⟩ := unmountAll_hand (removedKids old (childrenInfo 0 raws)) s hdR hcR
      (list_nodup _ hdR hcR K hK haR (keysL_filter _ _ hk)) (hn.sublist hids)
      (fun x hx => hr x (hids.subset hx)) hi.nodup (hp.hok.sub hsub) hp.dict
    have : s' = s1 := by rw [h1] at hu; simpa using hu
    subst this
    have q0 := Post.refl hi hn hr
    have hperm := removed_kept_perm old (childrenInfo 0 raws)
    have hpre := q0.pre hperm
    have hspec := unmountAll_spec' hu
    have q1 := q0.chain hperm (hspec.post hi hpre.1 hpre.2)
    simp only [idsL_nil, List.append_nil] at q1
    have hpre2 := q1.pre (P := []) (J := idsL (keptKids old (childrenInfo 0 raws))) (.refl _)
    have hkeyK : ∀ n ∈ keptKids old (childrenInfo 0 raws), ∀ k, n.key? = some k →
        k ∈ (childrenInfo 0 raws).map (·.2) := by
      intro n hn k hk'
      obtain ⟨k', hk1, hk2⟩ := (keyPre_kept old (childrenInfo 0 raws) hk).2 n hn
      rw [hk'] at hk2; cases hk2; exact hk1
    have hscK : ∀ t ∈ tnames (keptKids old (childrenInfo 0 raws)),
        ∃ k ∈ (childrenInfo 0 raws).map (·.2), k.Plain ∧ Scope (K ++ [k]) t := by
      intro t ht
      obtain ⟨k, e1, e2, e3⟩ := list_scope _ hdK hcK K haK t ht
      refine ⟨k, ?_, e2, e3⟩
      simp only [keysL, List.mem_filterMap] at e1
      obtain ⟨n, hn, he⟩ := e1
      exact hkeyK n hn k he
    have hdisj : ∀ t ∈ tnames (keptKids old (childrenInfo 0 raws)),
        t ∉ tnames (removedKids old (childrenInfo 0 raws)) := by
      intro t ht hR
      obtain ⟨k, e1, e2, e3⟩ := hscK t ht
      obtain ⟨k', f1, f2, f3⟩ := list_scope _ hdR hcR K haR t hR
      have : k = k' := scope_disj hK e2 f2 e3 f3
      subst this
      simp only [keysL, List.mem_filterMap] at f1
      obtain ⟨n, hn, he⟩ := f1
      have h3 := (List.mem_filter.1 hn).2
      simp only [he, Bool.and_eq_true, Bool.not_eq_true', List.any_eq_false] at h3
      rw [List.mem_map] at e1
      obtain ⟨p, hp', rfl⟩ := e1
      exact h3.2 p hp' (by simp)
    have hnd : ((childrenInfo 0 raws).map (·.2)).Nodup := by simpa [hasDupKeys] using hdup
    have hlp : HPre (.loop top (keptKids old (childrenInfo 0 raws)) path K 0 (childrenInfo 0 raws)) s' :=
      ⟨⟨hK, childrenInfo_plain hp.plain.2 0, hnd⟩, haK, hcK, (hp.hok.sub hsubk).del h2 hdisj, h2.ok⟩
    have hloop := ih q1.inv hpre2.1 hpre2.2 hdK (keyPre_kept _ _ hk) hlp
    have hplk : ∀ k ∈ (childrenInfo 0 raws).map (·.2), k.Plain := by
      intro k hk'; rw [List.mem_map] at hk'
      obtain ⟨p, hp', rfl⟩ := hk'
      exact (childrenInfo_plain hp.plain.2 0 p hp').2.1
    have hup : ∀ t, (Call.loop top (keptKids old (childrenInfo 0 raws)) path K 0 (childrenInfo 0 raws)).scope t →
        (Call.kids top old path K raws).scope t := by
      rintro t ⟨k, h3, h4⟩; exact ⟨k, hplk k h3, h4⟩
    have hlogU : LogOK U s.log → LogOK U s'.log := by
      obtain ⟨t, ht, hq⟩ := unmountAll_quiet hu
      intro hl; rw [ht]; exact hl.quiet hq
    refine ⟨.kidsLoop hdup hu hloop.clean, hloop.dict, ?_, ?_, ?_, ?_, fun h => hloop.log (hlogU h)⟩
    · intro t ht
      rw [hloop.frame t (fun h => ht (hup t h)), h2.get, if_neg]
      intro hm
      obtain ⟨k, _, e2, e3⟩ := list_scope _ hdR hcR K haR t hm
      exact ht ⟨k, e2, e3⟩
    · intro ns hns
      obtain ⟨o1, o2, o3⟩ := hloop.ok ns hns
      refine ⟨o1, o2, ?_⟩
      rintro (h | h)
      · rw [(hasDup_iff _).2 h] at hdup; simp at hdup
      · exact o3 ((childrenInfo_malformed raws 0).1 h)
    · intro e l he
      obtain ⟨hb, he⟩ := hloop.err e l he
      exact ⟨.inr ((childrenInfo_malformed raws 0).2 hb), he⟩
    · intro hf hex ns hns t hsc hg
      have hexK : ∀ t, (Call.kids top old path K raws).scope t → dictGet s'.handlers t ≠ none →
          t ∈ tnames (keptKids old (childrenInfo 0 raws)) := by
        intro u hu' hgu
        rw [h2.get] at hgu
        by_cases hm : u ∈ tnames (removedKids old (childrenInfo 0 raws))
        · rw [if_pos hm] at hgu; simp at hgu
        · rw [if_neg hm] at hgu
          have := hex u hu' hgu
          rw [tnames_mem] at this ⊢
          obtain ⟨n, hn, hun⟩ := this
          have hT : n.isText = false := by
            cases hT : n.isText with
            | false => rfl
            | true => rw [tnames_isText hT] at hun; simp at hun
          refine ⟨n, ?_, hun⟩
          simp only [keptKids, List.mem_filter]
          refine ⟨hn, ?_⟩
          have hnr : n ∉ removedKids old (childrenInfo 0 raws) := fun h => hm (tnames_mem.2 ⟨n, h, hun⟩)
          simp only [removedKids, List.mem_filter, not_and] at hnr
          have := hnr hn
          simp only [hT, Bool.not_false, Bool.true_and] at this ⊢
          simpa using this
      by_cases hls : (Call.loop top (keptKids old (childrenInfo 0 raws)) path K 0 (childrenInfo 0 raws)).scope t
      · exact hloop.exact hf (fun u hu' hgu => hexK u (hup u hu') hgu) ns hns t hls hg
      · exfalso
        rw [hloop.frame t hls] at hg
        obtain ⟨k, e1, _, e3⟩ := hscK t (hexK t hsc hg)
        exact hls ⟨k, e1, e3⟩
  | loopNil =>
    refine ⟨.loopNil, hp.dict, fun _ _ => rfl, ?_, by simp, ?_, fun h => h⟩
    · intro ns h; cases h; exact ⟨by simp [HOK, tgtsL], by simp [canonL], by simp [Call.bad]⟩
    · intro _ _ ns h; cases h
      rintro t ⟨k, hk, _⟩; simp at hk
  | @loopFirst top old path K idx raw key infos s s1 e lost hch ih =>
    have q0 := Post.refl hi hn hr
    have hperm := lookup_others_perm old key hk.1
    have hpre := q0.pre hperm
    have hmem : ∀ n ∈ (lookupKid old key).toList, n ∈ old := by
      intro n hn; simp at hn; exact lookupKid_mem hn
    have hlk : deepL (lookupKid old key).toList := deepL_sub hmem hd
    obtain ⟨hK, hpl, hnd⟩ := hp.plain
    have hraw := hpl (raw, key) (by simp)
    have hcp : HPre (.child top (lookupKid old key) (kidPos path K idx key) raw) s := by
      refine ⟨⟨hK.snoc hraw.2.1, hraw.1, hraw.2.2⟩, ?_, canonL_sub hmem hp.canon, hp.hok.sub hmem, hp.dict⟩
      intro o ho
      simp at ho
      have hkey := lookupKid_key ho
      obtain ⟨k, e1, e2, e3⟩ := hp.placed o (lookupKid_mem ho) hkey.1
      rw [hkey.2] at e2; cases e2
      exact e3
    have hc := ih hi hpre.1 hpre.2 hlk trivial hcp
    refine ⟨.loopFirst hc.clean, hc.dict, ?_, by simp, ?_, by simp, hc.log⟩
    · intro t ht
      exact hc.frame t (fun h => ht ⟨key, by simp, h⟩)
    · intro e l he; cases he
      obtain ⟨hb, he⟩ := hc.err e _ rfl
      exact ⟨⟨(raw, key), by simp, hb⟩, he⟩
  | @loopRest top old path K idx raw key infos s s1 new s2 e lost hch hl ih1 ih2
  | @loopOk top old path K idx raw key infos s s1 new s2 news hch hl ih1 ih2 =>
    have q0 := Post.refl hi hn hr
    have hperm := lookup_others_perm old key hk.1
    have hpre := q0.pre hperm
    have hmem : ∀ n ∈ (lookupKid old key).toList, n ∈ old := by
      intro n hn; simp at hn; exact lookupKid_mem hn
    have hlk : deepL (lookupKid old key).toList := deepL_sub hmem hd
    obtain ⟨hK, hpl, hnd⟩ := hp.plain
    have hraw := hpl (raw, key) (by simp)
    have hcp : HPre (.child top (lookupKid old key) (kidPos path K idx key) raw) s := by
      refine ⟨⟨hK.snoc hraw.2.1, hraw.1, hraw.2.2⟩, ?_, canonL_sub hmem hp.canon, hp.hok.sub hmem, hp.dict⟩
      intro o ho
      simp at ho
      have hkey := lookupKid_key ho
      obtain ⟨k, e1, e2, e3⟩ := hp.placed o (lookupKid_mem ho) hkey.1
      rw [hkey.2] at e2; cases e2
      exact e3
    have hc := ih1 hi hpre.1 hpre.2 hlk trivial hcp
    have q1 := q0.chain hperm (run_post hch hi hpre.1 hpre.2 hlk trivial)
    have hpre2 := q1.pre (List.perm_append_comm)
    have hsubO : ∀ n ∈ othersOf old key, n ∈ old := fun n hn => (List.mem_filter.1 hn).1
    have hd2 := deepL_sub hsubO hd
    have hc2 := canonL_sub hsubO hp.canon
    have ha2 := AtKeys.sub hsubO hp.placed
    have hk2 : KeyPre (.loop top (othersOf old key) path K (idx + 1) infos) := keyPre_others _ _ _ _ hk
    simp only [List.map_cons, List.nodup_cons] at hnd
    have hplk : ∀ k ∈ infos.map (·.2), k.Plain := by
      intro k hk'; rw [List.mem_map] at hk'
      obtain ⟨p, hp', rfl⟩ := hk'
      exact (hpl p (by simp [hp'])).2.1
    have hscO : ∀ t ∈ tnames (othersOf old key), ∃ k ∈ infos.map (·.2), Scope (K ++ [k]) t := by
      intro t ht
      obtain ⟨k, e1, e2, e3⟩ := list_scope _ hd2 hc2 K ha2 t ht
      refine ⟨k, ?_, e3⟩
      simp only [keysL, List.mem_filterMap] at e1
      obtain ⟨n, hn, he⟩ := e1
      obtain ⟨k', g1, g2⟩ := hk2.2 n hn
      rw [he] at g2; cases g2; exact g1
    have hdis : ∀ t, Scope (K ++ [key]) t → ¬ ∃ k ∈ infos.map (·.2), Scope (K ++ [k]) t := by
      rintro t h1 ⟨k, h2, h3⟩
      have := scope_disj hK hraw.2.1 (hplk k h2) h1 h3
      subst this; exact hnd.1 h2
    have hlp : HPre (.loop top (othersOf old key) path K (idx + 1) infos) s1 := by
      refine ⟨⟨hK, fun p hp' => hpl p (by simp [hp']), hnd.2⟩, ha2, hc2, ?_, hc.dict⟩
      refine (hp.hok.sub hsubO).congr (fun t ht => hc.frame t (fun h => hdis t h (hscO t ht)))
    have hrest := ih2 q1.inv hpre2.1 hpre2.2 hd2 hk2 hlp
    obtain ⟨o1, o2, o3⟩ := hc.ok new rfl
    have hframe : ∀ t, ¬ (Call.loop top old path K idx ((raw, key) :: infos)).scope t →
        dictGet s2.handlers t = dictGet s.handlers t := by
      intro t ht
      rw [hrest.frame t (fun ⟨k, h1, h2⟩ => ht ⟨k, by simp only [List.map_cons, List.mem_cons]; exact .inr h1, h2⟩),
        hc.frame t (fun h => ht ⟨key, by simp, h⟩)]
    first
    | (refine ⟨.loopRest hc.clean hrest.clean, hrest.dict, hframe, by simp, ?_, by simp, fun h => hrest.log (hc.log h)⟩
       intro e l he; cases he
       obtain ⟨⟨p, hp', hb⟩, he⟩ := hrest.err e _ rfl
       exact ⟨⟨p, by simp [hp'], hb⟩, he⟩)
    | (obtain ⟨r1, r2, r3⟩ := hrest.ok news rfl
       have hch2 := run_shape hch hlk
       have hpost1 := run_post hch hi hpre.1 hpre.2 hlk trivial
       have hdnew : deepL new := by simpa [Res.nodes] using hch2.2.1
       have hnewsc : ∀ t ∈ tnames new, Scope (K ++ [key]) t := by
         obtain ⟨n, hn', hpos⟩ := hch2.1
         subst hn'
         intro t ht
         cases hT : n.isText with
         | true => rw [tnames_isText hT] at ht; simp at ht
         | false =>
           have := node_scope n (by simpa using hdnew) (by simpa [canonL] using o2) t ht
           rw [hpos hT] at this; exact this
       refine ⟨.loopOk hc.clean hrest.clean, hrest.dict, hframe, ?_, by simp, ?_, fun h => hrest.log (hc.log h)⟩
       · intro ns hns; cases hns
         refine ⟨HOK.append (o1.congr (fun t ht => hrest.frame t (fun h => hdis t (hnewsc t ht) h))) r1, ?_, ?_⟩
         · rw [canonL_iff] at o2 r2 ⊢
           intro n hn; rw [List.mem_append] at hn; exact hn.elim (o2 n) (r2 n)
         · rintro ⟨p, hp', hb⟩
           simp only [List.mem_cons] at hp'
           rcases hp' with rfl | hp'
           · exact o3 hb
           · exact r3 ⟨p, hp', hb⟩
       · intro hf hex ns hns; cases hns
         obtain ⟨tr, htr⟩ := run_trace hl q1.inv hpre2.1 hpre2.2 hd2 hk2
         have hf1 : ¬ Failed s1.log := by rw [htr.log] at hf; exact not_failed_suffix hf
         intro t hsc hg
         rw [tnames_append, List.mem_append]
         by_cases hsr : ∃ k ∈ infos.map (·.2), Scope (K ++ [k]) t
         · right
           refine hrest.exact hf ?_ news rfl t hsr hg
           intro u hu hgu
           have hus : ¬ Scope (K ++ [key]) u := fun h => hdis u h hu
           rw [hc.frame u hus] at hgu
           obtain ⟨k, hk1, hk2'⟩ := hu
           have := hex u ⟨k, by simp only [List.map_cons, List.mem_cons]; exact .inr hk1, hk2'⟩ hgu
           rw [tnames_mem] at this ⊢
           obtain ⟨n, hn', hun⟩ := this
           refine ⟨n, ?_, hun⟩
           refine List.mem_filter.2 ⟨hn', ?_⟩
           simp only [Bool.not_eq_true', decide_eq_false_iff_not]
           intro hkey
           have hT : n.isText = false := by
             cases hT : n.isText with
             | false => rfl
             | true => rw [tnames_isText hT] at hun; simp at hun
           obtain ⟨k', e1, e2, e3⟩ := hp.placed n hn' hT
           rw [hkey] at e2; cases e2
           have hs := node_scope n ((deepL_iff _).1 hd n hn') ((canonL_iff _).1 hp.canon n hn') u hun
           rw [e3] at hs
           exact hus hs
         · left
           rw [hrest.frame t hsr] at hg
           obtain ⟨k, hk1, hk2'⟩ := hsc
           simp only [List.map_cons, List.mem_cons] at hk1
           rcases hk1 with rfl | hk1
           · refine hc.exact hf1 ?_ new rfl t hk2' hg
             intro u hu hgu
             have := hex u ⟨k, by simp, hu⟩ hgu
             rw [tnames_mem] at this ⊢
             obtain ⟨n, hn', hun⟩ := this
             have hT : n.isText = false := by
               cases hT : n.isText with
               | false => rfl
               | true => rw [tnames_isText hT] at hun; simp at hun
             obtain ⟨k', e1, e2, e3⟩ := hp.placed n hn' hT
             have hs := node_scope n ((deepL_iff _).1 hd n hn') ((canonL_iff _).1 hp.canon n hn') u hun
             rw [e3] at hs
             have hkk : k' = k := scope_disj hK e1 hraw.2.1 hs hu
             subst hkk
             refine ⟨n, ?_, hun⟩
             simp only [Call.old, Option.mem_toList]
             exact lookupKid_unique hk.1 hn' hT e2
           · exact absurd ⟨k, hk1, hk2'⟩ hsr)
  | childElem hm ih =>
    have := ih hi hn hr hd trivial ⟨⟨hp.plain.1, hp.plain.2.1⟩, hp.placed, hp.canon, hp.hok, hp.dict⟩
    exact ⟨.childElem this.clean, this.dict, this.frame, this.ok, this.err, this.exact, this.log⟩
  | childComp hm ih =>
    have := ih hi hn hr hd trivial ⟨hp.plain.1, hp.placed, hp.canon, hp.hok, hp.dict⟩
    exact ⟨.childComp this.clean, this.dict, this.frame, fun ns h => ⟨(this.ok ns h).1, (this.ok ns h).2.1, by simp [Call.bad, Raw.Malformed]⟩,
      fun e l h => absurd (this.err e l h).1 (by simp [Call.bad]), this.exact, this.log⟩
  | childText =>
    refine ⟨.childText, hp.dict, fun _ _ => rfl, ?_, by simp, ?_, fun h => h⟩
    · intro ns h; cases h; exact ⟨by simp [HOK, tgtsL, Node.tgts], by simp [canonL, Node.canon], by simp [Call.bad, Raw.Malformed]⟩
    · intro _ hex ns h; cases h; intro t ht hg; simpa [Call.old] using hex t ht hg
  | @childTextOld top o pos t s s1 hu =>
    have hd' : o.deep := by simpa [Call.old] using hd
    have hc' : o.canon := by simpa [Call.old, canonL] using hp.canon
    obtain ⟨s', h1, h2⟩ := unmountOne_hand hd' hc' hn hr hi hp.hok hp.dict
    have : s' = s1 := by rw [h1] at hu; simpa using hu
    subst this
    refine ⟨.childTextOld hu, h2.ok, ?_, ?_, by simp, ?_, ?_⟩
    · intro u hns
      rw [h2.get, if_neg]
      intro hm
      have := node_scope o hd' hc' u hm
      rw [hp.placed o (by simp)] at this
      exact hns this
    · intro ns h; cases h; exact ⟨by simp [HOK, tgtsL, Node.tgts], by simp [canonL, Node.canon], by simp [Call.bad, Raw.Malformed]⟩
    · intro _ hex ns h; cases h; intro u hu' hg; simpa using h2.exact_nil hex u hu' hg
    · obtain ⟨t, ht, hq⟩ := unmountAll_quiet hu
      intro hl; rw [ht]; exact hl.quiet hq
  | @childTextErr top o pos t s s1 r rest hu =>
    have hd' : o.deep := by simpa [Call.old] using hd
    have hc' : o.canon := by simpa [Call.old, canonL] using hp.canon
    obtain ⟨s', h1, h2⟩ := unmountOne_hand hd' hc' hn hr hi hp.hok hp.dict
    rw [h1] at hu; simp at hu
  | childNone => exact absurd hp.plain.2.2 (by simp [Raw.isNone])

end Verif.Layout
