import Verif.Layout.Trace
/-! # Mounting and unmounting are recorded exactly once (helper lemmas) -/
namespace Verif.Layout
variable {U : User}

/-- The history agrees with the registry. -/
structure CInv (s : St U) : Prop where
  nodup : s.reg.Nodup
  lt : ∀ x ∈ s.reg, x < s.nextId
  mNodup : (mountsOf s.log).Nodup
  mounts : ∀ x, x ∈ mountsOf s.log ↔ x < s.nextId
  uNodup : (unmountsOf s.log).Nodup
  unmounts : ∀ x, x ∈ unmountsOf s.log ↔ x < s.nextId ∧ x ∉ s.reg

theorem CInv.congr {s t : St U} (h : CInv s) (h1 : t.reg = s.reg) (h2 : t.nextId = s.nextId)
    (h3 : mountsOf t.log = mountsOf s.log) (h4 : unmountsOf t.log = unmountsOf s.log) : CInv t := by
  obtain ⟨a, b, c, d, e, f⟩ := h
  exact ⟨by rw [h1]; exact a, by rw [h1, h2]; exact b, by rw [h3]; exact c, by rw [h3, h2]; exact d,
    by rw [h4]; exact e, by rw [h4, h2, h1]; exact f⟩

theorem CInv.unmount {s : St U} (h : CInv s) {id : Nat} (hid : id ∈ s.reg) :
    CInv { s with reg := s.reg.erase id, world := U.unmount s.world id, log := .unmounted id :: s.log } := by
  obtain ⟨a, b, c, d, e, f⟩ := h
  refine ⟨a.erase id, fun x hx => b x (List.mem_of_mem_erase hx), c, d, ?_, ?_⟩
  · simp only [unmountsOf, List.nodup_cons]
    exact ⟨fun hx => ((f id).1 hx).2 hid, e⟩
  · intro x
    simp only [unmountsOf, List.mem_cons, f x, a.mem_erase_iff]
    constructor
    · rintro (rfl | ⟨h1, h2⟩)
      · exact ⟨b _ hid, by simp⟩
      · exact ⟨h1, fun h => h2 h.2⟩
    · rintro ⟨h1, h2⟩
      by_cases hx : x = id
      · exact .inl hx
      · exact .inr ⟨h1, fun h => h2 ⟨hx, h⟩⟩

mutual
theorem unmountNode_cinv (n : Node) (s : St U) (h : CInv s) : CInv (unmountNode n s).1 := by
  match n with
  | .text _ => exact h
  | .elem p sh ts none =>
    simp only [unmountNode]
    rcases delTargets s.handlers ts with ⟨hh, _ | _⟩ <;> exact h.congr rfl rfl rfl rfl
  | .elem p sh ts (some ks) =>
    simp only [unmountNode]
    rcases delTargets s.handlers ts with ⟨hh, _ | _⟩
    · exact h.congr rfl rfl rfl rfl
    · exact unmountKids_cinv ks _ (h.congr rfl rfl rfl rfl)
  | .comp p id c e ks =>
    simp only [unmountNode]
    split
    · rename_i hid; exact unmountKids_cinv ks _ (h.unmount hid)
    · exact h
theorem unmountKids_cinv (ks : List Node) (s : St U) (h : CInv s) : CInv (unmountKids ks s).1 := by
  match ks with
  | [] => exact h
  | k :: ks =>
    simp only [unmountKids]
    have hu := unmountKids_cinv ks s h
    rcases hk : unmountKids ks s with ⟨s', _ | ⟨r, rest⟩⟩
    · rw [hk] at hu; exact unmountNode_cinv k s' hu
    · rw [hk] at hu; exact hu
end

theorem unmountAll_cinv (ks : List Node) (s : St U) (h : CInv s) : CInv (unmountAll ks s).1 := by
  induction ks generalizing s with
  | nil => exact h
  | cons k ks ih =>
    simp only [unmountAll]
    have hu := unmountNode_cinv k s h
    rcases hk : unmountNode k s with ⟨s', _ | ⟨r, rest⟩⟩
    · rw [hk] at hu; exact ih s' hu
    · rw [hk] at hu; exact hu

theorem unmountAll_cinv' {ks : List Node} {s s' : St U} {rest} (h : unmountAll ks s = (s', rest))
    (hc : CInv s) : CInv s' := by have := unmountAll_cinv ks s hc; rwa [h] at this

/-- Unregistering happens only together with an `unmounted` event; what stays registered is what
was registered or is newly allocated and entered. -/
theorem CInv.alloc {s : St U} (h : CInv s) (top : Option Nat) :
    CInv (enterComp (allocate s).1 top (allocate s).2) := by
  obtain ⟨a, b, c, d, e, f⟩ := h
  have hno : s.nextId ∉ s.reg := fun hx => Nat.lt_irrefl _ (b _ hx)
  simp only [allocate, enterComp, hno, if_false]
  refine ⟨?_, ?_, ?_, ?_, ?_, ?_⟩
  · simp [hno, a]
  · intro x hx; simp at hx
    rcases hx with rfl | hx
    · simp
    · have := b x hx; simp; omega
  · simp only [mountsOf, List.nodup_cons, d]; exact ⟨by omega, c⟩
  · intro x; simp only [mountsOf, List.mem_cons, d]; omega
  · simpa [unmountsOf] using e
  · intro x; simp only [unmountsOf, f x, List.mem_cons]
    constructor
    · rintro ⟨h1, h2⟩; exact ⟨by omega, by rintro (h | h); omega; exact h2 h⟩
    · rintro ⟨h1, h2⟩; exact ⟨by omega, fun h => h2 (.inr h)⟩

theorem CInv.enter {s : St U} (h : CInv s) (top : Option Nat) {id : Nat} (hid : id ∈ s.reg) :
    CInv (enterComp s top id) := h.congr (by simp [enterComp, hid]) rfl rfl rfl

theorem runBody_cinv {s s2 : St U} {id c r} (h : runBody s id c = (s2, r)) (hc : CInv s) : CInv s2 := by
  unfold runBody at h
  split at h <;> · simp at h; rw [← h.1]; exact hc.congr rfl rfl rfl rfl

theorem prepareComp_cinv {old c} {s s1 : St U} {id ks} (top : Option Nat)
    (h : prepareComp old c s = (s1, .ok (id, ks))) (hc : CInv s) (hr : ∀ x ∈ idsL old.toList, x ∈ s.reg) :
    CInv (enterComp s1 top id) := by
  unfold prepareComp at h
  split at h
  · simp only [Prod.mk.injEq, Except.ok.injEq] at h
    obtain ⟨rfl, rfl, _⟩ := h; exact hc.alloc top
  · split at h
    · split at h
      · rename_i hu
        simp only [Prod.mk.injEq, Except.ok.injEq] at h
        obtain ⟨rfl, rfl, _⟩ := h; exact (unmountAll_cinv' hu hc).alloc top
      · simp at h
    · simp only [Prod.mk.injEq, Except.ok.injEq] at h
      obtain ⟨rfl, rfl, _⟩ := h
      exact hc.enter top (hr _ (by simp))
  · split at h
    · rename_i hu
      simp only [Prod.mk.injEq, Except.ok.injEq] at h
      obtain ⟨rfl, rfl, _⟩ := h; exact (unmountAll_cinv' hu hc).alloc top
    · simp at h

theorem prepareComp_cinv_err {old c} {s s1 : St U} {rest}
    (h : prepareComp old c s = (s1, .error rest)) (hc : CInv s) : CInv s1 := by
  obtain ⟨o, rfl, hu, _⟩ := prepareComp_err h
  exact unmountAll_cinv' hu hc

theorem prepareModel_cinv {old i} {s s1 : St U} {r} (h : prepareModel old i s = (s1, r)) (hc : CInv s) :
    CInv s1 := by
  unfold prepareModel at h
  split at h
  · split at h <;> · simp at h; rw [← h.1]; exact hc
  · split at h
    · simp at h; rw [← h.1]; exact hc
    · split at h <;> · simp at h; rw [← h.1]; exact hc.congr rfl rfl rfl rfl
  · split at h
    · rename_i hu
      split at h <;> · simp at h; rw [← h.1]; exact unmountAll_cinv' hu hc
    · rename_i hu; simp at h; rw [← h.1]; exact unmountAll_cinv' hu hc

theorem run_cinv {call} {s s' : St U} {r} (h : Run call s s' r) (hi : Inv s)
    (hn : (idsL call.old).Nodup) (hr : ∀ x ∈ idsL call.old, x ∈ s.reg) (hd : deepL call.old)
    (hk : KeyPre call) (hc : CInv s) : CInv s' := by
  induction h with
  | compUnm hp => exact prepareComp_cinv_err hp hc
  | @compRaise top old pos c s s1 id ks s2 e hp hb =>
    exact (runBody_cinv hb (prepareComp_cinv top hp hc hr)).congr rfl rfl rfl rfl
  | @compOk top old pos c s s1 id ks s2 raw s3 kids hp hb hkids ih =>
    obtain ⟨h1, _, h3⟩ := prepareComp_post top hp hi hn hr
    have hid : id ∈ idsL old.toList ∨ s.nextId ≤ id := h3.imp (fun h => h) And.left
    have h2 := runBody_post h1 hid (by simp) hb
    have hpre := h2.pre (P := [id]) (J := idsL ks) (.refl _)
    have hks : deepL ks ∧ (keysL ks).Nodup := by
      rcases (prepareComp_shape hp).2 with rfl | ⟨p, oc, e, rfl, _⟩
      · simp [keysL]
      · simp [Call.old, deep_comp] at hd; exact ⟨hd.2.2, hd.1⟩
    exact (ih h2.inv hpre.1 hpre.2 hks.1 hks.2
      (runBody_cinv hb (prepareComp_cinv top hp hc hr))).congr rfl rfl rfl rfl
  | @compErr top old pos c s s1 id ks s2 raw s3 e lost hp hb hkids ih =>
    obtain ⟨h1, _, h3⟩ := prepareComp_post top hp hi hn hr
    have hid : id ∈ idsL old.toList ∨ s.nextId ≤ id := h3.imp (fun h => h) And.left
    have h2 := runBody_post h1 hid (by simp) hb
    have hpre := h2.pre (P := [id]) (J := idsL ks) (.refl _)
    have hks : deepL ks ∧ (keysL ks).Nodup := by
      rcases (prepareComp_shape hp).2 with rfl | ⟨p, oc, e, rfl, _⟩
      · simp [keysL]
      · simp [Call.old, deep_comp] at hd; exact ⟨hd.2.2, hd.1⟩
    exact (ih h2.inv hpre.1 hpre.2 hks.1 hks.2
      (runBody_cinv hb (prepareComp_cinv top hp hc hr))).congr rfl rfl rfl rfl
  | modelPrep hp => exact prepareModel_cinv hp hc
  | @modelOk top old pos i cs s s1 tag ks s2 kids hp hkids ih
  | @modelErr top old pos i cs s s1 tag ks s2 e lost hp hkids ih =>
    have h1 := prepareModel_post hp hi hn hr
    have hpre := h1.pre (P := []) (J := idsL ks) (.refl _)
    obtain ⟨htag, _, hshape⟩ := prepareModel_ok hp
    have hks : deepL ks ∧ (keysL ks).Nodup := by
      rcases hshape with rfl | ⟨p, sh, ts, oks, rfl, rfl⟩
      · simp [keysL]
      · simp [Call.old, deep_elem] at hd; exact ⟨hd.2.2, hd.1⟩
    have h2 := h1.congr_right (t := { s1 with handlers := addHandlers pos.kpath i.handlers s1.handlers })
      rfl rfl rfl rfl rfl rfl
    exact ih h2.inv hpre.1 hpre.2 hks.1 hks.2 ((prepareModel_cinv hp hc).congr rfl rfl rfl rfl)
  | kidsDup _ => exact hc
  | kidsUnm _ hu => exact unmountAll_cinv' hu hc
  | @kidsLoop top old path kpath raws s s1 s2 r hdup hu hl ih =>
    have h0 := Post.refl hi hn hr
    have hperm := removed_kept_perm old (childrenInfo 0 raws)
    have hpre := h0.pre hperm
    have hspec := unmountAll_spec' hu
    have h1 := h0.chain hperm (hspec.post hi hpre.1 hpre.2)
    simp only [idsL_nil, List.append_nil] at h1
    have hpre2 := h1.pre (P := []) (J := idsL (keptKids old (childrenInfo 0 raws))) (.refl _)
    exact ih h1.inv hpre2.1 hpre2.2 (deepL_sub (fun n hn => (List.mem_filter.1 hn).1) hd)
      (keyPre_kept _ _ hk) (unmountAll_cinv' hu hc)
  | loopNil => exact hc
  | @loopFirst top old path kpath idx raw key infos s s1 e lost hch ih =>
    have h0 := Post.refl hi hn hr
    have hperm := lookup_others_perm old key hk.1
    have hpre := h0.pre hperm
    have hlk : deepL (lookupKid old key).toList := by
      refine deepL_sub (fun n hn => ?_) hd
      simp at hn; exact lookupKid_mem hn
    exact ih hi hpre.1 hpre.2 hlk trivial hc
  | @loopRest top old path kpath idx raw key infos s s1 new s2 e lost hch hl ih1 ih2
  | @loopOk top old path kpath idx raw key infos s s1 new s2 news hch hl ih1 ih2 =>
    have h0 := Post.refl hi hn hr
    have hperm := lookup_others_perm old key hk.1
    have hpre := h0.pre hperm
    have hlk : deepL (lookupKid old key).toList := by
      refine deepL_sub (fun n hn => ?_) hd
      simp at hn; exact lookupKid_mem hn
    have h1 := h0.chain hperm (run_post hch hi hpre.1 hpre.2 hlk trivial)
    have hpre2 := h1.pre (List.perm_append_comm)
    have hd2 := deepL_sub (a := othersOf old key) (b := old) (fun n hn => (List.mem_filter.1 hn).1) hd
    have hk2 : KeyPre (.loop top (othersOf old key) path kpath (idx + 1) infos) := keyPre_others _ _ _ _ hk
    exact ih2 h1.inv hpre2.1 hpre2.2 hd2 hk2 (ih1 hi hpre.1 hpre.2 hlk trivial hc)
  | childElem hm ih => exact ih hi hn hr hd trivial hc
  | childComp hm ih => exact ih hi hn hr hd trivial hc
  | childText => exact hc
  | childTextOld hu => exact unmountAll_cinv' hu hc
  | childTextErr hu => exact unmountAll_cinv' hu hc
  | childNone => exact hc

end Verif.Layout
