import Verif.Layout.SchemaLemmas
import Verif.Layout.Life
/-! # Which acknowledgement numbers the rendered elements carry (lemmas for C17) -/
namespace Verif.Layout
variable {U : User}

theorem noAckL_iff {rs : List Raw} : noAckL rs ↔ ∀ r ∈ rs, r.NoAck := by
  induction rs with
  | nil => simp [noAckL]
  | cons r rs ih => simp [noAckL, ih]

theorem received_append (ts : List String) (a b : List (Op U)) : received ts (a ++ b) = received ts a ++ received ts b := by
  induction a with
  | nil => rfl
  | cons o a ih => rcases o with _ | _ | ⟨t, _ | n⟩ <;> simp [received, ih]; split <;> simp

theorem mem_received {ts : List String} {n : Nat} {ops : List (Op U)} :
    n ∈ received ts ops ↔ ∃ t ∈ ts, n ∈ received [t] ops := by
  induction ops with
  | nil => simp [received]
  | cons o a ih =>
    rcases o with _ | _ | ⟨t, _ | m⟩ <;> simp only [received, ih]
    by_cases ht : t ∈ ts
    · simp only [ht, if_true, List.mem_cons, ih]
      constructor
      · rintro (rfl | ⟨t', h1, h2⟩)
        · exact ⟨t, ht, by simp⟩
        · exact ⟨t', h1, by split <;> simp [h2]⟩
      · rintro ⟨t', h1, h2⟩
        split at h2
        · rcases List.mem_cons.1 h2 with h | h
          · exact .inl h
          · exact .inr ⟨t', h1, h⟩
        · exact .inr ⟨t', h1, h2⟩
    · simp only [ht, if_false, ih]
      constructor
      · rintro ⟨t', h1, h2⟩
        exact ⟨t', h1, by split <;> simp [h2]⟩
      · rintro ⟨t', h1, h2⟩
        refine ⟨t', h1, ?_⟩
        rw [if_neg] at h2
        · exact h2
        · simp; rintro rfl; exact ht h1

theorem dictGet_dictSet {α} (d : List (String × α)) (k k' : String) (v : α) :
    dictGet (dictSet d k v) k' = if k' = k then some v else dictGet d k' := by
  induction d with
  | nil =>
    by_cases h : k' = k
    · subst h; simp [dictSet, dictGet]
    · have : (k == k') = false := by simpa using Ne.symm h
      simp [dictSet, dictGet, List.find?, this, h]
  | cons p d ih =>
    obtain ⟨a, b⟩ := p
    simp only [dictSet]
    by_cases h : a = k
    · subst h
      by_cases h' : k' = a
      · subst h'; simp [dictGet]
      · simp [dictGet, List.find?, h', Ne.symm h']
        have : (a == k') = false := by simpa using Ne.symm h'
        simp [this]
    · rw [if_neg h]
      by_cases h' : a = k'
      · subst h'; simp [dictGet, h]
      · have : (a == k') = false := by simpa using h'
        have e1 : ∀ (x : List (String × α)), dictGet ((a, b) :: x) k' = dictGet x k' := by
          intro x; simp [dictGet, List.find?, this]
        rw [e1, e1, ih]

/-- What a list's largest member is. -/
theorem max?_iff {l : List Nat} {o : Option Nat} : o = l.max? ↔ (∀ m, o = some m → m ∈ l) ∧ ∀ n ∈ l, ∃ m, o = some m ∧ n ≤ m := by
  constructor
  · rintro rfl
    refine ⟨fun m hm => (List.max?_eq_some_iff.1 hm).1, fun n hn => ?_⟩
    cases h : l.max? with
    | none => rw [List.max?_eq_none_iff.1 h] at hn; cases hn
    | some m => exact ⟨m, rfl, (List.max?_eq_some_iff.1 h).2 n hn⟩
  · rintro ⟨h1, h2⟩
    cases o with
    | none =>
      symm; rw [List.max?_eq_none_iff]
      cases l with
      | nil => rfl
      | cons a l => obtain ⟨m, h, _⟩ := h2 a (List.mem_cons_self ..); cases h
    | some m =>
      symm; rw [List.max?_eq_some_iff]
      exact ⟨h1 m rfl, fun n hn => by obtain ⟨m', h, h'⟩ := h2 n hn; cases h; exact h'⟩

theorem maxAck_max (seqs : List (String × Nat)) (ops : List (Op U)) (h : ∀ t, dictGet seqs t = (received [t] ops).max?)
    (ts : List String) : maxAck seqs ts = (received ts ops).max? := by
  rw [max?_iff]
  induction ts with
  | nil =>
    refine ⟨by simp [maxAck], fun n hn => ?_⟩
    obtain ⟨t, ht, _⟩ := mem_received.1 hn
    cases ht
  | cons t ts ih =>
    have ht := max?_iff.1 (h t)
    obtain ⟨i1, i2⟩ := ih
    constructor
    · intro m hm
      simp only [maxAck] at hm
      rw [mem_received]
      rcases h1 : dictGet seqs t with _ | a <;> rcases h2 : maxAck seqs ts with _ | b <;> rw [h1, h2] at hm <;> simp only at hm
      · cases hm
      · cases hm
        obtain ⟨t', a, b⟩ := mem_received.1 (i1 _ h2)
        exact ⟨t', List.mem_cons_of_mem _ a, b⟩
      · cases hm
        exact ⟨t, List.mem_cons_self .., ht.1 _ h1⟩
      · cases hm
        rcases Nat.le_total a b with hab | hab
        · rw [Nat.max_eq_right hab]
          obtain ⟨t', a, b⟩ := mem_received.1 (i1 _ h2)
          exact ⟨t', List.mem_cons_of_mem _ a, b⟩
        · rw [Nat.max_eq_left hab]
          exact ⟨t, List.mem_cons_self .., ht.1 _ h1⟩
    · intro n hn
      obtain ⟨t', h1, h2⟩ := mem_received.1 hn
      simp only [maxAck]
      rcases List.mem_cons.1 h1 with rfl | h1
      · obtain ⟨m, hm, hnm⟩ := ht.2 n h2
        rw [hm]
        cases maxAck seqs ts with
        | none => exact ⟨m, rfl, hnm⟩
        | some b => exact ⟨_, rfl, Nat.le_trans hnm (Nat.le_max_left ..)⟩
      · obtain ⟨m, hm, hnm⟩ := i2 n (mem_received.2 ⟨t', h1, h2⟩)
        rw [hm]
        cases dictGet seqs t with
        | none => exact ⟨m, rfl, hnm⟩
        | some b => exact ⟨_, rfl, Nat.le_trans hnm (Nat.le_max_right ..)⟩

theorem recordSeq_get (seqs : List (String × Nat)) (t t' : String) (n : Nat) (ops : List (Op U))
    (h : ∀ t, dictGet seqs t = (received [t] ops).max?) :
    dictGet (recordSeq seqs t n) t' = (received [t'] (ops ++ [.event t (some n)])).max? := by
  have h' := max?_iff.1 (h t')
  rw [received_append, max?_iff]
  by_cases ht : t' = t
  · subst ht
    unfold recordSeq
    cases hg : dictGet seqs t' with
    | none =>
      simp only [dictGet_dictSet, if_true, received]
      refine ⟨by simp, fun m hm => ?_⟩
      simp at hm
      rcases hm with hm | rfl
      · obtain ⟨k, hk, _⟩ := h'.2 m hm
        rw [hg] at hk; cases hk
      · exact ⟨_, rfl, Nat.le_refl _⟩
    | some p =>
      simp only
      split
      · rename_i hn
        simp only [dictGet_dictSet, if_true, received]
        refine ⟨by simp, fun m hm => ?_⟩
        simp at hm
        rcases hm with hm | rfl
        · obtain ⟨k, hk, hk'⟩ := h'.2 m hm
          rw [hg] at hk; cases hk
          exact ⟨_, rfl, by omega⟩
        · exact ⟨_, rfl, Nat.le_refl _⟩
      · rename_i hn
        rw [hg]
        refine ⟨fun m hm => by cases hm; simp [h'.1 _ hg], fun m hm => ?_⟩
        simp [received] at hm
        rcases hm with hm | rfl
        · obtain ⟨k, hk, hk'⟩ := h'.2 m hm
          rw [hg] at hk; cases hk
          exact ⟨_, rfl, hk'⟩
        · exact ⟨_, rfl, by omega⟩
  · have : received [t'] [Op.event (U := U) t (some n)] = [] := by simp [received, Ne.symm ht]
    rw [this, List.append_nil]
    have e : dictGet (recordSeq seqs t n) t' = dictGet seqs t' := by
      unfold recordSeq
      cases dictGet seqs t with
      | none => simp [dictGet_dictSet, ht]
      | some p => simp only; split <;> simp [dictGet_dictSet, ht]
    rw [e]; exact h'

theorem prepareComp_seqs {old c} {s s1 : St U} {r} (h : prepareComp old c s = (s1, r)) : s1.seqs = s.seqs := by
  unfold prepareComp at h
  split at h
  · simp [allocate] at h; rw [← h.1]
  · rename_i p id' oc e ks'
    split at h
    · have hs := unmountAll_spec [Node.comp p id' oc e ks'] s
      split at h
      · rename_i hu; rw [hu] at hs; cases h; exact hs.seqs
      · rename_i hu; rw [hu] at hs; cases h; exact hs.seqs
    · simp at h; rw [← h.1]
  · rename_i n _
    have hs := unmountAll_spec [n] s
    split at h
    · rename_i hu; rw [hu] at hs; cases h; exact hs.seqs
    · rename_i hu; rw [hu] at hs; cases h; exact hs.seqs

theorem prepareModel_seqs {old i} {s s1 : St U} {r} (h : prepareModel old i s = (s1, r)) : s1.seqs = s.seqs := by
  unfold prepareModel at h
  split at h
  · split at h <;> (cases h; rfl)
  · split at h
    · cases h; rfl
    · split at h <;> (cases h; rfl)
  · rename_i o _
    have hs := unmountAll_spec [o] s
    split at h
    · rename_i hu; rw [hu] at hs
      split at h <;> (cases h; exact hs.seqs)
    · rename_i hu; rw [hu] at hs; cases h; exact hs.seqs

theorem runBody_seqs {s s' : St U} {id c r} (h : runBody s id c = (s', r)) : s'.seqs = s.seqs := by
  unfold runBody at h
  split at h <;> (cases h; rfl)

theorem enterComp_seqs {s : St U} {top id} : (enterComp s top id).seqs = s.seqs := rfl

theorem run_seqs {call} {s s' : St U} {r} (h : Run call s s' r) : s'.seqs = s.seqs := by
  induction h with
  | compUnm hp => exact prepareComp_seqs hp
  | compRaise hp hb => exact (runBody_seqs hb).trans (enterComp_seqs.trans (prepareComp_seqs hp))
  | compOk hp hb _ ih => exact ih.trans ((runBody_seqs hb).trans (enterComp_seqs.trans (prepareComp_seqs hp)))
  | compErr hp hb _ ih => exact ih.trans ((runBody_seqs hb).trans (enterComp_seqs.trans (prepareComp_seqs hp)))
  | modelPrep hp => exact prepareModel_seqs hp
  | modelOk hp _ ih => have e := prepareModel_seqs hp; rw [← e]; exact ih
  | modelErr hp _ ih => have e := prepareModel_seqs hp; rw [← e]; exact ih
  | kidsDup _ => rfl
  | kidsUnm _ hu => exact (unmountAll_spec' hu).seqs
  | kidsLoop _ hu _ ih => exact ih.trans (unmountAll_spec' hu).seqs
  | loopNil => rfl
  | loopFirst _ ih => exact ih
  | loopRest _ _ ih1 ih2 => exact ih2.trans ih1
  | loopOk _ _ ih1 ih2 => exact ih2.trans ih1
  | childElem _ ih => exact ih
  | childComp _ ih => exact ih
  | childText => rfl
  | childTextOld hu => exact (unmountAll_spec' hu).seqs
  | childTextErr hu => exact (unmountAll_spec' hu).seqs
  | childNone => rfl

theorem dictGet_notMem {α} {l : List (String × α)} {k : String} (h : k ∉ l.map (·.1)) : dictGet l k = none := by
  unfold dictGet
  rw [List.find?_eq_none.2]
  · rfl
  · intro p hp hk
    exact h (List.mem_map.2 ⟨p, hp, by simpa using hk⟩)

theorem dictGet_append_new {α} {l : List (String × α)} {k : String} {v : α} (h : k ∉ l.map (·.1)) :
    dictGet (l ++ [(k, v)]) k = some v := by
  have := dictGet_notMem h
  unfold dictGet at this ⊢
  rw [List.find?_append]
  simp at this ⊢
  cases hf : List.find? (fun p => p.1 == k) l with
  | none => simp
  | some p =>
    exfalso
    have := List.find?_some hf
    exact h (List.mem_map.2 ⟨p, List.mem_of_find?_eq_some hf, by simpa using this⟩)

theorem mkShell_ack {kpath : List Key} {i : ElemInfo} {tag : String} {seqs : List (String × Nat)}
    (h : ∀ l, i.attrs = some l → "_reactpy_ack_seq" ∉ l.map (·.1)) :
    AckRight (maxAck seqs) (mkShell kpath i tag seqs) := by
  intro l hl
  have hts : (mkShell kpath i tag seqs).targets = (mkTargets kpath i).map (·.2.1) := by
    simp only [Shell.targets, mkShell, mkTargets]
    split
    · rename_i h; simp at h; simp [h]
    · simp [serialize, Function.comp_def]
  have htag : (mkShell kpath i tag seqs).tag = tag := rfl
  rw [hts, htag]
  simp only [mkShell, injectAck] at hl
  by_cases ht : tag ∈ ["input", "select", "textarea"]
  · rw [if_pos (show tag ∈ inputTags from ht)] at hl
    rw [if_pos ht]
    cases hm : maxAck seqs ((mkTargets kpath i).map (·.2.1)) with
    | none =>
      rw [hm] at hl
      exact dictGet_notMem (h l hl)
    | some a =>
      rw [hm] at hl
      cases ha : i.attrs with
      | none => rw [ha] at hl; cases hl
      | some at' =>
        rw [ha] at hl
        simp only [dictGet_notMem (h at' ha), Option.isSome_none, Bool.false_eq_true, if_false] at hl
        cases hl
        exact dictGet_append_new (h at' ha)
  · rw [if_neg (show tag ∉ inputTags from ht)] at hl
    rw [if_neg ht]
    exact dictGet_notMem (h l hl)

def AllRight (best : List String → Option Nat) (v : VJson) : Prop := ∀ sh, v.Has sh → AckRight best sh

theorem AllRight.obj {best sh ks} (h : AckRight best sh) (hk : ∀ l, ks = some l → ∀ v ∈ l, AllRight best v) :
    AllRight best (.obj sh ks) := by
  intro sh' h'
  cases h' with
  | here => exact h
  | inside hm hv => exact hk _ rfl _ hm _ hv

theorem AckRight.plain {best sh} (h : sh.attrs = none) : AckRight best sh := fun l hl => by rw [h] at hl; cases hl

def CallNoAck : Call → Prop
  | .comp _ _ _ _ => True
  | .model _ _ _ i cs => (Raw.elem i cs).NoAck
  | .kids _ _ _ _ raws => noAckL raws
  | .loop _ _ _ _ _ infos => ∀ p ∈ infos, p.1.NoAck
  | .child _ _ _ raw => raw.NoAck

theorem run_ack (hU : ∀ id c seen raw, Returned U id c seen raw → raw.NoAck) {call} {s s' : St U} {r}
    (h : Run call s s' r) (hc : CallNoAck call) : ∀ ns, r = .ok ns → ∀ n ∈ ns, AllRight (maxAck s.seqs) n.view := by
  induction h with
  | compUnm hp => simp
  | compRaise hp hb =>
    intro ns hns n hn
    cases hns; simp at hn; subst hn
    exact .obj (.plain rfl) (by simp)
  | @compOk top old pos c s s1 id ks s2 raw s3 kids hp hb hk ih =>
    intro ns hns n hn
    cases hns; simp at hn; subst hn
    have hr := hU _ _ _ _ ((runBody_hand hb).2.2.1 raw rfl)
    have hk := ih (by simp [CallNoAck, noAckL, hr]) kids rfl
    have e : s2.seqs = s.seqs := (runBody_seqs hb).trans (enterComp_seqs.trans (prepareComp_seqs hp))
    rw [e] at hk
    refine .obj (.plain rfl) ?_
    intro l hl v hv
    cases hl
    obtain ⟨n, hn, rfl⟩ := mem_viewL.1 hv
    exact hk n hn
  | compErr hp hb hk ih =>
    intro ns hns n hn
    cases hns; simp at hn; subst hn
    exact .obj (.plain rfl) (by simp)
  | modelPrep hp => simp
  | @modelOk top old pos i cs s s1 tag ks s2 kids hp hk ih =>
    intro ns hns n hn
    cases hns; simp at hn; subst hn
    simp only [CallNoAck, Raw.NoAck] at hc
    have hk := ih hc.2 kids rfl
    have e := prepareModel_seqs hp
    have hk : ∀ n ∈ kids, AllRight (maxAck s.seqs) n.view := by rw [← e]; exact hk
    rw [e]
    split
    · exact .obj (mkShell_ack hc.1) (by simp)
    · refine .obj (mkShell_ack hc.1) ?_
      intro l hl v hv
      cases hl
      obtain ⟨n, hn, rfl⟩ := mem_viewL.1 hv
      exact hk n hn
  | modelErr hp hk ih => simp
  | kidsDup _ => simp
  | kidsUnm _ hu => simp
  | kidsLoop _ hu _ ih =>
    intro ns hns n hn
    have := ih (fun p hp => noAckL_iff.1 hc _ (childrenInfo_mem hp).1) ns hns n hn
    rwa [(unmountAll_spec' hu).seqs] at this
  | loopNil => intro ns hns; cases hns; simp
  | loopFirst _ ih => simp
  | loopRest _ _ ih1 ih2 => simp
  | loopOk h1 _ ih1 ih2 =>
    intro ns hns n hn
    cases hns
    simp only [CallNoAck, List.forall_mem_cons] at hc
    rcases List.mem_append.1 hn with hn | hn
    · exact ih1 hc.1 _ rfl n hn
    · have := ih2 hc.2 _ rfl n hn
      rwa [run_seqs h1] at this
  | childElem _ ih => exact fun ns hns n hn => ih hc ns hns n hn
  | childComp _ ih => exact fun ns hns n hn => ih trivial ns hns n hn
  | childText => intro ns hns; cases hns; intro n hn; simp at hn; subst hn; intro sh hsh; cases hsh
  | childTextOld hu => intro ns hns; cases hns; intro n hn; simp at hn; subst hn; intro sh hsh; cases hsh
  | childTextErr hu => simp
  | childNone => simp

theorem renderAt_ack (hU : ∀ id c seen raw, Returned U id c seen raw → raw.NoAck) {fuel old new} {s s' : St U}
    (h : renderAt fuel old s = some (s', new)) : AllRight (maxAck s.seqs) new.view ∧ s'.seqs = s.seqs := by
  obtain ⟨p, id', c, e, ks, e', ks', s1, rfl, rfl, rfl, hrun⟩ := renderAt_run h
  refine ⟨run_ack hU hrun trivial _ rfl _ (by simp), ?_⟩
  rw [← run_seqs hrun]
  have : ∀ (l : List Nat) (s : St U), (l.foldl (fun s id => { s with world := U.didRender s.world id, log := .effects id :: s.log }) s).seqs = s.seqs := by
    intro l
    induction l with
    | nil => intro s; rfl
    | cons a l ih => intro s; rw [List.foldl_cons, ih]
  exact this _ _

theorem stepOp_seqs (l : Layout U) (ops : List (Op U)) (op : Op U) (h : ∀ t, dictGet l.st.seqs t = (received [t] ops).max?) :
    ∀ t, dictGet (stepOp l op).1.st.seqs t = (received [t] (ops ++ [op])).max? := by
  intro t
  cases op with
  | user f => rw [received_append]; simp [received, stepOp, h]
  | event t' n =>
    cases n with
    | none => rw [received_append]; simp [received, stepOp, h]
    | some n => exact recordSeq_get _ t' t n ops h
  | render fuel id =>
    rw [received_append]
    simp only [received, List.append_nil]
    rw [← h]
    have key : ∀ {old new} {s' : St U}, renderAt fuel old l.st = some (s', new) → s'.seqs = l.st.seqs := by
      intro old new s' hr
      obtain ⟨p, id', c, e, ks, e', ks', s1, rfl, rfl, rfl, hrun⟩ := renderAt_run hr
      rw [← run_seqs hrun]
      exact (runExit_fold s1.exit s1).2.2.2.1
    simp only [stepOp, renderOp]
    split
    · split
      · split
        · rename_i hr; simp only; rw [key hr]
        · rfl
      · split
        · split
          · rename_i hr; simp only; rw [key hr]
          · rfl
        · rfl
    · rfl

theorem runSys_seqs (w : U.World) (root : Comp) (ops : List (Op U)) :
    ∀ t, dictGet (runSys (initSys U w root) ops).layout.st.seqs t = (received [t] ops).max? := by
  have : ∀ (ops pre : List (Op U)) (s : Sys U), (∀ t, dictGet s.layout.st.seqs t = (received [t] pre).max?) →
      ∀ t, dictGet (runSys s ops).layout.st.seqs t = (received [t] (pre ++ ops)).max? := by
    intro ops
    induction ops with
    | nil => intro pre s h; simpa [runSys] using h
    | cons o ops ih =>
      intro pre s h
      have := ih (pre ++ [o]) (stepSys s o) (by rw [stepSys_layout]; exact stepOp_seqs _ _ _ h)
      simpa [runSys] using this
  exact this ops [] _ (by intro t; rfl)

end Verif.Layout
