import Verif.Layout.Final
/-! # Every call of the renderer ends, and fuel does not matter (helper lemmas) -/
namespace Verif.Layout
variable {U : User}

/-- Enough fuel gives the result of the big-step relation. -/
theorem eval_of_run {call : Call} {s s' : St U} {r : Res} (h : Run call s s' r) :
    ∃ n, ∀ m, n ≤ m → evalCall m call s = (s', r) := by
  have up : ∀ {call : Call} {s s' : St U} {r : Res} (n : Nat), (∀ m, n ≤ m → evalCall (m + 1) call s = (s', r)) →
      ∃ n, ∀ m, n ≤ m → evalCall m call s = (s', r) := by
    intro call s s' r n hn
    refine ⟨n + 1, fun m hm => ?_⟩
    obtain ⟨k, rfl⟩ : ∃ k, m = k + 1 := ⟨m - 1, by omega⟩
    exact hn k (by omega)
  induction h with
  | compUnm hp => exact up 0 fun m _ => by simp [evalCall, renderComponent, hp]
  | compRaise hp hb => exact up 0 fun m _ => by simp [evalCall, renderComponent, hp, hb]
  | compOk hp hb _ ih =>
    obtain ⟨n, hn⟩ := ih
    exact up n fun m hm => by
      have := hn m hm
      simp only [evalCall] at this
      simp [evalCall, renderComponent, hp, hb, this]
  | compErr hp hb _ ih =>
    obtain ⟨n, hn⟩ := ih
    exact up n fun m hm => by
      have := hn m hm
      simp only [evalCall] at this
      simp [evalCall, renderComponent, hp, hb, this]
  | modelPrep hp => exact up 0 fun m _ => by simp [evalCall, renderModel, hp]
  | modelOk hp _ ih =>
    obtain ⟨n, hn⟩ := ih
    exact up n fun m hm => by
      have := hn m hm
      simp only [evalCall] at this
      simp [evalCall, renderModel, hp, this]
  | modelErr hp _ ih =>
    obtain ⟨n, hn⟩ := ih
    exact up n fun m hm => by
      have := hn m hm
      simp only [evalCall] at this
      simp [evalCall, renderModel, hp, this]
  | kidsDup hd => exact up 0 fun m _ => by simp [evalCall, renderChildren, hd]
  | kidsUnm hd hu => exact up 0 fun m _ => by simp [evalCall, renderChildren, hd, hu]
  | kidsLoop hd hu _ ih =>
    obtain ⟨n, hn⟩ := ih
    exact up n fun m hm => by
      have := hn m hm
      simp only [evalCall] at this
      simp [evalCall, renderChildren, hd, hu, this]
  | loopNil => exact up 0 fun m _ => by simp [evalCall, renderLoop]
  | loopFirst _ ih =>
    obtain ⟨n, hn⟩ := ih
    exact up n fun m hm => by
      have := hn m hm
      simp only [evalCall, kidPos] at this
      simp [evalCall, renderLoop, this, othersOf]
  | loopRest _ _ ih1 ih2 =>
    obtain ⟨n1, hn1⟩ := ih1
    obtain ⟨n2, hn2⟩ := ih2
    exact up (max n1 n2) fun m hm => by
      have h1 := hn1 m (by omega)
      have h2 := hn2 m (by omega)
      simp only [evalCall, kidPos, othersOf] at h1 h2
      simp [evalCall, renderLoop, h1, h2]
  | loopOk _ _ ih1 ih2 =>
    obtain ⟨n1, hn1⟩ := ih1
    obtain ⟨n2, hn2⟩ := ih2
    exact up (max n1 n2) fun m hm => by
      have h1 := hn1 m (by omega)
      have h2 := hn2 m (by omega)
      simp only [evalCall, kidPos, othersOf] at h1 h2
      simp [evalCall, renderLoop, h1, h2]
  | childElem _ ih =>
    obtain ⟨n, hn⟩ := ih
    exact up n fun m hm => by
      have := hn m hm
      simp only [evalCall] at this
      simp [evalCall, renderChild, this]
  | childComp _ ih =>
    obtain ⟨n, hn⟩ := ih
    exact up n fun m hm => by
      have := hn m hm
      simp only [evalCall] at this
      simp [evalCall, renderChild, this]
  | childText => exact up 0 fun m _ => by simp [evalCall, renderChild]
  | childTextOld hu => exact up 0 fun m _ => by simp [evalCall, renderChild, hu]
  | childTextErr hu => exact up 0 fun m _ => by simp [evalCall, renderChild, hu]
  | childNone => exact up 0 fun m _ => by simp [evalCall, renderChild]

/-- Two amounts of fuel that both suffice give the same result. -/
theorem eval_agree {n m : Nat} {call : Call} {s s1 s2 : St U} {r1 r2 : Res} (h1 : evalCall n call s = (s1, r1))
    (h2 : evalCall m call s = (s2, r2)) (d1 : r1 ≠ .diverge) (d2 : r2 ≠ .diverge) : s1 = s2 ∧ r1 = r2 := by
  obtain ⟨a, ha⟩ := eval_of_run (run_of_eval n call s s1 r1 h1 d1)
  obtain ⟨b, hb⟩ := eval_of_run (run_of_eval m call s s2 r2 h2 d2)
  have := (ha (max a b) (by omega)).symm.trans (hb (max a b) (by omega))
  cases this
  exact ⟨rfl, rfl⟩

/-- More fuel changes nothing once there was enough. -/
theorem eval_mono : ∀ (n : Nat) (call : Call) (s s' : St U) (r : Res), evalCall n call s = (s', r) → r ≠ .diverge →
    evalCall (n + 1) call s = (s', r) := by
  intro n
  induction n with
  | zero =>
    intro call s s' r h hr
    cases call <;> simp [evalCall, renderComponent, renderModel, renderChildren, renderLoop,
      renderChild] at h <;> exact absurd h.2.symm hr
  | succ n ih =>
    have ihC := fun top old pos c => ih (.comp top old pos c)
    have ihM := fun top old pos i cs => ih (.model top old pos i cs)
    have ihK := fun top old path kpath raws => ih (.kids top old path kpath raws)
    have ihL := fun top old path kpath idx infos => ih (.loop top old path kpath idx infos)
    have ihH := fun top old pos raw => ih (.child top old pos raw)
    simp only [evalCall] at ihC ihM ihK ihL ihH
    intro call s s' r h hr
    cases call with
    | comp top old pos c =>
      simp only [evalCall] at h ⊢
      rw [renderComponent] at h ⊢
      rcases hp : prepareComp old c s with ⟨s1, rest | ⟨id, ks⟩⟩
      · rw [hp] at h; exact h
      · rw [hp] at h; simp only at h ⊢
        rcases hb : runBody (enterComp s1 top id) id c with ⟨s2, e | raw⟩
        · rw [hb] at h; exact h
        · rw [hb] at h; simp only at h ⊢
          rcases hk : renderChildren n (some id) ks pos.path pos.kpath [raw] s2 with ⟨s3, kids | ⟨e, lost⟩ | _⟩
          · rw [hk] at h; rw [ihK _ _ _ _ _ _ _ _ hk (by simp)]; exact h
          · rw [hk] at h; rw [ihK _ _ _ _ _ _ _ _ hk (by simp)]; exact h
          · rw [hk] at h; cases h; exact absurd rfl hr
    | model top old pos i cs =>
      simp only [evalCall] at h ⊢
      rw [renderModel] at h ⊢
      rcases hp : prepareModel old i s with ⟨s1, ⟨e, lost⟩ | ⟨tag, ks⟩⟩
      · rw [hp] at h; exact h
      · rw [hp] at h; simp only at h ⊢
        rcases hk : renderChildren n top ks pos.path pos.kpath cs
            { s1 with handlers := addHandlers pos.kpath i.handlers s1.handlers } with ⟨s3, kids | ⟨e, lost⟩ | _⟩
        · rw [hk] at h; rw [ihK _ _ _ _ _ _ _ _ hk (by simp)]; exact h
        · rw [hk] at h; rw [ihK _ _ _ _ _ _ _ _ hk (by simp)]; exact h
        · rw [hk] at h; cases h; exact absurd rfl hr
    | kids top old path kpath raws =>
      simp only [evalCall] at h ⊢
      rw [renderChildren] at h ⊢
      cases hd : hasDupKeys (childrenInfo 0 raws) with
      | true => simp only [hd, if_true] at h ⊢; exact h
      | false =>
        simp only [hd, Bool.false_eq_true, if_false] at h ⊢
        rcases hu : unmountAll (removedKids old (childrenInfo 0 raws)) s with ⟨s1, _ | ⟨r0, rest⟩⟩
        · rw [hu] at h; exact ihL _ _ _ _ _ _ _ _ _ h hr
        · rw [hu] at h; exact h
    | loop top old path kpath idx infos =>
      cases infos with
      | nil => simp only [evalCall, renderLoop] at h ⊢; exact h
      | cons p infos =>
        obtain ⟨raw, key⟩ := p
        simp only [evalCall] at h ⊢
        rw [renderLoop] at h ⊢
        rcases hc : renderChild n top (lookupKid old key)
          { key := some key, path := path ++ [idx], kpath := kpath ++ [key] } raw s with ⟨s1, new | ⟨e, lost⟩ | _⟩
        · rw [hc] at h; rw [ihH _ _ _ _ _ _ _ hc (by simp)]; simp only at h ⊢
          rcases hl : renderLoop n top (old.filter (fun k => !decide (k.key? = some key))) path kpath (idx + 1) infos s1 with ⟨s2, news | ⟨e, lost⟩ | _⟩
          · rw [hl] at h; rw [ihL _ _ _ _ _ _ _ _ _ hl (by simp)]; exact h
          · rw [hl] at h; rw [ihL _ _ _ _ _ _ _ _ _ hl (by simp)]; exact h
          · rw [hl] at h; cases h; exact absurd rfl hr
        · rw [hc] at h; rw [ihH _ _ _ _ _ _ _ hc (by simp)]; exact h
        · rw [hc] at h; cases h; exact absurd rfl hr
    | child top old pos raw =>
      simp only [evalCall] at h ⊢
      cases raw with
      | none => simp only [renderChild] at h ⊢; exact h
      | elem i cs => simp only [renderChild] at h; exact ihM _ _ _ _ _ _ _ _ h hr
      | comp c => simp only [renderChild] at h; exact ihC _ _ _ _ _ _ _ h hr
      | text t => simp only [renderChild] at h ⊢; exact h

theorem eval_mono_le {n m : Nat} {call : Call} {s s' : St U} {r : Res} (h : evalCall n call s = (s', r)) (hr : r ≠ .diverge)
    (hm : n ≤ m) : evalCall m call s = (s', r) := by
  induction hm with
  | refl => exact h
  | step _ ih => exact eval_mono _ _ _ _ _ ih hr

/-! ### Termination -/

theorem childrenInfo_sub (raws : List Raw) : ∀ (idx : Nat), ∀ p ∈ childrenInfo idx raws, p.1 ∈ raws := by
  induction raws with
  | nil => simp [childrenInfo]
  | cons r rs ih =>
    intro idx p hp
    cases r <;> simp only [childrenInfo, List.mem_cons] at hp
    case none => exact List.mem_cons_of_mem _ (ih _ p hp)
    all_goals
      rcases hp with rfl | hp
      · simp
      · exact List.mem_cons_of_mem _ (ih _ p hp)

/-- Rendering this child ends. -/
def ChildEnds (U : User) (raw : Raw) : Prop := ∀ top old pos (s : St U), ∃ s' r, Run (.child top old pos raw) s s' r

theorem run_ne {call : Call} {s s' : St U} {r : Res} (h : Run call s s' r) : r ≠ .diverge := by
  induction h <;> simp_all

theorem loop_ends {infos : List (Raw × Key)} (h : ∀ p ∈ infos, ChildEnds U p.1) : ∀ top old path kpath idx (s : St U),
    ∃ s' r, Run (.loop top old path kpath idx infos) s s' r := by
  induction infos with
  | nil => intro top old path kpath idx s; exact ⟨_, _, .loopNil⟩
  | cons p infos ih =>
    obtain ⟨raw, key⟩ := p
    intro top old path kpath idx s
    obtain ⟨s1, r1, h1⟩ := h (raw, key) (by simp) top (lookupKid old key) (kidPos path kpath idx key) s
    cases r1 with
    | diverge => exact absurd rfl (run_ne h1)
    | err e lost => exact ⟨_, _, .loopFirst h1⟩
    | ok new =>
      obtain ⟨s2, r2, h2⟩ := ih (fun p hp => h p (by simp [hp])) top (othersOf old key) path kpath (idx + 1) s1
      cases r2 with
      | diverge => exact absurd rfl (run_ne h2)
      | err e lost => exact ⟨_, _, .loopRest h1 h2⟩
      | ok news => exact ⟨_, _, .loopOk h1 h2⟩

theorem kids_end {raws : List Raw} (h : ∀ r ∈ raws, ChildEnds U r) (top old path kpath) (s : St U) :
    ∃ s' r, Run (.kids top old path kpath raws) s s' r := by
  cases hd : hasDupKeys (childrenInfo 0 raws) with
  | true => exact ⟨_, _, .kidsDup hd⟩
  | false =>
    rcases hu : unmountAll (removedKids old (childrenInfo 0 raws)) s with ⟨s1, _ | ⟨r0, rest⟩⟩
    · obtain ⟨s2, r, h2⟩ := loop_ends (infos := childrenInfo 0 raws) (fun p hp => h _ (childrenInfo_sub raws 0 p hp))
        top (keptKids old (childrenInfo 0 raws)) path kpath 0 s1
      exact ⟨_, _, .kidsLoop hd hu h2⟩
    · exact ⟨_, _, .kidsUnm hd hu⟩

/-- Rendering this component ends. -/
def CompEnds (U : User) (c : Comp) : Prop := ∀ top old pos (s : St U), ∃ s' r, Run (.comp top old pos c) s s' r

mutual
theorem child_ends (raw : Raw) (h : ∀ d, raw.Has d → CompEnds U d) : ChildEnds U raw := by
  intro top old pos s
  match raw with
  | .none => exact ⟨_, _, .childNone⟩
  | .text t =>
    cases old with
    | none => exact ⟨_, _, .childText⟩
    | some o =>
      rcases hu : unmountAll [o] s with ⟨s1, _ | ⟨r0, rest⟩⟩
      · exact ⟨_, _, .childTextOld hu⟩
      · exact ⟨_, _, .childTextErr hu⟩
  | .comp c =>
    obtain ⟨s', r, h'⟩ := h c .comp top old pos s
    exact ⟨_, _, .childComp h'⟩
  | .elem i cs =>
    have hk := children_end cs (fun r hr d hd => h d (.elem hr hd))
    rcases hp : prepareModel old i s with ⟨s1, ⟨e, lost⟩ | ⟨tag, ks⟩⟩
    · exact ⟨_, _, .childElem (.modelPrep hp)⟩
    · obtain ⟨s2, r, h2⟩ := kids_end hk top ks pos.path pos.kpath
        { s1 with handlers := addHandlers pos.kpath i.handlers s1.handlers }
      cases r with
      | diverge => exact absurd rfl (run_ne h2)
      | err e lost => exact ⟨_, _, .childElem (.modelErr hp h2)⟩
      | ok kids => exact ⟨_, _, .childElem (.modelOk hp h2)⟩
theorem children_end (cs : List Raw) (h : ∀ r ∈ cs, ∀ d, r.Has d → CompEnds U d) : ∀ r ∈ cs, ChildEnds U r := by
  match cs with
  | [] => simp
  | c :: cs =>
    intro r hr
    have h1 := child_ends c (h c (by simp))
    have h2 := children_end cs (fun r hr => h r (by simp [hr]))
    rcases List.mem_cons.1 hr with rfl | hr
    · exact h1
    · exact h2 r hr
end

theorem runBody_returned {s s2 : St U} {id c raw} (h : runBody s id c = (s2, .ok raw)) : Returned U id c (s.ctx id) raw := by
  unfold runBody at h
  unfold Returned
  cases hc : c.type with
  | ctx x => rw [hc] at h; simp at h; exact h.2.symm
  | fn n => rw [hc] at h; simp at h; exact ⟨_, h.2⟩

theorem comp_ends (c : Comp) (h : Acc (Contains U) c) : CompEnds U c := by
  induction h with
  | intro c _ ih =>
    intro top old pos s
    rcases hp : prepareComp old c s with ⟨s1, rest | ⟨id, ks⟩⟩
    · exact ⟨_, _, .compUnm hp⟩
    · rcases hb : runBody (enterComp s1 top id) id c with ⟨s2, e | raw⟩
      · exact ⟨_, _, .compRaise hp hb⟩
      · have hraw := child_ends raw (fun d hd => ih d ⟨id, _, raw, runBody_returned hb, hd⟩)
        obtain ⟨s3, r, h3⟩ := kids_end (raws := [raw]) (by simpa using hraw) (some id) ks pos.path pos.kpath s2
        cases r with
        | diverge => exact absurd rfl (run_ne h3)
        | err e lost => exact ⟨_, _, .compErr hp hb h3⟩
        | ok kids => exact ⟨_, _, .compOk hp hb h3⟩

/-- Rendering an existing instance again yields its new state. -/
theorem renderAt_ends {p id c e ks} {s : St U} (h : Acc (Contains U) c) :
    ∃ n s' new, ∀ m, n ≤ m → renderAt m (.comp p id c e ks) s = some (s', new) := by
  obtain ⟨s', r, hr⟩ := comp_ends c h none (some (.comp p id c e ks)) p s
  obtain ⟨n, hn⟩ := eval_of_run hr
  have : ∃ x, r = .ok [x] := by
    cases hr with
    | compUnm hp => simp [prepareComp] at hp
    | compRaise => exact ⟨_, rfl⟩
    | compOk => exact ⟨_, rfl⟩
    | compErr => exact ⟨_, rfl⟩
  obtain ⟨x, rfl⟩ := this
  refine ⟨n, runExit s', x, fun m hm => ?_⟩
  have := hn m hm
  simp only [evalCall] at this
  simp [renderAt, this]

theorem renderAt_mono {n m : Nat} {old : Node} {s : St U} {x} (h : renderAt n old s = some x) (hm : n ≤ m) :
    renderAt m old s = some x := by
  unfold renderAt at h ⊢
  cases old with
  | text => simp at h
  | elem => simp at h
  | comp p id c e ks =>
    simp only at h ⊢
    split at h
    · rename_i s1 x hr
      have := eval_mono_le (call := .comp none (some (.comp p id c e ks)) p c) (n := n) (m := m) hr (by simp) hm
      simp only [evalCall] at this
      rw [this]
      exact h
    · simp at h

end Verif.Layout
