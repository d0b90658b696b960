import Verif.Layout.Life
/-! # Why a render fails, for all applications (helper lemmas) -/
namespace Verif.Layout
variable {U : User}

/-- Every recorded outcome is caused by what the body did, or by handlers missing from the table. -/
def LogCause (U : User) (log : List Ev) : Prop :=
  ∀ id c seen out, .rendered id c seen out ∈ log →
    match out with
    | .ok raw => Returned U id c seen raw ∧ ¬ raw.Malformed
    | .error e => RaisedIn U id c seen e ∨
        ∃ raw, Returned U id c seen raw ∧ (raw.Malformed ∧ e = "ValueError" ∨ e = "KeyError")

theorem LogCause.append {l t : List Ev} (h : LogCause U l) (ht : ∀ id c seen out, .rendered id c seen out ∉ t) :
    LogCause U (t ++ l) := by
  intro id c seen out hm
  rw [List.mem_append] at hm
  rcases hm with hm | hm
  · exact absurd hm (ht _ _ _ _)
  · exact h id c seen out hm

theorem LogCause.quiet {l t : List Ev} (h : LogCause U l) (hq : Quiet t) : LogCause U (t ++ l) :=
  h.append (fun id c seen out hm => by have := mem_completed hm; rw [hq.completed] at this; simp at this)

theorem LogCause.cons {l : List Ev} (h : LogCause U l) {id c seen out}
    (hn : match out with
      | .ok raw => Returned U id c seen raw ∧ ¬ raw.Malformed
      | .error e => RaisedIn U id c seen e ∨
        ∃ raw, Returned U id c seen raw ∧ (raw.Malformed ∧ e = "ValueError" ∨ e = "KeyError")) :
    LogCause U (.rendered id c seen out :: l) := by
  intro i d s o hm
  simp only [List.mem_cons, Ev.rendered.injEq] at hm
  rcases hm with ⟨rfl, rfl, rfl, rfl⟩ | hm
  · exact hn
  · exact h i d s o hm

/-- `None` children are not passed on. -/
def Call.some : Call → Prop
  | .child _ _ _ raw => raw.isNone = false
  | .loop _ _ _ _ _ infos => ∀ p ∈ infos, p.1.isNone = false
  | _ => True

structure CPost (call : Call) (s s' : St U) (r : Res) : Prop where
  ok : ∀ ns, r = .ok ns → ¬ call.bad
  err : ∀ e lost, r = .err e lost → call.bad ∧ e = "ValueError" ∨ e = "KeyError"
  log : LogCause U s.log → LogCause U s'.log

theorem childrenInfo_some (raws : List Raw) (j : Nat) : ∀ p ∈ childrenInfo j raws, p.1.isNone = false := by
  induction raws generalizing j with
  | nil => simp [childrenInfo]
  | cons r rs ih =>
    intro p hp
    cases r <;> simp only [childrenInfo, List.mem_cons] at hp
    · exact ih _ p hp
    all_goals
      rcases hp with rfl | hp
      · rfl
      · exact ih _ p hp

theorem comp_cause {top old c} {s s1 s2 : St U} {id ks out}
    (hp : prepareComp old c s = (s1, .ok (id, ks))) (hb : runBody (enterComp s1 top id) id c = (s2, out)) :
    (LogCause U s.log → LogCause U s2.log) ∧
    (∀ raw, out = .ok raw → Returned U id c ((enterComp s1 top id).ctx id) raw) ∧
    (∀ e, out = .error e → RaisedIn U id c ((enterComp s1 top id).ctx id) e) := by
  obtain ⟨⟨t, ht, hq⟩, _⟩ := prepareComp_quiet hp
  obtain ⟨_, b2, b3, b4⟩ := runBody_hand hb
  refine ⟨fun h => ?_, b3, b4⟩
  have hl : s2.log = [.entered id] ++ (t ++ s.log) := by rw [b2, ← ht]; rfl
  rw [hl]
  exact (h.quiet hq).append (by simp)

theorem prepareModel_cause {old i} {s s1 : St U} {r} (h : prepareModel old i s = (s1, r)) :
    (∀ e lost, r = .error (e, lost) → i.tag = none ∧ e = "ValueError" ∨ e = "KeyError") ∧
    (∀ x, r = .ok x → i.tag ≠ none) := by
  unfold prepareModel at h
  (repeat' split at h) <;> simp only [Prod.mk.injEq] at h <;> obtain ⟨rfl, rfl⟩ := h <;> simp_all

theorem run_cause {call} {s s' : St U} {r} (h : Run call s s' r) (hc : call.some) : CPost call s s' r := by
  induction h with
  | compUnm hpc =>
    obtain ⟨⟨t, ht, hq⟩, _⟩ := prepareComp_quiet hpc
    exact ⟨by simp, by intro e l h; cases h; exact .inr rfl, fun hl => by rw [ht]; exact hl.quiet hq⟩
  | compRaise hpc hb =>
    obtain ⟨h1, _, h3⟩ := comp_cause hpc hb
    exact ⟨fun _ _ => by simp [Call.bad], by simp, fun hl => (h1 hl).cons (.inl (h3 _ rfl))⟩
  | @compOk top old pos c s s1 id ks s2 raw s3 kids hpc hb hk ih =>
    obtain ⟨h1, h2, _⟩ := comp_cause hpc hb
    have := ih trivial
    refine ⟨fun _ _ => by simp [Call.bad], by simp, fun hl => (this.log (h1 hl)).cons ⟨h2 _ rfl, fun h => ?_⟩⟩
    exact this.ok kids rfl (by simp only [Call.bad, malformedL]; exact .inr (.inl h))
  | @compErr top old pos c s s1 id ks s2 raw s3 e lost hpc hb hk ih =>
    obtain ⟨h1, h2, _⟩ := comp_cause hpc hb
    have := ih trivial
    refine ⟨fun _ _ => by simp [Call.bad], by simp, fun hl => (this.log (h1 hl)).cons (.inr ⟨raw, h2 _ rfl, ?_⟩)⟩
    rcases this.err e lost rfl with ⟨hb, he⟩ | he
    · refine .inl ⟨?_, he⟩
      simp only [Call.bad, malformedL, or_false] at hb
      rcases hb with h | h
      · exact absurd (by cases raw <;> simp [keyed, Raw.isNone]) h
      · exact h
    · exact .inr he
  | modelPrep hpm =>
    obtain ⟨⟨t, ht, hq⟩, _⟩ := prepareModel_quiet hpm
    refine ⟨by simp, ?_, fun hl => by rw [ht]; exact hl.quiet hq⟩
    intro e l h; cases h
    rcases (prepareModel_cause hpm).1 _ _ rfl with ⟨h1, h2⟩ | h
    · exact .inl ⟨by simp [Call.bad, Raw.Malformed, h1], h2⟩
    · exact .inr h
  | @modelOk top old pos i cs s s1 tag ks s2 kids hpm hk ih =>
    obtain ⟨⟨t, ht, hq⟩, _⟩ := prepareModel_quiet hpm
    have := ih trivial
    refine ⟨?_, by simp, fun hl => this.log (by simp only [ht]; exact hl.quiet hq)⟩
    intro _ _ hb
    simp only [Call.bad, Raw.Malformed] at hb
    rcases hb with h | h
    · exact (prepareModel_cause hpm).2 _ rfl h
    · exact this.ok kids rfl h
  | @modelErr top old pos i cs s s1 tag ks s2 e lost hpm hk ih =>
    obtain ⟨⟨t, ht, hq⟩, _⟩ := prepareModel_quiet hpm
    have := ih trivial
    refine ⟨by simp, ?_, fun hl => this.log (by simp only [ht]; exact hl.quiet hq)⟩
    intro e' l' h; cases h
    rcases this.err e lost rfl with ⟨h1, h2⟩ | h
    · exact .inl ⟨by simp only [Call.bad, Raw.Malformed]; exact .inr h1, h2⟩
    · exact .inr h
  | kidsDup hd =>
    refine ⟨by simp, ?_, fun h => h⟩
    intro e l h; cases h
    exact .inl ⟨.inl ((hasDup_iff _).1 hd), rfl⟩
  | kidsUnm hd hu =>
    obtain ⟨t, ht, hq⟩ := unmountAll_quiet hu
    exact ⟨by simp, by intro e l h; cases h; exact .inr rfl, fun hl => by rw [ht]; exact hl.quiet hq⟩
  | @kidsLoop top old path kpath raws s s1 s2 r hd hu hl ih =>
    obtain ⟨t, ht, hq⟩ := unmountAll_quiet hu
    have := ih (childrenInfo_some raws 0)
    refine ⟨?_, ?_, fun hl => this.log (by rw [ht]; exact hl.quiet hq)⟩
    · rintro ns rfl (h | h)
      · rw [(hasDup_iff _).2 h] at hd; simp at hd
      · exact this.ok ns rfl ((childrenInfo_malformed raws 0).1 h)
    · intro e l he
      rcases this.err e l he with ⟨h1, h2⟩ | h
      · exact .inl ⟨.inr ((childrenInfo_malformed raws 0).2 h1), h2⟩
      · exact .inr h
  | loopNil => exact ⟨fun _ _ => by simp [Call.bad], by simp, fun h => h⟩
  | @loopFirst top old path kpath idx raw key infos s s1 e lost hch ih =>
    have := ih (hc (raw, key) (by simp))
    refine ⟨by simp, ?_, this.log⟩
    intro e' l h; cases h
    exact (this.err e lost rfl).imp (fun h => ⟨⟨(raw, key), by simp, h.1⟩, h.2⟩) id
  | @loopRest top old path kpath idx raw key infos s s1 new s2 e lost hch hl ih1 ih2 =>
    have h1 := ih1 (hc (raw, key) (by simp))
    have h2 := ih2 (fun p hp => hc p (by simp [hp]))
    refine ⟨by simp, ?_, fun h => h2.log (h1.log h)⟩
    intro e' l h; cases h
    refine (h2.err e lost rfl).imp (fun h => ⟨?_, h.2⟩) id
    obtain ⟨p, hp, hb⟩ := h.1
    exact ⟨p, by simp [hp], hb⟩
  | @loopOk top old path kpath idx raw key infos s s1 new s2 news hch hl ih1 ih2 =>
    have h1 := ih1 (hc (raw, key) (by simp))
    have h2 := ih2 (fun p hp => hc p (by simp [hp]))
    refine ⟨?_, by simp, fun h => h2.log (h1.log h)⟩
    rintro _ _ ⟨p, hp, hb⟩
    simp only [List.mem_cons] at hp
    rcases hp with rfl | hp
    · exact h1.ok new rfl hb
    · exact h2.ok news rfl ⟨p, hp, hb⟩
  | childElem hm ih =>
    have := ih trivial
    exact ⟨this.ok, this.err, this.log⟩
  | childComp hm ih =>
    have := ih trivial
    exact ⟨fun _ _ => by simp [Call.bad, Raw.Malformed],
      fun e l h => (this.err e l h).imp (fun h => absurd h.1 (by simp [Call.bad])) id, this.log⟩
  | childText => exact ⟨fun _ _ => by simp [Call.bad, Raw.Malformed], by simp, fun h => h⟩
  | childTextOld hu =>
    obtain ⟨t, ht, hq⟩ := unmountAll_quiet hu
    exact ⟨fun _ _ => by simp [Call.bad, Raw.Malformed], by simp, fun hl => by rw [ht]; exact hl.quiet hq⟩
  | childTextErr hu =>
    obtain ⟨t, ht, hq⟩ := unmountAll_quiet hu
    exact ⟨by simp, by intro e l h; cases h; exact .inr rfl, fun hl => by rw [ht]; exact hl.quiet hq⟩
  | childNone => simp [Call.some, Raw.isNone] at hc

theorem renderAt_cause {fuel old} {s s' : St U} {new} (h : renderAt fuel old s = some (s', new))
    (hl : LogCause U s.log) : LogCause U s'.log := by
  obtain ⟨p, id', c, e, ks, e', ks', s1, rfl, rfl, rfl, hrun⟩ := renderAt_run h
  rw [runExit_log]
  exact ((run_cause hrun trivial).log hl).append (by simp)

theorem cause_run (w : U.World) (root : Comp) (ops : List (Op U)) :
    LogCause U (runSys (initSys U w root) ops).layout.st.log := by
  refine run_induct (P := fun s => LogCause U s.layout.st.log) ?_ ?_ ops
  · intro id c seen out hm; simp [initSys, initLayout] at hm
  · intro s op ih
    rw [stepSys_layout]
    have hc := step_cases s.layout op
    revert hc
    generalize (stepOp s.layout op).1 = l'
    generalize (stepOp s.layout op).2 = out
    intro hc
    cases hc with
    | idle h1 h2 h3 h4 h5 => simp only [h5]; exact ih
    | tree hf hr => exact renderAt_cause hr ih
    | @orphan _ _ _ s' _ hs hf hr => exact (renderAt_cause hr ih : LogCause U s'.log)
    | raised => exact ih
    | diverged => exact ih

end Verif.Layout
