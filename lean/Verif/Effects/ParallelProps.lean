import Verif.Effects.Parallel
import Verif.Sched.Lemmas
/-!
# C90: effects when updates are made in parallel
-/
namespace Verif.Effects.Parallel

/-! ### Specification -/

/-- The number of effects that bodies have added. -/
def added (acts : List Act) : Nat :=
  (acts.map fun a => match a with | .body _ n => n | _ => 0).sum

/-- The updates that ran the body and have not ended. -/
def unfinished : List Act → List Nat
  | acts => acts.foldl (fun d a => match a with
    | .body t _ => d ++ [t]
    | .leave t => d.filter (· ≠ t)
    | _ => d) []

/-! ### Every effect is started once -/

structure Inv (s : St) : Prop where
  all : s.started ++ s.funcs = List.range s.nextFunc
  due : s.due = [] → s.funcs = []
  given : ∀ g ∈ s.started, ∃ e, s.stopOf g = some e ∧ (e ∈ s.stops ∨ s.isSet e = true)
  stopsLt : ∀ e ∈ s.stops, e < s.nextStop

theorem range_add (a n : Nat) : List.range a ++ (List.range n).map (a + ·) = List.range (a + n) := by
  rw [List.range_add]

theorem inv_didRender {s : St} (h : Inv s) : Inv (didRender s) := by
  refine ⟨?_, fun _ => rfl, ?_, ?_⟩
  · show (s.started ++ s.funcs) ++ [] = _
    rw [List.append_nil, h.all]; rfl
  · intro g hg
    show ∃ e, (if g ∈ s.funcs then some s.nextStop else s.stopOf g) = some e ∧
      (e ∈ s.stops ++ [s.nextStop] ∨ s.isSet e = true)
    by_cases hf : g ∈ s.funcs
    · exact ⟨s.nextStop, if_pos hf, .inl (by simp)⟩
    · have : g ∈ s.started := by
        rcases List.mem_append.1 hg with h' | h'
        · exact h'
        · exact absurd h' hf
      obtain ⟨e, h1, h2⟩ := h.given g this
      refine ⟨e, by rw [if_neg hf]; exact h1, ?_⟩
      rcases h2 with h2 | h2
      · exact .inl (List.mem_append_left _ h2)
      · exact .inr h2
  · intro e he
    rcases List.mem_append.1 he with h' | h'
    · exact Nat.lt_succ_of_lt (h.stopsLt e h')
    · simp only [List.mem_singleton] at h'; subst h'; exact Nat.lt_succ_self _

theorem inv_didRenders (n : Nat) {s : St} (h : Inv s) : Inv (didRenders n s) := by
  induction n generalizing s with
  | zero => exact h
  | succ n ih => exact ih (inv_didRender h)

theorem didRenders_keep (n : Nat) (s : St) :
    (didRenders n s).nextFunc = s.nextFunc ∧ (didRenders n s).due = s.due ∧ (didRenders n s).isSet = s.isSet ∧
    (0 < n → (didRenders n s).funcs = []) ∧ (n = 0 → didRenders n s = s) := by
  induction n generalizing s with
  | zero => exact ⟨rfl, rfl, rfl, fun h => absurd h (by decide), fun _ => rfl⟩
  | succ n ih =>
    obtain ⟨h1, h2, h3, h4, h5⟩ := ih (didRender s)
    refine ⟨h1, h2, h3, fun _ => ?_, fun h => by omega⟩
    cases n with
    | zero => rfl
    | succ n => exact h4 (Nat.succ_pos _)

theorem count_pos_iff (l : List Nat) (t : Nat) : 0 < l.count t ↔ t ∈ l := List.count_pos_iff

theorem inv_step {s : St} (h : Inv s) (a : Act) : Inv (step s a) := by
  cases a with
  | body t n =>
    refine ⟨?_, ?_, h.given, h.stopsLt⟩
    · show s.started ++ (s.funcs ++ _) = _
      rw [← List.append_assoc, h.all, range_add]; rfl
    · intro hd; simp [step] at hd
  | leave t =>
    have h' := inv_didRenders (s.due.count t) h
    refine ⟨h'.all, ?_, h'.given, h'.stopsLt⟩
    intro hd
    show (didRenders (s.due.count t) s).funcs = []
    obtain ⟨_, _, _, h4, h5⟩ := didRenders_keep (s.due.count t) s
    by_cases ht : t ∈ s.due
    · exact h4 ((count_pos_iff _ _).2 ht)
    · have h0 : s.due.count t = 0 := List.count_eq_zero.2 ht
      rw [h5 h0]
      apply h.due
      have hd' : s.due.filter (· ≠ t) = [] := hd
      rw [List.filter_eq_nil_iff] at hd'
      cases hl : s.due with
      | nil => rfl
      | cons a r =>
        have ha : a ∈ s.due := by rw [hl]; exact List.mem_cons_self
        have := hd' a ha
        simp only [ne_eq, decide_not, Bool.not_eq_true', decide_eq_false_iff_not, Classical.not_not] at this
        exact absurd (this ▸ ha) ht
  | unmount =>
    refine ⟨h.all, h.due, ?_, by intro e he; cases he⟩
    intro g hg
    obtain ⟨e, h1, h2⟩ := h.given g hg
    refine ⟨e, h1, .inr ?_⟩
    show (s.isSet e || s.stops.contains e) = true
    rcases h2 with h2 | h2
    · simp [h2]
    · simp [h2]
  | gathered => exact ⟨h.all, h.due, h.given, h.stopsLt⟩

theorem inv_run (acts : List Act) (s : St) (h : Inv s) : Inv (run acts s) := by
  induction acts generalizing s with
  | nil => exact h
  | cons a as ih => exact ih _ (inv_step h a)

theorem inv_init : Inv {} := ⟨rfl, fun _ => rfl, (by intro g hg; cases hg), (by intro e he; cases he)⟩

theorem added_eq (acts : List Act) (s : St) : (run acts s).nextFunc = s.nextFunc + added acts := by
  induction acts generalizing s with
  | nil => rfl
  | cons a as ih =>
    have : run (a :: as) s = run as (step s a) := rfl
    rw [this, ih]
    cases a with
    | body t n => simp [step, added, Nat.add_assoc]
    | leave t => simp [step, (didRenders_keep _ s).1, added]
    | unmount => simp [step, added]
    | gathered => simp [step, added]

theorem due_eq (acts : List Act) : (run acts).due = unfinished acts := by
  suffices h : ∀ (acts : List Act) (s : St), (run acts s).due = acts.foldl (fun d a => match a with
      | .body t _ => d ++ [t]
      | .leave t => d.filter (· ≠ t)
      | _ => d) s.due from h acts {}
  intro acts
  induction acts with
  | nil => intro s; rfl
  | cons a as ih =>
    intro s
    have : run (a :: as) s = run as (step s a) := rfl
    rw [this, ih]
    cases a with
    | body t n => rfl
    | leave t => rfl
    | unmount => rfl
    | gathered => rfl

/-- **C90**, start: however updates overlap, the effects are started in the order in which the bodies added them, none of them twice;
and when no update is in progress any more that ran the body, all of them have been started. -/
theorem C90_started (acts : List Act) :
    ∃ k ≤ added acts, (run acts).started = List.range k ∧ (unfinished acts = [] → k = added acts) := by
  have h := inv_run acts {} inv_init
  have hn : (run acts).nextFunc = added acts := by rw [added_eq]; exact Nat.zero_add _
  refine ⟨(run acts).started.length, ?_, ?_, ?_⟩
  · rw [← hn]
    have := congrArg List.length h.all
    simp only [List.length_append, List.length_range] at this
    omega
  · have := congrArg (List.take (run acts).started.length) h.all
    rw [List.take_left, List.take_range] at this
    rw [this]
    have hl := congrArg List.length h.all
    simp only [List.length_append, List.length_range] at hl
    have : min (run acts).started.length (run acts).nextFunc = (run acts).started.length := by omega
    rw [this]; simp
  · intro hu
    rw [← due_eq] at hu
    have hf := h.due hu
    have := congrArg List.length h.all
    rw [hf] at this
    simp only [List.append_nil, List.length_range] at this
    rw [this, hn]

example : (run [.body 1 2, .body 2 1, .leave 2, .leave 1]).started = [0, 1, 2] ∧
    unfinished [.body 1 2, .body 2 1, .leave 2, .leave 1] = [] := by decide +kernel

/-! ### The effects of a removed component are stopped -/

theorem stopped_didRenders (n : Nat) {s : St} (h : Inv s) (g : Nat) (hg : g ∈ s.started) :
    g ∈ (didRenders n s).started ∧ (didRenders n s).stopped g = s.stopped g := by
  induction n generalizing s with
  | zero => exact ⟨hg, rfl⟩
  | succ n ih =>
    obtain ⟨h1, h2⟩ := ih (inv_didRender h) (List.mem_append_left _ hg)
    refine ⟨h1, h2.trans ?_⟩
    have hf : g ∉ s.funcs := by
      intro hf
      have : (s.started ++ s.funcs).Nodup := h.all ▸ List.nodup_range
      exact (List.nodup_append.1 this).2.2 g hg g hf rfl
    show (match (if g ∈ s.funcs then some s.nextStop else s.stopOf g) with
      | some e => s.isSet e | none => false) = _
    rw [if_neg hf]; rfl

theorem stopped_mono (acts : List Act) (s : St) (h : Inv s) (g : Nat) (hg : g ∈ s.started) (hs : s.stopped g = true) :
    (run acts s).stopped g = true := by
  induction acts generalizing s with
  | nil => exact hs
  | cons a as ih =>
    refine ih (step s a) (inv_step h a) ?_ ?_
    · cases a with
      | leave t => exact (stopped_didRenders _ h g hg).1
      | _ => exact hg
    · cases a with
      | leave t => exact (stopped_didRenders _ h g hg).2.trans hs
      | unmount =>
        unfold St.stopped at hs ⊢
        show (match s.stopOf g with | some e => s.isSet e || s.stops.contains e | none => false) = true
        cases he : s.stopOf g with
        | none => rw [he] at hs; cases hs
        | some e => rw [he] at hs; simp only at hs ⊢; rw [hs]; rfl
      | _ => exact hs

theorem stopped_unmount {s : St} (h : Inv s) (g : Nat) (hg : g ∈ s.started) : (step s .unmount).stopped g = true := by
  obtain ⟨e, h1, h2⟩ := h.given g hg
  show (match s.stopOf g with | some e => s.isSet e || s.stops.contains e | none => false) = true
  rw [h1]
  rcases h2 with h2 | h2
  · simp [h2]
  · simp [h2]

theorem started_stays (acts : List Act) (s : St) (hd : s.due = [])
    (hb : ∀ a ∈ acts, ∀ t n, a ≠ .body t n) : (run acts s).started = s.started := by
  induction acts generalizing s with
  | nil => rfl
  | cons a as ih =>
    have hstep : (step s a).started = s.started ∧ (step s a).due = [] := by
      cases a with
      | body t n => exact absurd rfl (hb _ List.mem_cons_self t n)
      | leave t =>
        have h0 : s.due.count t = 0 := by rw [hd]; rfl
        refine ⟨?_, ?_⟩
        · show (didRenders (s.due.count t) s).started = _
          rw [h0]; rfl
        · show s.due.filter (· ≠ t) = []
          rw [hd]; rfl
      | unmount => exact ⟨rfl, hd⟩
      | gathered => exact ⟨rfl, hd⟩
    have : run (a :: as) s = run as (step s a) := rfl
    rw [this, ih _ hstep.2 (fun a ha => hb a (List.mem_cons_of_mem _ ha)), hstep.1]

/-- **C90**, removal (partial: no update that contains the component is in progress when it is removed, and none begins afterwards):
every effect that was ever started is told to stop when the component is removed, and none is started later. -/
theorem C90_stopped_partial (acts later : List Act) (hd : unfinished acts = [])
    (hb : ∀ a ∈ later, ∀ t n, a ≠ .body t n) :
    (run (acts ++ .unmount :: later)).started = List.range (added acts) ∧
    ∀ g < added acts, (run (acts ++ .unmount :: later)).stopped g = true := by
  have hsplit : run (acts ++ .unmount :: later) = run later (step (run acts) .unmount) := by
    simp [run, List.foldl_append]
  have hi := inv_run acts {} inv_init
  obtain ⟨k, _, h1, h2⟩ := C90_started acts
  have hk := h2 hd
  rw [hk] at h1
  have hdue : (step (run acts) .unmount).due = [] := (due_eq acts).trans hd
  refine ⟨?_, ?_⟩
  · rw [hsplit, started_stays later _ hdue hb]; exact h1
  · intro g hg
    rw [hsplit]
    have hm : g ∈ (run acts).started := by rw [h1]; exact List.mem_range.2 hg
    exact stopped_mono later _ (inv_step hi _) g hm (stopped_unmount hi g hm)

example : unfinished [.body 1 2, .body 2 1, .leave 2, .leave 1] = [] ∧ added [.body 1 2, .body 2 1, .leave 2, .leave 1] = 3 := by
  decide +kernel

/-- **C90**, waiting: the removal waits for all the effects that were started. -/
theorem C90_awaited (acts : List Act) (hg : ∀ a ∈ acts, a ≠ .gathered) : (run acts).tasks = (run acts).started := by
  suffices h : ∀ (acts : List Act) (s : St), (∀ a ∈ acts, a ≠ .gathered) → s.tasks = s.started →
      (run acts s).tasks = (run acts s).started from h acts {} hg rfl
  intro acts
  induction acts with
  | nil => intro s _ h; exact h
  | cons a as ih =>
    intro s hg h
    refine ih (step s a) (fun a ha => hg a (List.mem_cons_of_mem _ ha)) ?_
    cases a with
    | leave t =>
      have : ∀ (n : Nat) (s : St), s.tasks = s.started → (didRenders n s).tasks = (didRenders n s).started := by
        intro n
        induction n with
        | zero => exact fun _ h => h
        | succ n ihn =>
          intro s h
          exact ihn (didRender s) (by show s.tasks ++ s.funcs = s.started ++ s.funcs; rw [h])
      exact this _ s h
    | gathered => exact absurd rfl (hg _ List.mem_cons_self)
    | _ => exact h

example : (run [.body 1 2, .body 2 1, .leave 2, .unmount]).tasks = [0, 1, 2] := by decide +kernel

/-! ### In the scheduler -/

/-- The updates in progress: begun, and not ended. -/
def Busy (s : Sched.St) (t : Nat) : Prop :=
  t < s.next ∧ ((s.tasks t).stat = .running ∨ (s.tasks t).stat = .cancelled)

theorem busy_cancel {k : Sched.Task} (h : k.stat = .running ∨ k.stat = .cancelled) :
    (Sched.cancelTask k).stat = .running ∨ (Sched.cancelTask k).stat = .cancelled := by
  unfold Sched.cancelTask
  rcases h with h | h <;> rw [h]
  · exact .inr rfl
  · exact .inr h

theorem busy_enter {s : Sched.St} {t : Nat} (h : Busy s t) (t' y : Nat) : Busy (Sched.enter s t' y) t := by
  unfold Sched.enter
  obtain ⟨h1, h2⟩ := h
  cases hb : s.byId y with
  | none =>
    simp only [hb]
    refine ⟨h1, ?_⟩
    simp only [Sched.upd]
    by_cases e : t = t'
    · subst e; simpa using h2
    · simpa [e] using h2
  | some t'' =>
    simp only [hb]
    by_cases e'' : t'' = t'
    · simp only [if_pos e'']
      refine ⟨h1, ?_⟩
      simp only [Sched.upd]
      by_cases e : t = t'
      · subst e; simpa using h2
      · simpa [e] using h2
    · simp only [if_neg e'']
      refine ⟨h1, ?_⟩
      simp only [Sched.upd]
      by_cases e : t = t'
      · subst e
        simpa [Ne.symm e''] using h2
      · by_cases e2 : t = t''
        · subst e2
          simpa [e] using busy_cancel h2
        · simpa [e, e2] using h2

theorem busy_schedule {s : Sched.St} {t : Nat} (h : Busy s t) (x : Nat) : Busy (Sched.schedule s x) t := by
  unfold Sched.schedule
  split
  · exact h
  · split
    · refine ⟨Nat.lt_succ_of_lt h.1, ?_⟩
      have : t ≠ s.next := Nat.ne_of_lt h.1
      simpa [Sched.upd, this] using h.2
    · exact h

theorem busy_put {s : Sched.St} {t : Nat} (h : Busy s t) (t' : Nat) (k : Sched.Task)
    (hk : t = t' → k.stat = .running ∨ k.stat = .cancelled) : Busy (s.put t' k) t := by
  refine ⟨h.1, ?_⟩
  show ((Sched.upd s.tasks t' k) t).stat = .running ∨ ((Sched.upd s.tasks t' k) t).stat = .cancelled
  unfold Sched.upd
  by_cases e : t = t'
  · simp only [if_pos e]; exact hk e
  · simp only [if_neg e]; exact h.2

theorem busy_finish {s : Sched.St} {t : Nat} (h : Busy s t) (t' : Nat) :
    Busy (Sched.finishCall s t') t ∨ (t' = t ∧ ((Sched.finishCall s t').tasks t).stat = .done) := by
  simp only [Sched.finishCall]
  split
  · rename_i o y fs he
    by_cases e : t = t'
    · subst e
      cases fs with
      | nil =>
        right
        refine ⟨rfl, ?_⟩
        simp [Sched.St.put, Sched.upd]
      | cons f r =>
        left
        exact ⟨h.1, (busy_put h t _ (fun _ => .inl rfl)).2⟩
    · left
      exact ⟨h.1, (busy_put h t' _ (fun e' => absurd e' e)).2⟩
  · exact .inl h

theorem busy_fail (T : Sched.Tree) {s : Sched.St} {t : Nat} (h : Busy s t) (t' : Nat) : Busy (Sched.failCall T s t') t := by
  simp only [Sched.failCall]
  split
  · exact ⟨h.1, (busy_put h t' _ (fun _ => .inl rfl)).2⟩
  · exact ⟨h.1, (busy_put h t' _ (fun _ => .inl rfl)).2⟩
  · exact h

/-- A task in progress stays in progress, unless this step ends it. -/
theorem busy_step (T : Sched.Tree) {s : Sched.St} {t : Nat} (h : Busy s t) (a : Sched.Act) :
    Busy (Sched.step T s a) t ∨
      (((a = .finish t ∨ a = .fail t) ∧ ((Sched.step T s a).tasks t).stat = .done) ∨
       (a = .die t ∧ ((Sched.step T s a).tasks t).stat = .dead)) := by
  cases a with
  | set x v =>
    left; simp only [Sched.step]
    split
    · exact h
    · exact busy_schedule (by exact ⟨h.1, h.2⟩) x
  | foreign x v =>
    left; simp only [Sched.step]
    split
    · exact h
    · exact ⟨h.1, h.2⟩
  | start t' =>
    left; simp only [Sched.step]
    split
    · refine busy_enter (busy_put h _ _ ?_) _ _
      intro _; exact .inl rfl
    · exact h
  | grant t' =>
    left; simp only [Sched.step]
    split
    · split
      · exact ⟨h.1, (busy_put h t' _ (fun _ => .inl rfl)).2⟩
      · exact h
    · exact h
  | body t' kids =>
    left; simp only [Sched.step]
    split
    · exact ⟨h.1, (busy_put h t' _ (fun _ => .inl rfl)).2⟩
    · exact h
  | next t' =>
    left; simp only [Sched.step]
    split
    · exact busy_enter (busy_put h _ _ (fun _ => .inl rfl)) _ _
    · exact h
  | finish t' =>
    rcases busy_finish h t' with h | ⟨rfl, h⟩
    · exact .inl h
    · exact .inr (.inl ⟨.inl rfl, h⟩)
  | fail t' =>
    rcases busy_finish (busy_fail T h t') t' with h | ⟨rfl, h⟩
    · exact .inl h
    · exact .inr (.inl ⟨.inr rfl, h⟩)
  | crash t' =>
    left; simp only [Sched.step]
    split
    · rename_i hc
      refine busy_put h t' _ fun e => ?_
      subst e
      rcases h.2 with h | h <;> rw [hc.2.1] at h <;> cases h
    · exact h
  | lose y => left; exact ⟨h.1, h.2⟩
  | die t' =>
    simp only [Sched.step]
    split
    · by_cases e : t = t'
      · subst e
        right; right
        refine ⟨rfl, ?_⟩
        simp [Sched.St.put, Sched.upd]
      · left
        exact ⟨h.1, (busy_put h t' _ (fun e' => absurd e' e)).2⟩
    · exact .inl h
  | call =>
    left; simp only [Sched.step]; split <;> exact ⟨h.1, h.2⟩
  | acquire =>
    left; simp only [Sched.step]
    split
    · split
      · exact h
      · split <;> exact ⟨h.1, h.2⟩
    · exact h
  | pick t' =>
    left; simp only [Sched.step]
    split
    · split
      · split <;> exact ⟨h.1, h.2⟩
      · exact h
    · exact h
  | abort => left; exact ⟨h.1, h.2⟩

theorem busy_not_ended {s : Sched.St} {t : Nat} (h : Busy s t) : (s.tasks t).stat ≠ .done ∧ (s.tasks t).stat ≠ .dead ∧
    (s.tasks t).stat ≠ .crashed := by
  rcases h.2 with h | h <;> rw [h] <;> exact ⟨by decide, by decide, by decide⟩

/-- How the updates that ran the body and have not ended change with one step. -/
theorem unfinished_seen (T : Sched.Tree) (adds : Nat → Nat) (x : Nat) {s : Sched.St} (hs : Sched.Good T (fun _ => False) s) (a : Sched.Act) (d : List Nat)
    (hd : ∀ t ∈ d, Busy s t) :
    ∀ t ∈ (seen T adds x s a).foldl (fun d a => match a with
      | .body t _ => d ++ [t]
      | .leave t => d.filter (· ≠ t)
      | _ => d) d, Busy (Sched.step T s a) t := by
  have keep' : ∀ t, Busy s t → (¬ (((a = .finish t ∨ a = .fail t) ∧ ((Sched.step T s a).tasks t).stat = .done) ∨
      (a = .die t ∧ ((Sched.step T s a).tasks t).stat = .dead))) → Busy (Sched.step T s a) t := by
    intro t ht hn
    rcases busy_step T ht a with h | h
    · exact h
    · exact absurd h hn
  have keep := fun t ht => keep' t (hd t ht)
  cases a with
  | fail t' =>
    unfold seen
    simp only
    rw [List.foldl_append]
    generalize hd' : List.foldl _ d (match s.tasks t' with
      | ⟨_, .running, ⟨y, .granted⟩ :: _⟩ => if y = x then [Act.body t' (adds t')] else []
      | _ => []) = d'
    have hall : ∀ t ∈ d', Busy s t := by
      subst hd'
      split
      · rename_i o y fs he
        split
        · simp only [List.foldl_cons, List.foldl_nil]
          intro t ht
          rcases List.mem_append.1 ht with h | h
          · exact hd t h
          · simp only [List.mem_singleton] at h; subst h
            exact ⟨Sched.tasks_lt (fun u hu => (hs.fresh u hu).1) he (by decide), .inl (by rw [he])⟩
        · exact hd
      · exact hd
    clear hd'
    split
    · rename_i h
      simp only [List.foldl_cons, List.foldl_nil]
      intro t ht
      rw [List.mem_filter] at ht
      have hne : t ≠ t' := by simpa using ht.2
      refine keep' t (hall t ht.1) ?_
      rintro (⟨h | h, _⟩ | ⟨h, _⟩)
      · cases h
      · injection h with h; exact hne h.symm
      · cases h
    · rename_i h
      intro t ht
      refine keep' t (hall t ht) ?_
      rintro (⟨e | e, h'⟩ | ⟨e, _⟩)
      · cases e
      · injection e with e; subst e
        exact h ⟨(busy_not_ended (hall _ ht)).1, h'⟩
      · cases e
  | lose y =>
    have hall : ∀ t ∈ d, Busy (Sched.step T s (.lose y)) t := fun t ht =>
      keep t ht (by rintro (⟨h | h, _⟩ | ⟨h, _⟩) <;> cases h)
    unfold seen
    simp only
    split
    · exact hall
    · exact hall
  | body t' kids =>
    have hall : ∀ t ∈ d, Busy (Sched.step T s (.body t' kids)) t := fun t ht =>
      keep t ht (by rintro (⟨h | h, _⟩ | ⟨h, _⟩) <;> cases h)
    unfold seen
    simp only
    split
    · rename_i o y fs he
      split
      · simp only [List.foldl_cons, List.foldl_nil]
        intro t ht
        rcases List.mem_append.1 ht with h | h
        · exact hall t h
        · simp only [List.mem_singleton] at h; subst h
          have hlt : t < s.next := Sched.tasks_lt (fun u hu => (hs.fresh u hu).1) he (by decide)
          refine (busy_step T (t := t) ⟨hlt, .inl (by rw [he])⟩ (.body t kids)).resolve_right ?_
          rintro (⟨h | h, _⟩ | ⟨h, _⟩) <;> cases h
      · split
        · exact hall
        · exact hall
    · exact hall
  | finish t' =>
    unfold seen
    simp only
    split
    · rename_i h
      simp only [List.foldl_cons, List.foldl_nil]
      intro t ht
      rw [List.mem_filter] at ht
      have hne : t ≠ t' := by simpa using ht.2
      refine keep t ht.1 ?_
      rintro (⟨h | h, _⟩ | ⟨h, _⟩)
      · injection h with h; exact hne h.symm
      · cases h
      · cases h
    · rename_i h
      intro t ht
      refine keep t ht ?_
      rintro (⟨e | e, h'⟩ | ⟨e, _⟩)
      · injection e with e; subst e
        exact h ⟨(busy_not_ended (hd _ ht)).1, h'⟩
      · cases e
      · cases e
  | die t' =>
    unfold seen
    simp only
    split
    · rename_i h
      simp only [List.foldl_cons, List.foldl_nil]
      intro t ht
      rw [List.mem_filter] at ht
      have hne : t ≠ t' := by simpa using ht.2
      refine keep t ht.1 ?_
      rintro (⟨h | h, _⟩ | ⟨h, _⟩)
      · cases h
      · cases h
      · injection h with h; exact hne h.symm
    · rename_i h
      intro t ht
      refine keep t ht ?_
      rintro (⟨e | e, _⟩ | ⟨e, h'⟩)
      · cases e
      · cases e
      · injection e with e; subst e
        exact h ⟨(busy_not_ended (hd _ ht)).2.1, h'⟩
  | _ => exact fun t ht => keep t ht (by rintro (⟨h | h, _⟩ | ⟨h, _⟩) <;> cases h)

theorem unfinished_busy (T : Sched.Tree) (adds : Nat → Nat) (x : Nat) (acts : List Sched.Act)
    (s : Sched.St) (hs : Sched.Good T (fun _ => False) s) (d : List Nat) (hd : ∀ t ∈ d, Busy s t) :
    ∀ t ∈ (project T adds x s acts).foldl (fun d a => match a with
      | .body t _ => d ++ [t]
      | .leave t => d.filter (· ≠ t)
      | _ => d) d, Busy (Sched.run T s acts) t := by
  induction acts generalizing s d with
  | nil => exact hd
  | cons a as ih =>
    unfold project
    rw [List.foldl_append]
    exact ih _ (Sched.good_step hs fun _ _ _ h => h) _
      (unfinished_seen T adds x hs a d hd)

/-- **C90** for whole schedules: in any schedule of the layout's tasks, the effects of any component are started in the order in which its
bodies added them, each at most once, and all of them once no update is in progress that ran its body. -/
theorem C90_schedule (T : Sched.Tree) (adds : Nat → Nat) (x : Nat) (acts : List Sched.Act) :
    ∃ k ≤ added (project T adds x Sched.init acts),
      (run (project T adds x Sched.init acts)).started = List.range k ∧
      (unfinished (project T adds x Sched.init acts) = [] → k = added (project T adds x Sched.init acts)) :=
  C90_started _

/-- **C90** for whole schedules, once the layout is quiet: when all the layout's tasks have ended, those that were cancelled among them,
every effect that a body of the component added has been started, exactly once, those of bodies that failed among them. -/
theorem C90_quiet (T : Sched.Tree) (adds : Nat → Nat) (x : Nat) (acts : List Sched.Act)
    (hq : ∀ t, t < (Sched.run T Sched.init acts).next →
      ((Sched.run T Sched.init acts).tasks t).stat = .done ∨ ((Sched.run T Sched.init acts).tasks t).stat = .dead ∨
      ((Sched.run T Sched.init acts).tasks t).stat = .crashed) :
    (run (project T adds x Sched.init acts)).started = List.range (added (project T adds x Sched.init acts)) := by
  obtain ⟨k, _, h2, h3⟩ := C90_started (project T adds x Sched.init acts)
  rw [h2, h3]
  apply List.eq_nil_iff_forall_not_mem.2
  intro t ht
  have hb := unfinished_busy T adds x acts Sched.init (Sched.good_init T _) [] (by intro t h; cases h) t ht
  have he := busy_not_ended hb
  rcases hq t hb.1 with h | h | h
  · exact he.1 h
  · exact he.2.1 h
  · exact he.2.2 h

/-- A root with one child. -/
def T2 : Sched.Tree where
  par x := if x = 1 then some 0 else none
  par_root := rfl
  depth x := if x = 1 then 1 else 0
  depth_par := by
    intro x p h
    by_cases hx : x = 1
    · subst hx; simp at h; subst h; rfl
    · simp [hx] at h

/-- The root and its child are rendered; then the state of both changes; the child's render begins, and while it waits, the root is
rendered without the child; then the child's render goes on. -/
def removedWhileRendering : List Sched.Act :=
  [.start 0, .grant 0, .body 0 [1], .next 0, .grant 0, .body 0 [], .finish 0, .finish 0,
   .set 1 5, .set 0 5, .start 1, .grant 1, .start 2, .grant 2, .body 2 [], .finish 2, .body 1 [], .finish 1]

/-- C90 is violated: a component that is removed while its own render is in progress starts the effects of that render after it was
removed, and they are never told to stop. -/
theorem C90_removed_violated : ∃ acts : List Sched.Act,
    (Sched.run T2 Sched.init acts).mounted 1 = false ∧
    project T2 (fun _ => 1) 1 Sched.init acts = [.body 0 1, .leave 0, .unmount, .leave 2, .body 1 1, .leave 1] ∧
    (run (project T2 (fun _ => 1) 1 Sched.init acts)).started = [0, 1] ∧
    (run (project T2 (fun _ => 1) 1 Sched.init acts)).stopped 0 = true ∧
    (run (project T2 (fun _ => 1) 1 Sched.init acts)).stopped 1 = false ∧
    ∀ later : List Act, (∀ a ∈ later, a ≠ .unmount) →
      (run later (run (project T2 (fun _ => 1) 1 Sched.init acts))).stopped 1 = false := by
  have hp : project T2 (fun _ => 1) 1 Sched.init removedWhileRendering =
      [.body 0 1, .leave 0, .unmount, .leave 2, .body 1 1, .leave 1] := by decide +kernel
  refine ⟨removedWhileRendering, by decide +kernel, hp, ?_, ?_, ?_, ?_⟩
  · rw [hp]; decide +kernel
  · rw [hp]; decide +kernel
  · rw [hp]; decide +kernel
  · rw [hp]
    intro later hl
    generalize hs : run [.body 0 1, .leave 0, .unmount, .leave 2, .body 1 1, .leave 1] = s
    have h0 : s.stopOf 1 = some 1 ∧ s.isSet 1 = false ∧ 1 ∉ s.funcs ∧ 2 ≤ s.nextFunc := by subst hs; decide +kernel
    clear hs
    suffices h : (run later s).stopOf 1 = some 1 ∧ (run later s).isSet 1 = false by
      unfold St.stopped; rw [h.1]; exact h.2
    induction later generalizing s with
    | nil => exact ⟨h0.1, h0.2.1⟩
    | cons a as ih =>
      refine ih (fun a ha => hl a (List.mem_cons_of_mem _ ha)) (step s a) ?_
      obtain ⟨h1, h2, h3, h4⟩ := h0
      cases a with
      | body t n =>
        refine ⟨h1, h2, ?_, Nat.le_trans h4 (Nat.le_add_right _ _)⟩
        intro h
        rcases List.mem_append.1 h with h | h
        · exact h3 h
        · obtain ⟨i, _, hi⟩ := List.mem_map.1 h
          omega
      | leave t =>
        have : ∀ (n : Nat) (s : St), s.stopOf 1 = some 1 ∧ s.isSet 1 = false ∧ 1 ∉ s.funcs ∧ 2 ≤ s.nextFunc →
            (didRenders n s).stopOf 1 = some 1 ∧ (didRenders n s).isSet 1 = false ∧ 1 ∉ (didRenders n s).funcs ∧
              2 ≤ (didRenders n s).nextFunc := by
          intro n
          induction n with
          | zero => exact fun _ h => h
          | succ n ihn =>
            intro s ⟨h1, h2, h3, h4⟩
            refine ihn (didRender s) ⟨?_, h2, (by intro h; cases h), h4⟩
            show (if 1 ∈ s.funcs then some s.nextStop else s.stopOf 1) = some 1
            rw [if_neg h3]; exact h1
        exact this _ s ⟨h1, h2, h3, h4⟩
      | unmount => exact absurd rfl (hl _ List.mem_cons_self)
      | gathered => exact ⟨h1, h2, h3, h4⟩

/-- The layout is quiet after this schedule; three updates were made. -/
example : (Sched.run T2 Sched.init removedWhileRendering).next = 3 ∧
    (∀ t, t < 3 → ((Sched.run T2 Sched.init removedWhileRendering).tasks t).stat = .done) := by decide +kernel

/-- The body of the child fails after it added an effect; then that of the root, which leaves the child behind: its effects run on. -/
def failing : List Sched.Act :=
  [.start 0, .grant 0, .body 0 [1], .next 0, .grant 0, .fail 0, .finish 0, .set 1 5, .start 1, .grant 1, .body 1 [], .finish 1, .set 0 5, .start 2, .grant 2, .fail 2]

/-- C90 is violated: when the body of a component fails, the components below it disappear from the page, but their effects are not told to stop. -/
theorem C90_failed_violated : ∃ acts : List Sched.Act,
    (∀ t, t < (Sched.run T2 Sched.init acts).next → ((Sched.run T2 Sched.init acts).tasks t).stat = .done) ∧
    ¬ Sched.Present (Sched.run T2 Sched.init acts).kids 1 ∧
    (run (project T2 (fun _ => 1) 1 Sched.init acts)).started = [0, 1] ∧
    ∀ g, (run (project T2 (fun _ => 1) 1 Sched.init acts)).stopped g = false := by
  have hp : project T2 (fun _ => 1) 1 Sched.init failing = [.body 0 1, .leave 0, .body 1 1, .leave 1, .leave 2] := by decide +kernel
  refine ⟨failing, ?_, ?_, ?_, ?_⟩
  · have h : ∀ t, t < 3 → ((Sched.run T2 Sched.init failing).tasks t).stat = .done := by decide +kernel
    have hn : (Sched.run T2 Sched.init failing).next = 3 := by decide +kernel
    rw [hn]; exact h
  · have hk : (Sched.run T2 Sched.init failing).kids 0 = [] := by decide +kernel
    intro h
    suffices ∀ x, Sched.Present (Sched.run T2 Sched.init failing).kids x → x = 0 from absurd (this 1 h) (by decide)
    intro x hx
    induction hx with
    | root => rfl
    | child _ hc ih =>
      rw [ih, hk] at hc; cases hc
  · rw [hp]; decide +kernel
  · rw [hp]
    intro g
    have h : ∀ e, (run [.body 0 1, .leave 0, .body 1 1, .leave 1, .leave 2]).isSet e = false := fun _ => rfl
    unfold St.stopped
    split
    · exact h _
    · rfl

/-- A root with two children. -/
def T3 : Sched.Tree where
  par x := if x = 1 ∨ x = 2 then some 0 else none
  par_root := rfl
  depth x := if x = 1 ∨ x = 2 then 1 else 0
  depth_par := by
    intro x p h
    by_cases hx : x = 1 ∨ x = 2
    · simp only [if_pos hx, Option.some.injEq] at h ⊢; subst h; rfl
    · simp [hx] at h

/-- The root's first render has rendered the first child and goes on with the second; meanwhile the first child is rendered again. -/
def overtaken : List Sched.Act :=
  [.start 0, .grant 0, .body 0 [1, 2], .next 0, .grant 0, .body 0 [], .finish 0, .set 1 5, .start 1, .grant 1, .body 1 [], .finish 1]

/-- C90 is violated: an effect is started before the update that asked for it is complete, when another update of the component is
complete before. -/
theorem C90_early_violated : ∃ acts : List Sched.Act,
    project T3 (fun _ => 1) 1 Sched.init acts = [.body 0 1, .body 1 1, .leave 1] ∧
    (run (project T3 (fun _ => 1) 1 Sched.init acts)).started = [0, 1] ∧
    unfinished (project T3 (fun _ => 1) 1 Sched.init acts) = [0] ∧
    ((Sched.run T3 Sched.init acts).tasks 0).stat = .running := by
  have hp : project T3 (fun _ => 1) 1 Sched.init overtaken = [.body 0 1, .body 1 1, .leave 1] := by decide +kernel
  refine ⟨overtaken, hp, ?_, ?_, by decide +kernel⟩ <;> rw [hp] <;> decide +kernel

/-- `n` renders, one after the other, each of which adds an effect. -/
def renders (n : Nat) : List Act := (List.range n).flatMap fun t => [.body t 1, .leave t]

/-- C90 is violated: every effect that a component starts is kept until the component is removed, although the next one replaces it: after
`n` renders there are `n` tasks, of which none was told to stop. -/
theorem C90_kept_violated (n : Nat) :
    (run (renders n)).tasks = List.range n ∧ (run (renders n)).stops = List.range n ∧
    ∀ g, (run (renders n)).stopped g = false := by
  suffices h : (run (renders n)).tasks = List.range n ∧ (run (renders n)).stops = List.range n ∧
      (run (renders n)).nextStop = n ∧ (run (renders n)).nextFunc = n ∧ (run (renders n)).funcs = [] ∧
      (run (renders n)).due = [] ∧ (∀ e, (run (renders n)).isSet e = false) by
    refine ⟨h.1, h.2.1, fun g => ?_⟩
    unfold St.stopped
    cases (run (renders n)).stopOf g with
    | none => rfl
    | some e => exact h.2.2.2.2.2.2 e
  induction n with
  | zero => exact ⟨rfl, rfl, rfl, rfl, rfl, rfl, fun _ => rfl⟩
  | succ n ih =>
    have hr : run (renders (n + 1)) = step (step (run (renders n)) (.body n 1)) (.leave n) := by
      simp [renders, List.range_succ, run, List.foldl_append]
    rw [hr]
    obtain ⟨h1, h2, h3, h4, h5, h6, h7⟩ := ih
    generalize run (renders n) = s at *
    have hb : step s (.body n 1) = { s with funcs := [n], nextFunc := n + 1, due := [n] } := by
      simp [step, h4, h5, h6]
    rw [hb]
    simp only [step, List.count_cons_self, List.count_nil, didRenders, didRender]
    refine ⟨?_, ?_, ?_, trivial, trivial, ?_, h7⟩
    · show s.tasks ++ [n] = _
      rw [h1, List.range_succ]
    · show s.stops ++ [s.nextStop] = _
      rw [h2, h3, List.range_succ]
    · show s.nextStop + 1 = _
      rw [h3]
    · simp

end Verif.Effects.Parallel
