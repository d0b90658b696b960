import Verif.Events.Lemmas
/-! # C16, C17: delivery of events and acknowledged sequence numbers -/
namespace Verif.Events
variable {T : Type} [DecidableEq T]

/-- C16, for every queue size, every interleaving and every outcome of the handlers: the events of a
target are handled one at a time, and those whose processing began are among those received, each no
more often than it was received.
Missing: order under backpressure (`C16_order_violated`); cancellation (`C16_violated`). -/
theorem C16_one_at_a_time (cap : Nat) (handlers : T → Option Nat) (acts : List (Act T)) (t : T) :
    (oneAtATime t .idle (run cap acts (init handlers)).log).isSome ∧
    ∀ m, (taken t (run cap acts (init handlers)).log).count m ≤ (received t (run cap acts (init handlers)).log).count m := by
  have h := run_inv cap acts (inv_init handlers)
  refine ⟨by rw [h.one t]; rfl, ?_⟩
  intro m
  have := (h.perm t).count_eq m
  simp only [List.count_append] at this
  omega

/-- C16 (partial: unbounded queues, or no more messages for a target than its queue holds): the messages
of a target are taken in the order received. -/
theorem C16_order_partial (cap : Nat) (handlers : T → Option Nat) (acts : List (Act T))
    (hroom : cap = 0 ∨ ∀ t, (sent t acts).length ≤ cap) (t : T) :
    taken t (run cap acts (init handlers)).log <+: received t (run cap acts (init handlers)).log := by
  have h := run_ord (cap := cap) acts (ord_init handlers) (by simpa [init, received] using hroom)
  rw [h.order t]
  exact ⟨_, (List.append_assoc _ _ _).symm⟩

/-- C16, registered: if the target has a handler at the start and every change gives it another one,
none of its messages is ignored. -/
theorem C16_registered (cap : Nat) (handlers : T → Option Nat) (acts : List (Act T)) (t : T) (hh : handlers t ≠ none)
    (ha : ∀ h, .setHandler t h ∈ acts → h ≠ none) (m : Msg T) (hm : m.target = t) :
    .ignored m ∉ (run cap acts (init handlers)).log :=
  run_registered cap acts (inv_init handlers) hh (by simp [init]) (by simp [init]) ha m hm

/-- A processing task exists as soon as its queue is used. -/
def Started (s : St T) : Prop := ∀ t, s.proc t = .absent → s.queue t = [] ∧ ofTarget t s.blocked = []

theorem step_started (cap : Nat) {s : St T} (h : Started s) (a : Act T) : Started (step cap s a) := by
  have hl : ∀ (s : St T) (u : T) (m : Msg T) k, (∀ t, t ≠ u → s.proc t = .absent → s.queue t = [] ∧ ofTarget t s.blocked = []) → Started (lookup s u m k) := by
    intro s u m k hs t ht
    by_cases hu : t = u
    · subst hu
      simp only [lookup] at ht
      split at ht
      · simp [upd_self] at ht
      · split at ht <;> simp [upd_self] at ht
    · obtain ⟨f1, f2, -⟩ := lookup_frame s u m k
      rw [f1, f2]
      refine hs t hu ?_
      simp only [lookup] at ht
      split at ht
      · simpa [upd_ne _ _ hu] using ht
      · split at ht <;> simpa [upd_ne _ _ hu] using ht
  cases a with
  | recv m => exact h
  | start =>
    simp only [step]; split
    · exact h
    · rename_i m r hs
      have key : ∀ t, (if s.proc m.target = .absent then upd s.proc m.target .idle else s.proc) t = .absent →
          t ≠ m.target ∧ s.proc t = .absent := by
        intro t ht
        by_cases hu : t = m.target
        · subst hu
          split at ht
          · simp [upd_self] at ht
          · contradiction
        · refine ⟨hu, ?_⟩
          split at ht
          · simpa [upd_ne _ _ hu] using ht
          · exact ht
      split
      · intro t ht
        obtain ⟨k1, k2⟩ := key t ht
        refine ⟨(h t k2).1, ?_⟩
        simp only [ofTarget_append, (h t k2).2, ofTarget_ne (fun e => k1 e.symm)]
        rfl
      · intro t ht
        obtain ⟨k1, k2⟩ := key t ht
        refine ⟨?_, (h t k2).2⟩
        simp only [upd_ne _ _ k1]; exact (h t k2).1
  | resume m =>
    simp only [step]; split
    · rename_i hm
      intro t ht
      have := h t ht
      by_cases hu : t = m.target
      · subst hu
        exfalso
        have : m ∈ ofTarget m.target s.blocked := by simp [ofTarget, hm.1]
        rw [(h m.target ht).2] at this
        simp at this
      · refine ⟨by simp only [upd_ne _ _ hu]; exact this.1, ?_⟩
        have h2 := this.2
        simp only [ofTarget, List.filter_eq_nil_iff] at h2 ⊢
        intro x hx
        exact h2 x (List.mem_of_mem_erase hx)
    · exact h
  | take u =>
    simp only [step]; split
    · apply hl
      intro t ht hp
      simp only [upd_ne _ _ ht]
      exact h t hp
    · exact h
  | retry u =>
    simp only [step]; split
    · exact hl _ _ _ _ (fun t _ => h t)
    · exact h
  | finish u out =>
    simp only [step]; split
    · intro t ht
      by_cases hu : t = u
      · subst hu; simp only [upd_self] at ht; split at ht <;> simp at ht
      · simp only [upd_ne _ _ hu] at ht; exact h t ht
    · exact h
  | setHandler u hd => exact h

theorem run_started (cap : Nat) (acts : List (Act T)) {s : St T} (h : Started s) : Started (run cap acts s) := by
  induction acts generalizing s with
  | nil => exact h
  | cons a acts ih => exact ih (step_started cap h a)

/-- Nothing more can happen for the target: no `deliver` task for it is waiting to begin, none of its
suspended tasks can go on, its processing task can neither take a message nor look a handler up, and no
handler call is running. -/
structure Quiet (cap : Nat) (s : St T) (t : T) : Prop where
  created : ∀ m ∈ s.created, m.target ≠ t
  resume : ∀ m, m.target = t → step cap s (.resume m) = s
  take : step cap s (.take t) = s
  retry : step cap s (.retry t) = s
  finish : ∀ out, step cap s (.finish t out) = s

/-- C16, completeness (partial: handlers that return or raise an `Exception`).  Whatever other targets
are doing, when nothing more can happen for a target and none of its handler calls ended by
cancellation — calls that raised are allowed —, every message received for it has been taken as often as
it was received, and processed to the end.  Missing: `C16_violated`. -/
theorem C16_complete_partial (cap : Nat) (handlers : T → Option Nat) (acts : List (Act T)) (t : T)
    (hq : Quiet cap (run cap acts (init handlers)) t)
    (hc : ∀ m, m.target = t → .ended m .cancelled ∉ (run cap acts (init handlers)).log) :
    (taken t (run cap acts (init handlers)).log).Perm (received t (run cap acts (init handlers)).log) ∧
    ∀ m ∈ received t (run cap acts (init handlers)).log, Done (run cap acts (init handlers)).log m := by
  have h := run_inv cap acts (inv_init handlers)
  have hst : Started (run cap acts (init handlers)) := run_started cap acts (by simp [Started, init])
  generalize run cap acts (init handlers) = s at *
  have hnotdead : s.proc t ≠ .dead := by
    intro hd
    have := h.one t
    rw [hd] at this
    obtain ⟨m, hm, hmem⟩ := one_dead t s.log .idle (by simp) this
    exact hc m hm hmem
  have hproc : s.proc t = .idle ∨ s.proc t = .absent := by
    cases hp : s.proc t with
    | absent => exact .inr rfl
    | idle => exact .inl rfl
    | dead => exact absurd hp hnotdead
    | running m =>
      exfalso
      have := hq.finish .returned
      simp only [step, hp] at this
      have := congrArg (fun s => s.log.length) this
      simp at this
    | retry m k =>
      exfalso
      have h1 := hq.retry
      simp only [step, hp, lookup] at h1
      split at h1
      · have := congrArg (fun s => s.log.length) h1
        simp at this
      · split at h1
        · have := congrArg (fun s => s.log.length) h1
          simp at this
        · have := congrArg (fun s => s.proc t) h1
          simp only [upd_self, hp] at this
          simp at this
  have hqueue : s.queue t = [] := by
    rcases hproc with hp | hp
    · cases hx : s.queue t with
      | nil => rfl
      | cons m r =>
        exfalso
        have h1 := hq.take
        simp only [step, hp, hx] at h1
        have := congrArg (fun s => s.queue t) h1
        simp only [(lookup_frame _ _ _ _).1, upd_self, hx] at this
        have := congrArg List.length this
        simp at this
    · exact (hst t hp).1
  have hblocked : ofTarget t s.blocked = [] := by
    simp only [ofTarget, List.filter_eq_nil_iff]
    intro m hm hmt
    simp only [decide_eq_true_eq] at hmt
    have h1 := hq.resume m hmt
    have hf : full cap (s.queue m.target) = false := by
      rw [hmt, hqueue]; simp [full]
    simp only [step] at h1
    rw [if_pos ⟨hm, hf⟩] at h1
    have := congrArg (fun s => s.blocked.length) h1
    simp only [List.length_erase_of_mem hm] at this
    have := List.length_pos_of_mem hm
    omega
  have hcreated : ofTarget t s.created = [] := by
    simp only [ofTarget, List.filter_eq_nil_iff]
    intro m hm hmt
    simp only [decide_eq_true_eq] at hmt
    exact hq.created m hm hmt
  have hp := h.perm t
  rw [hqueue, hblocked, hcreated] at hp
  simp only [List.append_nil] at hp
  refine ⟨hp.symm, ?_⟩
  intro m hm
  have hmt : m.target = t := by
    simp only [received, List.mem_filterMap] at hm
    obtain ⟨o, _, ho⟩ := hm
    cases o <;> simp at ho
    rw [← ho.2]; exact ho.1
  rcases one_done t s.log _ _ (h.one t) m hmt (.inr (.inr (hp.subset hm))) with h1 | h1 | h1
  · exact h1
  · rcases hproc with hx | hx <;> rw [hx] at h1 <;> simp [phase] at h1
  · rcases hproc with hx | hx <;> rw [hx] at h1 <;> simp [phase] at h1

/-- Two targets, three messages, a handler that raises, one that is registered late. -/
def exActs : List (Act Nat) :=
  [.recv ⟨0, some 1, 10⟩, .recv ⟨1, none, 11⟩, .recv ⟨0, some 2, 12⟩, .start, .start, .take 0, .take 1, .start,
   .finish 0 .raised, .setHandler 1 (some 7), .take 0, .retry 1, .finish 1 .returned, .finish 0 .returned]
def exHandlers : Nat → Option Nat := fun t => if t = 0 then some 5 else none

example : (run 1 exActs (init exHandlers)).log =
    [.received ⟨0, some 1, 10⟩, .received ⟨1, none, 11⟩, .received ⟨0, some 2, 12⟩,
     .took ⟨0, some 1, 10⟩, .called ⟨0, some 1, 10⟩ 5, .took ⟨1, none, 11⟩, .ended ⟨0, some 1, 10⟩ .raised,
     .took ⟨0, some 2, 12⟩, .called ⟨0, some 2, 12⟩ 5, .called ⟨1, none, 11⟩ 7, .ended ⟨1, none, 11⟩ .returned,
     .ended ⟨0, some 2, 12⟩ .returned] := by decide +kernel
theorem step_handlers (cap : Nat) (s : St T) (a : Act T) (t : T) :
    (step cap s a).handlers t = registered (s.handlers t) t [a] := by
  cases a with
  | recv m => rfl
  | start =>
    simp only [step]; split
    · rfl
    · split <;> rfl
  | resume m => simp only [step]; split <;> rfl
  | take u =>
    simp only [step]; split
    · rw [(lookup_frame _ _ _ _).2.2.2.2.1]; rfl
    · rfl
  | retry u =>
    simp only [step]; split
    · rw [(lookup_frame _ _ _ _).2.2.2.2.1]; rfl
    · rfl
  | finish u out => simp only [step]; split <;> rfl
  | setHandler u h =>
    simp only [step, registered]
    by_cases hu : u = t
    · subst hu; simp [upd_self]
    · rw [upd_ne _ _ (fun e => hu e.symm), if_neg hu]

theorem run_handlers (cap : Nat) (acts : List (Act T)) (t : T) : ∀ s : St T,
    (run cap acts s).handlers t = registered (s.handlers t) t acts := by
  induction acts with
  | nil => intro s; rfl
  | cons a acts ih =>
    intro s
    have := ih (step cap s a)
    rw [show run cap (a :: acts) s = run cap acts (step cap s a) from rfl, this, step_handlers]
    cases a <;> rfl

/-- C16, the handler: when a message is given to a handler, that is the handler registered for its target at that
time; when one is ignored, none is registered then. -/
theorem C16_current_handler (cap : Nat) (handlers : T → Option Nat) (acts : List (Act T)) (a : Act T) (new : List (Obs T))
    (hnew : (run cap (acts ++ [a]) (init handlers)).log = (run cap acts (init handlers)).log ++ new) (m : Msg T) :
    (∀ h, .called m h ∈ new → registered (handlers m.target) m.target acts = some h) ∧
    (.ignored m ∈ new → registered (handlers m.target) m.target acts = none) := by
  have hi := run_inv cap acts (inv_init handlers)
  have hh : ∀ t, (run cap acts (init handlers)).handlers t = registered (handlers t) t acts := fun t => run_handlers cap acts t _
  rw [show run cap (acts ++ [a]) (init handlers) = step cap (run cap acts (init handlers)) a by
    simp [run, List.foldl_append]] at hnew
  generalize run cap acts (init handlers) = s at *
  have hl : ∀ (s' : St T) (u : T) (m' : Msg T) (k : Nat) (pre : List (Obs T)), s'.handlers = s.handlers → m'.target = u →
      (∀ h, .called m h ∉ pre) → .ignored m ∉ pre → (lookup s' u m' k).log = s'.log ++ new → s'.log = s.log ++ pre → pre = [] →
      (∀ h, .called m h ∈ new → s.handlers m.target = some h) ∧ (.ignored m ∈ new → s.handlers m.target = none) := by
    intro s' u m' k pre hs' hm' h1 h2 hlog hpre hp
    simp only [lookup, hs'] at hlog
    split at hlog
    · rename_i h hu
      have := List.append_cancel_left hlog
      subst this
      refine ⟨?_, by simp⟩
      intro h' hc
      simp at hc
      obtain ⟨rfl, rfl⟩ := hc
      rw [hm']; exact hu
    · rename_i hu
      split at hlog
      · have := List.append_cancel_left hlog
        subst this
        refine ⟨by simp, ?_⟩
        intro hc
        simp at hc
        subst hc
        rw [hm']; exact hu
      · have : new = [] := by simpa using hlog
        subst this
        simp
  have none : (step cap s a).log = s.log → new = [] := by intro h; rw [h] at hnew; simpa using hnew
  rw [← hh]
  cases a with
  | recv m' =>
    have : new = [.received m'] := (List.append_cancel_left hnew).symm
    subst this; simp
  | start =>
    have := none (by simp only [step]; split; rfl; split <;> rfl)
    subst this; simp
  | resume m' =>
    have := none (by simp only [step]; split <;> rfl)
    subst this; simp
  | take u =>
    simp only [step] at hnew
    split at hnew
    · rename_i m' r hp hq
      have hm' : m'.target = u := hi.qt u m' (by rw [hq]; simp)
      simp only [lookup] at hnew
      split at hnew
      · rename_i h hu
        have : new = [.took m', .called m' h] := by
          simp only [List.append_assoc] at hnew; exact (List.append_cancel_left hnew).symm
        subst this
        refine ⟨?_, by simp⟩
        intro h' hc
        simp at hc
        obtain ⟨rfl, rfl⟩ := hc
        rw [hm']; exact hu
      · have : new = [.took m'] := (List.append_cancel_left hnew).symm
        subst this; simp
    · have : new = [] := by simpa using hnew
      subst this; simp
  | retry u =>
    simp only [step] at hnew
    split at hnew
    · rename_i m' k hp
      exact hl s u m' k [] rfl (hi.pt u m' (.inl (by rw [hp]; rfl))) (by simp) (by simp) hnew (by simp) rfl
    · have : new = [] := by simpa using hnew
      subst this; simp
  | finish u out =>
    simp only [step] at hnew
    split at hnew
    · have := (List.append_cancel_left hnew).symm
      subst this; simp
    · have : new = [] := by simpa using hnew
      subst this; simp
  | setHandler u h =>
    have := none rfl
    subst this; simp

/-- How many look-ups the message being processed has had after its first. -/
def tries : Proc T → Nat
  | .retry _ k => 2 - k
  | _ => 0

theorem ignoredOf_append (t : T) (l l' : List (Obs T)) : ignoredOf t (l ++ l') = ignoredOf t l + ignoredOf t l' := by
  simp [ignoredOf, List.countP_append]

theorem step_tries (cap : Nat) {s : St T} (hi : Inv s) (t : T) (n : Nat) (a : Act T)
    (h : 3 * ignoredOf t s.log + tries (s.proc t) ≤ n) :
    3 * ignoredOf t (step cap s a).log + tries ((step cap s a).proc t) ≤ n + if a = .retry t then 1 else 0 := by
  have le : ∀ (k : Nat), 3 * ignoredOf t s.log + tries (s.proc t) ≤ n + k := fun k => by omega
  cases a with
  | recv m =>
    simp only [step, ignoredOf_append]
    have : ignoredOf t [Obs.received m] = 0 := rfl
    omega
  | start =>
    simp only [step]; split
    · exact le _
    · rename_i m r _
      have : tries ((if s.proc m.target = .absent then upd s.proc m.target .idle else s.proc) t) ≤ tries (s.proc t) := by
        split
        · by_cases hu : t = m.target
          · subst hu; simp [upd_self, tries]
          · rw [upd_ne _ _ hu]; exact Nat.le_refl _
        · exact Nat.le_refl _
      split <;> simp only <;> omega
  | resume m => simp only [step]; split <;> exact le _
  | take u =>
    simp only [step]; split
    · rename_i m r hp hq
      by_cases hu : t = u
      · subst hu
        simp only [lookup]
        have e : ignoredOf t [Obs.took m] = 0 := rfl
        split
        · rename_i h' _
          have e' : ignoredOf t [Obs.called m h'] = 0 := rfl
          simp only [ignoredOf_append, e, e', upd_self, tries]; omega
        · simp only [ignoredOf_append, e, upd_self, tries]; omega
      · simp only [lookup]
        have e : ignoredOf t [Obs.took m] = 0 := rfl
        split
        · rename_i h' _
          have e' : ignoredOf t [Obs.called m h'] = 0 := rfl
          simp only [ignoredOf_append, e, e', upd_ne _ _ hu]; omega
        · simp only [ignoredOf_append, e, upd_ne _ _ hu]; omega
    · exact le _
  | retry u =>
    simp only [step]; split
    · rename_i m k hp
      have hm := hi.pt u m (.inl (by rw [hp]; rfl))
      by_cases hu : t = u
      · subst hu
        rw [hp] at h
        simp only [tries] at h
        simp only [lookup, if_true]
        split
        · rename_i h' _
          have e' : ignoredOf t [Obs.called m h'] = 0 := rfl
          simp only [ignoredOf_append, e', upd_self, tries]; omega
        · split
          · have e' : ignoredOf t [Obs.ignored m] = 1 := by simp [ignoredOf, hm]
            simp only [ignoredOf_append, e', upd_self, tries]; omega
          · simp only [upd_self, tries]; omega
      · simp only [lookup]
        split
        · rename_i h' _
          have e' : ignoredOf t [Obs.called m h'] = 0 := rfl
          simp only [ignoredOf_append, e', upd_ne _ _ hu]; omega
        · split
          · have e' : ignoredOf t [Obs.ignored m] = 0 := by
              simp [ignoredOf]; rw [hm]; exact fun e => hu e.symm
            simp only [ignoredOf_append, e', upd_ne _ _ hu]; omega
          · simp only [upd_ne _ _ hu]; omega
    · exact le _
  | finish u out =>
    simp only [step]; split
    · rename_i m hp
      have e : ignoredOf t [Obs.ended m out] = 0 := rfl
      simp only [ignoredOf_append, e]
      by_cases hu : t = u
      · subst hu; rw [upd_self]
        have : tries (if out = .cancelled then .dead else .idle : Proc T) = 0 := by split <;> rfl
        omega
      · rw [upd_ne _ _ hu]; omega
    · exact le _
  | setHandler u hd => exact le _

/-- C16, patience: an event whose target has no handler is not ignored at once: the handler is looked up again three
times before that (each `retry` is one turn of the waiting loop). -/
theorem C16_patience (cap : Nat) (handlers : T → Option Nat) (acts : List (Act T)) (t : T) :
    3 * ignoredOf t (run cap acts (init handlers)).log ≤ acts.countP (· == .retry t) := by
  have : ∀ (acts : List (Act T)) (s : St T) (n : Nat), Inv s → 3 * ignoredOf t s.log + tries (s.proc t) ≤ n →
      3 * ignoredOf t (run cap acts s).log + tries ((run cap acts s).proc t) ≤ n + acts.countP (· == .retry t) := by
    intro acts
    induction acts with
    | nil => intro s n _ h; exact h
    | cons a acts ih =>
      intro s n hi h
      have := ih (step cap s a) _ (step_inv cap hi a) (step_tries cap hi t n a h)
      rw [show run cap (a :: acts) s = run cap acts (step cap s a) from rfl, List.countP_cons]
      by_cases ha : a = .retry t
      · simp only [ha, if_true, beq_self_eq_true] at this ⊢; omega
      · simp only [ha, if_false, beq_eq_false_iff_ne.2 ha, Bool.false_eq_true] at this ⊢; omega
  have := this acts (init handlers) 0 (inv_init handlers) (by simp [init, ignoredOf, tries])
  omega

example : let s := run 0 [.recv ⟨0, none, 1⟩, .start, .take 0, .retry 0, .retry 0, .retry 0] (init (T := Nat) fun _ => none)
    ignoredOf 0 s.log = 1 := by decide +kernel
example : (run 1 (exActs.take 11 ++ [.retry 1]) (init exHandlers)).log =
      (run 1 (exActs.take 11) (init exHandlers)).log ++ [.called ⟨1, none, 11⟩ 7] ∧
    registered (exHandlers 1) 1 (exActs.take 11) = some 7 := by decide +kernel

/-- The hypotheses of `C16_complete_partial` hold of target 0 here. -/
example : Quiet 1 (run 1 exActs (init exHandlers)) 0 ∧
    ∀ m : Msg Nat, m.target = 0 → .ended m .cancelled ∉ (run 1 exActs (init exHandlers)).log := by
  have hb : (run 1 exActs (init exHandlers)).blocked = [] := by decide +kernel
  have hc : (run 1 exActs (init exHandlers)).created = [] := by decide +kernel
  have hp : (run 1 exActs (init exHandlers)).proc 0 = .idle := by decide +kernel
  have hq : (run 1 exActs (init exHandlers)).queue 0 = [] := by decide +kernel
  have hl : (run 1 exActs (init exHandlers)).log.all (fun o => match o with | .ended _ .cancelled => false | _ => true) = true := by
    decide +kernel
  refine ⟨⟨?_, ?_, ?_, ?_, ?_⟩, ?_⟩
  · rw [hc]; simp
  · intro m _; simp only [step, hb]; simp
  · simp only [step, hp, hq]
  · simp only [step, hp]
  · intro out; simp only [step, hp]
  · intro m _ hm
    have := List.all_eq_true.1 hl _ hm
    simp at this

/-- C16 fails when a handler ends with a `BaseException` such as `CancelledError` (a handler that awaits
a task that is cancelled): the processing task dies, and the next event of that target, though
received with its handler registered, is never handled, whatever happens later. -/
theorem C16_violated : ∃ (handlers : Nat → Option Nat) (acts : List (Act Nat)) (m : Msg Nat),
    handlers m.target ≠ none ∧ (∀ a ∈ acts, ∀ h, a ≠ .setHandler m.target h) ∧
    .received m ∈ (run 0 acts (init handlers)).log ∧
    ∀ later, .took m ∉ (run 0 later (run 0 acts (init handlers))).log := by
  refine ⟨fun _ => some 5, [.recv ⟨0, none, 1⟩, .start, .take 0, .finish 0 .cancelled, .recv ⟨0, none, 2⟩, .start],
    ⟨0, none, 2⟩, by simp, by simp, by decide +kernel, ?_⟩
  intro later
  generalize hs : run 0 [.recv ⟨0, none, 1⟩, .start, .take 0, .finish 0 .cancelled, .recv ⟨0, none, 2⟩, .start] (init fun _ => some 5) = s
  have h1 : s.proc 0 = .dead := by rw [← hs]; decide +kernel
  have h2 : Inv s := by rw [← hs]; exact run_inv _ _ (inv_init _)
  have h3 : .took ⟨0, none, 2⟩ ∉ s.log := by rw [← hs]; decide +kernel
  clear hs
  have hl : ∀ (s : St Nat) u m k x, x ∈ (lookup s u m k).log → x ∈ s.log ∨ (∃ h, x = .called m h) ∨ x = .ignored m := by
    intro s u m k x hx
    simp only [lookup] at hx
    split at hx
    · simp only [List.mem_append, List.mem_singleton] at hx
      exact hx.imp id (fun h => .inl ⟨_, h⟩)
    · split at hx
      · simp only [List.mem_append, List.mem_singleton] at hx
        exact hx.imp id .inr
      · exact .inl hx
  have hlp : ∀ (s : St Nat) u m k, u ≠ 0 → (lookup s u m k).proc 0 = s.proc 0 := by
    intro s u m k hu
    have hu' : (0 : Nat) ≠ u := fun h => hu h.symm
    simp only [lookup]; split
    · simp only [upd_ne _ _ hu']
    · split <;> simp only [upd_ne _ _ hu']
  induction later generalizing s with
  | nil => exact h3
  | cons a later ih =>
    refine ih (s := step 0 s a) ?_ (step_inv 0 h2 a) ?_
    · cases a with
      | recv m => exact h1
      | start =>
        simp only [step]; split
        · exact h1
        · rename_i m r _
          have : (if s.proc m.target = .absent then upd s.proc m.target .idle else s.proc) 0 = .dead := by
            split
            · rename_i ha
              rw [upd_ne _ _ (by intro e; rw [← e, h1] at ha; cases ha)]; exact h1
            · exact h1
          split <;> exact this
      | resume m => simp only [step]; split <;> exact h1
      | take u =>
        simp only [step]; split
        · rename_i m r hp hq
          rw [hlp _ _ _ _ (by rintro rfl; rw [h1] at hp; cases hp)]; exact h1
        · exact h1
      | retry u =>
        simp only [step]; split
        · rename_i m k hp
          rw [hlp _ _ _ _ (by rintro rfl; rw [h1] at hp; cases hp)]; exact h1
        · exact h1
      | finish u out =>
        simp only [step]; split
        · rename_i m hp
          have hu : (0 : Nat) ≠ u := by rintro rfl; rw [h1] at hp; cases hp
          simp only [upd_ne _ _ hu]; exact h1
        · exact h1
      | setHandler u hd => exact h1
    · intro hx
      cases a with
      | recv m => simp [step] at hx; exact h3 hx
      | start =>
        simp only [step] at hx; split at hx
        · exact h3 hx
        · split at hx <;> exact h3 hx
      | resume m => simp only [step] at hx; split at hx <;> exact h3 hx
      | take u =>
        simp only [step] at hx; split at hx
        · rename_i m r hp hq
          rcases hl _ _ _ _ _ hx with hx | ⟨_, hx⟩ | hx
          · simp only [List.mem_append, List.mem_singleton] at hx
            rcases hx with hx | hx
            · exact h3 hx
            · cases hx
              have := h2.qt u _ (by rw [hq]; exact List.mem_cons_self)
              simp only at this
              subst this
              rw [h1] at hp; cases hp
          · cases hx
          · cases hx
        · exact h3 hx
      | retry u =>
        simp only [step] at hx; split at hx
        · rcases hl _ _ _ _ _ hx with hx | ⟨_, hx⟩ | hx
          · exact h3 hx
          · cases hx
          · cases hx
        · exact h3 hx
      | finish u out =>
        simp only [step] at hx; split at hx
        · simp at hx; exact h3 hx
        · exact h3 hx
      | setHandler u hd => exact h3 hx

/-- C16, order fails under backpressure: with a queue of size one, a message whose `put` is suspended is
overtaken by a message received after it that finds room. -/
theorem C16_order_violated : ∃ (handlers : Nat → Option Nat) (acts : List (Act Nat)),
    received 0 (run 1 acts (init handlers)).log = [⟨0, none, 1⟩, ⟨0, none, 2⟩, ⟨0, none, 3⟩] ∧
    taken 0 (run 1 acts (init handlers)).log = [⟨0, none, 1⟩, ⟨0, none, 3⟩, ⟨0, none, 2⟩] :=
  ⟨fun _ => some 5, [.recv ⟨0, none, 1⟩, .recv ⟨0, none, 2⟩, .start, .start, .take 0, .recv ⟨0, none, 3⟩, .start,
    .finish 0 .returned, .take 0, .resume ⟨0, none, 2⟩, .finish 0 .returned, .take 0], by decide +kernel, by decide +kernel⟩

/-! ## C17 -/

/-- C17, value: the number attached to an input element is the largest sequence number among the messages
for its handlers whose processing has begun; none is attached if there is none. -/
theorem C17_largest_partial (cap : Nat) (handlers : T → Option Nat) (acts : List (Act T)) (ts : List T) :
    match ackSeq (run cap acts (init handlers)).seqs ts with
    | none => ∀ t ∈ ts, ∀ m ∈ taken t (run cap acts (init handlers)).log, m.seq = none
    | some n => (∃ t ∈ ts, ∃ m ∈ taken t (run cap acts (init handlers)).log, m.seq = some n) ∧
        ∀ t ∈ ts, ∀ m ∈ taken t (run cap acts (init handlers)).log, ∀ k, m.seq = some k → k ≤ n := by
  have h := run_seqs cap acts (inv_init handlers) (by simp [init, taken, IsMax])
  have ha := ackSeq_spec (run cap acts (init handlers)).seqs ts
  generalize run cap acts (init handlers) = s at *
  cases hr : ackSeq s.seqs ts with
  | none =>
    rw [hr] at ha
    intro t ht
    have := h t
    rw [ha t ht] at this
    exact this
  | some n =>
    rw [hr] at ha
    obtain ⟨⟨t, ht, hn⟩, h2⟩ := ha
    refine ⟨⟨t, ht, ?_⟩, ?_⟩
    · have := h t
      rw [hn] at this
      exact this.1
    · intro u hu m hm k hk
      have := h u
      cases hs : s.seqs u with
      | none => rw [hs] at this; rw [this m hm] at hk; cases hk
      | some p =>
        rw [hs] at this
        have h3 := this.2 m hm k hk
        have h4 := h2 u hu p hs
        omega

/-- C17, monotone: the number attached for the same handlers never decreases or disappears. -/
theorem C17_monotone (cap : Nat) (handlers : T → Option Nat) (acts more : List (Act T)) (ts : List T) (n : Nat)
    (h : ackSeq (run cap acts (init handlers)).seqs ts = some n) :
    ∃ n', ackSeq (run cap (acts ++ more) (init handlers)).seqs ts = some n' ∧ n ≤ n' := by
  have h1 := C17_largest_partial cap handlers acts ts
  have h2 := C17_largest_partial cap handlers (acts ++ more) ts
  rw [h] at h1
  obtain ⟨⟨t, ht, m, hm, hmn⟩, -⟩ := h1
  have hpre : m ∈ taken t (run cap (acts ++ more) (init handlers)).log := by
    rw [show run cap (acts ++ more) (init handlers) = run cap more (run cap acts (init handlers)) from List.foldl_append]
    obtain ⟨r, hr⟩ := run_taken_prefix cap more (run cap acts (init handlers)) t
    rw [hr]; simp [hm]
  cases hr : ackSeq (run cap (acts ++ more) (init handlers)).seqs ts with
  | none => rw [hr] at h2; rw [h2 t ht m hpre] at hmn; cases hmn
  | some n' => rw [hr] at h2; exact ⟨n', rfl, h2.2 t ht m hpre n hmn⟩

/-- Sequence numbers increase along the list. -/
def Increasing (l : List (Msg T)) : Prop := l.Pairwise fun a b => ∀ i j, a.seq = some i → b.seq = some j → i < j

/-- C17 (partial: an element with one handler, no backpressure, a client that numbers its events in
increasing order, and only the events *before* the acknowledged one): when `n` is attached, the
processing of every event received for the handler with a smaller number is over.
Missing: the event `n` itself (`C17_violated`), elements with several handlers
(`C17_handlers_violated`), an element that replaces another (`C17_inherited_violated`). -/
theorem C17_before_partial (cap : Nat) (handlers : T → Option Nat) (acts : List (Act T))
    (hroom : cap = 0 ∨ ∀ t, (sent t acts).length ≤ cap) (t : T)
    (hinc : Increasing (received t (run cap acts (init handlers)).log)) (n : Nat)
    (hack : ackSeq (run cap acts (init handlers)).seqs [t] = some n)
    (m : Msg T) (hm : m ∈ received t (run cap acts (init handlers)).log) (k : Nat) (hk : m.seq = some k) (hlt : k < n) :
    Done (run cap acts (init handlers)).log m := by
  have hl := C17_largest_partial cap handlers acts [t]
  rw [hack] at hl
  obtain ⟨⟨t', ht', x, hx, hxn⟩, -⟩ := hl
  simp at ht'; subst ht'
  have h := run_ord (cap := cap) acts (ord_init handlers) (by simpa [init, received] using hroom)
  generalize run cap acts (init handlers) = s at *
  have hmt : m.target = t' := by
    simp only [received, List.mem_filterMap] at hm
    obtain ⟨o, _, ho⟩ := hm
    cases o <;> simp at ho
    rw [← ho.2]; exact ho.1
  -- `m` is before `x` in the order received
  have hord := h.order t'
  rw [List.append_assoc] at hord
  have hmtaken : m ∈ taken t' s.log := by
    rw [hord] at hm
    rcases List.mem_append.1 hm with h1 | h1
    · exact h1
    · exfalso
      unfold Increasing at hinc
      rw [hord, List.pairwise_append] at hinc
      have := hinc.2.2 x hx m h1 n k hxn hk
      omega
  -- the target is working on the last message it took
  have hone := h.inv.one t'
  rcases one_done t' s.log _ _ hone m hmt (.inr (.inr hmtaken)) with h1 | h1
  · exact h1
  · exfalso
    have hlast : ∀ (l : List (Obs T)) p q, oneAtATime t' p l = some q → (q = .taken m ∨ q = .handling m) →
        (p = .taken m ∨ p = .handling m) ∧ taken t' l = [] ∨ ∃ r, taken t' l = r ++ [m] := by
      intro l
      induction l with
      | nil =>
        intro p q h h'
        simp [oneAtATime] at h; subst h
        exact .inl ⟨h', rfl⟩
      | cons o l ih =>
        intro p q h h'
        obtain ⟨p', e1, e2⟩ := one_cons_split h
        rcases ih p' q e2 h' with ⟨hp, he⟩ | ⟨r, hr⟩
        · cases o <;> simp only [oneAtATime] at e1
          · simp at e1; subst e1; exact .inl ⟨hp, by simpa [taken] using he⟩
          · rename_i y
            split at e1
            · rename_i hy
              split at e1
              · simp at e1; subst e1
                rcases hp with hp | hp
                · cases hp
                  exact .inr ⟨[], by
                    rw [show Obs.took m :: l = [Obs.took m] ++ l from rfl, taken_append, he]; simp [taken, hy]⟩
                · cases hp
              · simp at e1
            · rename_i hy
              simp at e1; subst e1
              exact .inl ⟨hp, by rw [show Obs.took y :: l = [Obs.took y] ++ l from rfl, taken_append, he]; simp [taken, hy]⟩
          · split at e1
            · split at e1
              · rename_i hpp
                simp at e1; subst e1
                rcases hp with hp | hp
                · cases hp
                · cases hp; exact .inl ⟨.inl hpp, by simpa [taken] using he⟩
              · simp at e1
            · simp at e1; subst e1; exact .inl ⟨hp, by simpa [taken] using he⟩
          · split at e1
            · split at e1
              · split at e1 <;> (simp at e1; subst e1; simp at hp)
              · simp at e1
            · simp at e1; subst e1; exact .inl ⟨hp, by simpa [taken] using he⟩
          · split at e1
            · split at e1
              · simp at e1; subst e1; simp at hp
              · simp at e1
            · simp at e1; subst e1; exact .inl ⟨hp, by simpa [taken] using he⟩
        · right
          rw [show o :: l = [o] ++ l from rfl, taken_append, hr]
          exact ⟨taken t' [o] ++ r, by simp⟩
    rcases hlast s.log _ _ hone h1 with ⟨h2, -⟩ | ⟨r, hr⟩
    · rcases h2 with h2 | h2 <;> cases h2
    · rw [hr] at hx
      rcases List.mem_append.1 hx with hx | hx
      · unfold Increasing at hinc
        rw [hord, hr, List.append_assoc, List.pairwise_append] at hinc
        have := hinc.2.2 x hx m (by simp) n k hxn hk
        omega
      · simp at hx; subst hx
        rw [hxn] at hk; cases hk; omega

/-- The hypotheses hold of a run in which 2 is acknowledged while its handler is running. -/
example : ackSeq (run 0 [.recv ⟨0, some 1, 10⟩, .recv ⟨0, some 2, 11⟩, .start, .start, .take 0, .finish 0 .returned, .take 0]
    (init fun _ => some 5)).seqs [0] = some 2 := by decide +kernel

/-- C17 fails for the event itself: the number is recorded before the handler runs, so a render that
happens while the handler is awaiting attaches `n` although the handling of event `n` is not over. -/
theorem C17_violated : ∃ (handlers : Nat → Option Nat) (acts : List (Act Nat)) (m : Msg Nat), m.seq = some 1 ∧
    ackSeq (run 0 acts (init handlers)).seqs [m.target] = some 1 ∧
    ¬ Done (run 0 acts (init handlers)).log m ∧ (∀ h, .called m h ∉ (run 0 acts (init handlers)).log) := by
  refine ⟨fun _ => none, [.recv ⟨0, some 1, 10⟩, .start, .take 0], ⟨0, some 1, 10⟩, rfl, by decide +kernel, ?_, ?_⟩
  all_goals
    rw [show (run 0 [.recv ⟨0, some 1, 10⟩, .start, .take 0] (init fun _ => none)).log =
      [.received ⟨0, some 1, 10⟩, .took ⟨0, some 1, 10⟩] by decide +kernel]
    simp [Done]

/-- C17 fails for an element with two handlers: the larger number of one handler acknowledges an earlier
event of the other whose processing has not begun. -/
theorem C17_handlers_violated : ∃ (handlers : Nat → Option Nat) (acts : List (Act Nat)) (m : Msg Nat), m.seq = some 5 ∧
    m.target = 0 ∧ ackSeq (run 0 acts (init handlers)).seqs [0, 1] = some 6 ∧
    m ∈ received 0 (run 0 acts (init handlers)).log ∧ m ∉ taken 0 (run 0 acts (init handlers)).log :=
  ⟨fun _ => some 9, [.recv ⟨0, some 4, 1⟩, .recv ⟨0, some 5, 2⟩, .recv ⟨1, some 6, 3⟩, .start, .start, .start, .take 0,
    .take 1, .finish 1 .returned], ⟨0, some 5, 2⟩, rfl, rfl, by decide +kernel, by decide +kernel, by decide +kernel⟩

/-- C17 fails for an element that takes the place of another: numbers are never removed, so the new
element is first rendered with the number of the removed one, of which it has received no event. -/
theorem C17_inherited_violated : ∃ (handlers : Nat → Option Nat) (acts : List (Act Nat)),
    ackSeq (run 0 (acts ++ [.setHandler 0 none, .setHandler 0 (some 8)]) (init handlers)).seqs [0] = some 3 ∧
    ∀ m, .called m 8 ∉ (run 0 (acts ++ [.setHandler 0 none, .setHandler 0 (some 8)]) (init handlers)).log := by
  refine ⟨fun _ => some 5, [.recv ⟨0, some 3, 1⟩, .start, .take 0, .finish 0 .returned], by decide +kernel, ?_⟩
  intro m
  rw [show (run 0 ([.recv ⟨0, some 3, 1⟩, .start, .take 0, .finish 0 .returned] ++ [.setHandler 0 none, .setHandler 0 (some 8)])
    (init fun _ => some 5)).log = [.received ⟨0, some 3, 1⟩, .took ⟨0, some 3, 1⟩, .called ⟨0, some 3, 1⟩ 5,
      .ended ⟨0, some 3, 1⟩ .returned] by decide +kernel]
  simp

end Verif.Events
