import Verif.Connection.Model
/-! # A websocket connection: property C72 -/
namespace Verif.Connection
variable {M : Type}

/-- The event the handler is waiting to put. -/
def waiting (s : St M) : List M :=
  match s.loop with
  | .putting m => [m]
  | _ => []

/-- The layout events in the input of a schedule that the handler got to read. -/
def eventsRead (cap : Nat) : List (Act M) → St M → List M
  | [], _ => []
  | a :: as, s =>
    (match s.loop, a with
      | .receiving, .input (.event m) => [m]
      | _, _ => []) ++ eventsRead cap as (step cap s a)

/-- What holds in every state of a connection. -/
structure Inv (s : St M) : Prop where
  faithful : s.received = s.delivered ++ s.queue ++ waiting s
  ended : s.loop = .ended → s.cancelled = true
  cancelled : s.cancelled = true → s.loop = .ended
  opened : s.opened = (if s.disp = .serving then 1 else 0) + s.closed
  closed : s.closed ≤ (if s.disp = .ended then 1 else 0)
  putting : ∀ m, s.loop = .putting m → s.received ≠ []

theorem inv_step (cap : Nat) {s : St M} (h : Inv s) (a : Act M) : Inv (step cap s a) := by
  obtain ⟨hf, he, hc, ho, hcl, hp⟩ := h
  cases a with
  | input i =>
    simp only [step]
    cases hl : s.loop with
    | receiving =>
      simp only
      have hw : waiting s = [] := by simp [waiting, hl]
      rw [hw, List.append_nil] at hf
      cases i with
      | event m =>
        simp only
        split
        · exact ⟨by simp [waiting, hf], by simp, fun h => by simp [hc h] at hl, ho, hcl, by simp⟩
        · exact ⟨by simp [waiting, hf, hl], by simp [hl], fun h => by simp [hc h] at hl, ho, hcl, by simp [hl]⟩
      | unknown => exact ⟨by rw [hw, hf, List.append_nil], he, hc, ho, hcl, hp⟩
      | malformed => exact ⟨by simp [waiting, finish, hf], by simp [finish], by simp [finish], ho, hcl, by simp [finish]⟩
      | disconnect => exact ⟨by simp [waiting, finish, hf], by simp [finish], by simp [finish], ho, hcl, by simp [finish]⟩
    | putting m => exact ⟨hf, he, hc, ho, hcl, hp⟩
    | ended => exact ⟨hf, he, hc, ho, hcl, hp⟩
  | resume =>
    simp only [step]
    cases hl : s.loop with
    | putting m =>
      simp only
      split
      · exact ⟨hf, he, hc, ho, hcl, hp⟩
      · have hw : waiting s = [m] := by simp [waiting, hl]
        exact ⟨by rw [hw] at hf; simp [hf, waiting], by simp, fun h => by simp [hc h] at hl, ho, hcl, by simp⟩
    | receiving => exact ⟨hf, he, hc, ho, hcl, hp⟩
    | ended => exact ⟨hf, he, hc, ho, hcl, hp⟩
  | begin found =>
    simp only [step]
    split
    · rename_i hd
      simp only [hd, reduceCtorEq, if_false, Nat.zero_add, Nat.le_zero] at ho hcl
      split
      · exact ⟨hf, he, hc, by simp [ho], by simp [hcl], hp⟩
      · split
        · exact ⟨hf, he, hc, by simp [ho, hcl], by simp [hcl], hp⟩
        · exact ⟨hf, he, hc, by simp [ho], by simp [hcl], hp⟩
    · exact ⟨hf, he, hc, ho, hcl, hp⟩
  | take =>
    simp only [step]
    split
    · cases hq : s.queue with
      | nil => exact ⟨hf, he, hc, ho, hcl, hp⟩
      | cons m q => exact ⟨by simp [hf, hq, waiting], he, hc, ho, hcl, hp⟩
    · exact ⟨hf, he, hc, ho, hcl, hp⟩
  | fail =>
    simp only [step]
    split
    · rename_i hd
      simp only [hd, reduceCtorEq, if_false, if_true, Nat.le_zero] at ho hcl
      exact ⟨hf, he, hc, by simp [ho, hcl], by simp [hcl], hp⟩
    · exact ⟨hf, he, hc, ho, hcl, hp⟩
  | stop =>
    simp only [step]
    split
    · cases hd : s.disp with
      | created =>
        simp only [hd, reduceCtorEq, if_false, Nat.zero_add, Nat.le_zero] at ho hcl
        exact ⟨hf, he, hc, by simp [ho], by simp [hcl], hp⟩
      | serving =>
        simp only [hd, reduceCtorEq, if_false, if_true, Nat.le_zero] at ho hcl
        exact ⟨hf, he, hc, by simp [ho, hcl], by simp [hcl], hp⟩
      | ended => exact ⟨hf, he, hc, by simpa [hd] using ho, by simpa [hd] using hcl, hp⟩
    · exact ⟨hf, he, hc, ho, hcl, hp⟩

theorem inv_run (cap : Nat) : ∀ (acts : List (Act M)) {s : St M}, Inv s → Inv (run cap acts s)
  | [], _, h => h
  | a :: as, _, h => inv_run cap as (inv_step cap h a)

theorem inv_init : Inv ({} : St M) := ⟨rfl, by simp, by simp, rfl, by simp, by simp⟩

theorem received_step (cap : Nat) (s : St M) (a : Act M) : (step cap s a).received = s.received ++
    (match s.loop, a with
      | .receiving, .input (.event m) => [m]
      | _, _ => []) := by
  cases a with
  | input i =>
    cases hl : s.loop <;> simp only [step, hl, List.append_nil]
    cases i <;> simp only [finish, List.append_nil]
    split <;> rfl
  | resume => cases hl : s.loop <;> simp only [step, hl, List.append_nil]; split <;> rfl
  | begin found => cases hl : s.loop <;> simp only [step, List.append_nil] <;> (repeat' split) <;> rfl
  | take => cases hl : s.loop <;> simp only [step, List.append_nil] <;> (repeat' split) <;> rfl
  | fail => cases hl : s.loop <;> simp only [step, List.append_nil] <;> (repeat' split) <;> rfl
  | stop => cases hl : s.loop <;> simp only [step, List.append_nil] <;> (repeat' split) <;> rfl

theorem received_run (cap : Nat) : ∀ (acts : List (Act M)) (s : St M),
    (run cap acts s).received = s.received ++ eventsRead cap acts s
  | [], s => by simp [run, eventsRead]
  | a :: as, s => by
    rw [run, received_run cap as, received_step, List.append_assoc]
    rfl

/-- **C72.**  No event is lost, repeated or overtaken on its way from the socket to the layout: in every schedule, the events
read are those handed to the layout, followed by those in the queue, followed by the one the handler is about to put there. -/
theorem C72_faithful (cap : Nat) (acts : List (Act M)) :
    eventsRead cap acts {} = (run cap acts {}).delivered ++ (run cap acts {}).queue ++ waiting (run cap acts {}) := by
  have h := received_run cap acts ({} : St M)
  rw [show ({} : St M).received = [] from rfl, List.nil_append] at h
  rw [← h]
  exact (inv_run cap acts inv_init).faithful

/-- **C72.**  The layout is opened at most once, and closed as often as it was opened when the rendering task has ended. -/
theorem C72_closed (cap : Nat) (acts : List (Act M)) :
    (run cap acts {}).opened ≤ 1 ∧
    ((run cap acts {}).disp = .ended → (run cap acts {}).closed = (run cap acts {}).opened) ∧
    ((run cap acts {}).disp ≠ .ended → (run cap acts {}).closed = 0) := by
  obtain ⟨_, _, _, ho, hcl, _⟩ := inv_run cap acts (inv_init (M := M))
  refine ⟨?_, ?_, ?_⟩
  · rw [ho]
    cases hd : (run cap acts ({} : St M)).disp <;> simp [hd] at hcl ⊢ <;> omega
  · intro hd
    simp [hd] at ho
    omega
  · intro hd
    simpa [hd] using hcl

theorem run_append (cap : Nat) : ∀ (l l' : List (Act M)) (s : St M), run cap (l ++ l') s = run cap l' (run cap l s)
  | [], _, _ => rfl
  | _ :: l, l', _ => run_append cap l l' _

/-- **C72.**  When the handler has ended, the rendering task ends with its next step, and the layout is
handed nothing more; one that was not opened is never opened. -/
theorem C72_after_end (cap : Nat) (acts more : List (Act M)) (h : (run cap acts {}).loop = .ended) :
    (step cap (run cap acts {}) .stop).disp = .ended ∧
    (run cap more (run cap acts {})).delivered = (run cap acts {}).delivered ∧
    (run cap more (run cap acts {})).opened = (run cap acts {}).opened ∧ (run cap more (run cap acts {})).loop = .ended := by
  have hi := inv_run cap acts (inv_init (M := M))
  revert h hi
  generalize run cap acts ({} : St M) = s
  intro h hi
  have hc := hi.ended h
  refine ⟨?_, ?_⟩
  · simp only [step, hc, if_true]
    cases hd : s.disp <;> simp [hd]
  · clear hi
    induction more generalizing s with
    | nil => exact ⟨rfl, rfl, h⟩
    | cons a as ih =>
      have : (step cap s a).loop = .ended ∧ (step cap s a).cancelled = true ∧ (step cap s a).delivered = s.delivered ∧
          (step cap s a).opened = s.opened := by
        cases a <;> simp only [step, h, hc, if_true, Bool.true_eq_false, and_false, if_false, and_self]
        · (repeat' split) <;> simp [h, hc]
        · split <;> simp [h, hc]
        · cases hd : s.disp <;> simp [h, hc]
      obtain ⟨h1, h2, h3, h4⟩ := this
      have := ih _ h1 h2
      rw [h3, h4] at this
      exact this

/-- **C72.**  A connection that is closed (or sends text that is not a JSON object) while the handler reads ends the handler
at once; messages of other types are ignored. -/
theorem C72_input (cap : Nat) (acts : List (Act M)) (h : (run cap acts {}).loop = .receiving) :
    (run cap (acts ++ [.input .disconnect]) {}).loop = .ended ∧ (run cap (acts ++ [.input .malformed]) {}).loop = .ended ∧
    run cap (acts ++ [.input .unknown]) {} = run cap acts {} := by
  have happ : ∀ (l l' : List (Act M)) (s : St M), run cap (l ++ l') s = run cap l' (run cap l s) := by
    intro l l'
    induction l with
    | nil => intro s; rfl
    | cons a l ih => intro s; exact ih _
  simp only [happ, run, step, h, finish, and_self]

theorem full_cons {cap : Nat} {q : List M} (h : full cap q = true) : ∃ m q', q = m :: q' := by
  cases q with
  | nil => simp [full] at h
  | cons m q => exact ⟨m, q, rfl⟩

/-- Once there is no more room than needed, one event less makes room. -/
theorem room {cap : Nat} {m : M} {q : List M} (h : (m :: q).length ≤ cap) : full cap q = false := by
  simp only [List.length_cons] at h
  simp only [full, Bool.and_eq_false_imp, decide_eq_false_iff_not]
  omega

theorem queue_le_step {cap : Nat} (hcap : cap ≠ 0) {s : St M} (h : s.queue.length ≤ cap) (a : Act M) :
    (step cap s a).queue.length ≤ cap := by
  have hput : ∀ m : M, full cap s.queue = false → (s.queue ++ [m]).length ≤ cap := by
    intro m hf
    simp only [full, Bool.and_eq_false_imp, decide_eq_false_iff_not, bne_iff_ne] at hf
    have := hf hcap
    simp only [List.length_append, List.length_cons, List.length_nil]
    omega
  cases a with
  | input i =>
    simp only [step]
    cases s.loop with
    | receiving =>
      cases i with
      | event m =>
        simp only
        split
        · exact h
        · rename_i hf; exact hput m (by simpa using hf)
      | unknown => exact h
      | malformed => exact h
      | disconnect => exact h
    | putting m => exact h
    | ended => exact h
  | resume =>
    simp only [step]
    cases s.loop with
    | putting m =>
      simp only
      split
      · exact h
      · rename_i hf; exact hput m (by simpa using hf)
    | receiving => exact h
    | ended => exact h
  | begin found => simp only [step]; (repeat' split) <;> exact h
  | take =>
    simp only [step]
    split
    · cases hq : s.queue with
      | nil => simp [hq]
      | cons m q => rw [hq] at h; simp only [List.length_cons] at h ⊢; omega
    · exact h
  | fail => simp only [step]; split <;> exact h
  | stop =>
    simp only [step]
    split
    · cases s.disp <;> exact h
    · exact h

/-- **C72.**  The queue of a connection never holds more events than the configured limit. -/
theorem C72_bounded (cap : Nat) (hcap : cap ≠ 0) (acts : List (Act M)) : (run cap acts {}).queue.length ≤ cap := by
  suffices ∀ s : St M, s.queue.length ≤ cap → (run cap acts s).queue.length ≤ cap from this {} (by simp)
  induction acts with
  | nil => exact fun _ h => h
  | cons a as ih => exact fun s h => ih _ (queue_le_step hcap h a)

/-- **C72** (partial: the rendering task is alive).  The handler can always get back to reading the socket: as soon as the
layout has taken one event, a handler that waits for room goes on.  So the end of the connection is noticed. -/
theorem C72_progress_partial (cap : Nat) (acts : List (Act M)) (hd : (run cap acts {}).disp = .serving)
    (hl : (run cap acts {}).loop ≠ .ended) :
    (run cap [.take, .resume] (run cap acts {})).loop = .receiving := by
  have hi := inv_run cap acts (inv_init (M := M))
  have hb := C72_bounded (M := M) cap
  specialize hb
  have hq : cap ≠ 0 → (run cap acts ({} : St M)).queue.length ≤ cap := fun h => C72_bounded cap h acts
  revert hd hl hi hq
  generalize run cap acts ({} : St M) = s
  intro hd hl hi hq
  have hc : s.cancelled = false := by
    cases h : s.cancelled with
    | false => rfl
    | true => exact absurd (hi.cancelled h) hl
  simp only [run, step, hd, hc, and_self, if_true]
  cases hl' : s.loop with
  | ended => exact absurd hl' hl
  | receiving => cases hqq : s.queue <;> simp [hl']
  | putting m =>
    cases hqq : s.queue with
    | nil =>
      have : full cap ([] : List M) = false := by simp [full]
      simp [hl', hqq, this]
    | cons m' q =>
      have : full cap q = false := by
        by_cases h0 : cap = 0
        · simp [full, h0]
        · exact room (m := m') (by rw [← hqq]; exact hq h0)
      simp [hl', this]

theorem take_all (cap : Nat) : ∀ (q : List M) (s : St M), s.disp = .serving → s.cancelled = false → s.queue = q →
    run cap (List.replicate q.length .take) s = { s with queue := [], delivered := s.delivered ++ q }
  | [], s, _, _, hq => by
    obtain ⟨⟩ := s
    simp only at hq
    simp [run, hq]
  | m :: q, s, hd, hc, hq => by
    have := take_all cap q (step cap s .take) (by simp [step, hd, hc, hq]) (by simp [step, hd, hc, hq]) (by simp [step, hd, hc, hq])
    simp only [List.length_cons, List.replicate_succ, run, this]
    simp [step, hd, hc, hq]

/-- **C72** (partial: the rendering task is alive).  No event is lost: when the layout goes on taking events, it gets every
event that was read from the connection, in the order of the connection. -/
theorem C72_delivered_partial (cap : Nat) (acts : List (Act M)) (hd : (run cap acts {}).disp = .serving)
    (hl : (run cap acts {}).loop ≠ .ended) :
    ∃ n, (run cap (List.replicate n .take ++ [.resume, .take]) (run cap acts {})).delivered = eventsRead cap acts {} := by
  have hf := C72_faithful cap acts
  have hi := inv_run cap acts (inv_init (M := M))
  rw [hf]
  clear hf
  revert hd hl hi
  generalize run cap acts ({} : St M) = s
  intro hd hl hi
  have hc : s.cancelled = false := by
    cases h : s.cancelled with
    | false => rfl
    | true => exact absurd (hi.cancelled h) hl
  refine ⟨s.queue.length, ?_⟩
  rw [run_append, take_all cap s.queue s hd hc rfl]
  have hnf : full cap ([] : List M) = false := by simp [full]
  cases hl' : s.loop with
  | ended => exact absurd hl' hl
  | receiving => simp [run, step, hl', hd, hc, waiting]
  | putting m => simp [run, step, hl', hd, hc, waiting, hnf]

example : (run 1 [.begin true, .input (.event 1), .input (.event 2), .take, .resume, .take, .input .disconnect, .stop] ({} : St Nat)).delivered = [1, 2] ∧
    (run 1 [.begin true, .input (.event 1), .input (.event 2)] ({} : St Nat)).loop = .putting 2 ∧
    (run 1 [.begin true, .input (.event 1), .input (.event 2)] ({} : St Nat)).disp = .serving := by decide +kernel

/-- **C72 is violated** when the rendering task has died: here no component was found (an unregistered path).  The client goes
on sending events; when the queue is full the handler waits for room for ever, and never notices the end of the connection. -/
theorem C72_stuck_violated (cap : Nat) (hcap : cap ≠ 0) : ∃ acts : List (Act Nat), ∀ more : List (Act Nat),
    ∃ m, (run cap more (run cap acts {})).loop = .putting m := by
  refine ⟨.begin false :: List.replicate (cap + 1) (.input (.event 0)), ?_⟩
  -- the queue fills
  have fill : ∀ (n : Nat) (s : St Nat), s.loop = .receiving → s.disp = .ended → s.queue.length + n = cap →
      ∃ s' : St Nat, run cap (List.replicate (n + 1) (.input (.event 0))) s = s' ∧ s'.loop = .putting 0 ∧ s'.disp = .ended ∧
        full cap s'.queue = true := by
    intro n
    induction n with
    | zero =>
      intro s hl hd hn
      have hf : full cap s.queue = true := by simp [full, hcap]; omega
      exact ⟨_, rfl, by simp [run, step, hl, hf], by simp [run, step, hl, hf, hd], by simp [run, step, hl, hf]⟩
    | succ n ih =>
      intro s hl hd hn
      have hf : full cap s.queue = false := by simp [full, hcap]; omega
      obtain ⟨s', h1, h2⟩ := ih (step cap s (.input (.event 0))) (by simp [step, hl, hf]) (by simp [step, hl, hf, hd])
        (by simp [step, hl, hf]; omega)
      exact ⟨s', by rw [List.replicate_succ, run, h1], h2⟩
  obtain ⟨s', h1, hl, hd, hf⟩ := fill cap (step cap {} (.begin false)) rfl rfl (by simp [step])
  intro more
  rw [run, h1]
  clear h1
  induction more generalizing s' with
  | nil => exact ⟨0, hl⟩
  | cons a as ih =>
    have hstep : (step cap s' a).loop = .putting 0 ∧ (step cap s' a).disp = .ended ∧ full cap (step cap s' a).queue = true := by
      cases a with
      | input i => simp [step, hl, hd, hf]
      | resume => simp [step, hl, hd, hf]
      | begin f => simp [step, hl, hd, hf]
      | take => simp [step, hl, hd, hf]
      | fail => simp [step, hl, hd, hf]
      | stop => simp only [step, hd]; split <;> simp [hl, hd, hf]
    exact ih _ hstep.1 hstep.2.1 hstep.2.2

/-! ### Cases that meet the hypotheses -/

example := C72_after_end (M := Nat) 1 [.begin true, .input (.event 1), .take, .input .disconnect] [.input (.event 2), .take] (by decide +kernel)
example := C72_input (M := Nat) 1 [.begin true, .input (.event 1)] (by decide +kernel)
example := C72_bounded (M := Nat) 1 (by decide) [.begin true, .input (.event 1), .input (.event 2)]
example := C72_progress_partial (M := Nat) 1 [.begin true, .input (.event 1), .input (.event 2)] (by decide +kernel) (by decide +kernel)

end Verif.Connection
