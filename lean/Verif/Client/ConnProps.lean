import Verif.Client.Conn
/-! # C49, C50: reconnection and outgoing messages -/
namespace Verif.Client
variable {M : Type}

theorem schedule_append (c : Config) (l l' : List (Obs M)) : ∀ k,
    schedule c k (l ++ l') = (schedule c k l).bind (fun k' => schedule c k' l') := by
  induction l with
  | nil => intro k; simp [schedule]
  | cons o l ih =>
    intro k
    cases o with
    | delay d =>
      cases k with
      | none => simp [schedule]
      | some k =>
        simp only [List.cons_append, schedule]
        split
        · exact ih _
        · rfl
    | attempt => cases k <;> simp only [List.cons_append, schedule, ih]
    | opened => cases k <;> simp only [List.cons_append, schedule, ih]
    | lost => cases k <;> simp only [List.cons_append, schedule, ih]
    | gaveUp => cases k <;> simp only [List.cons_append, schedule, ih]
    | sent m => cases k <;> simp only [List.cons_append, schedule, ih]

theorem schedule_sent (c : Config) (ms : List M) : ∀ k, schedule c k (ms.map Obs.sent) = some k := by
  induction ms with
  | nil => intro k; rfl
  | cons m ms ih => intro k; cases k <;> simp only [List.map_cons, schedule, ih]

theorem flush_open (n : Nat) : ∀ s : Conn M, s.sock = .open → s.queue.length ≤ n →
    flush n s = { s with queue := [], log := s.log ++ s.queue.map .sent } := by
  induction n with
  | zero =>
    intro s _ hl
    have : s.queue = [] := List.length_eq_zero_iff.1 (by omega)
    simp [flush, this]
    cases s; simp_all
  | succ n ih =>
    intro s hs hl
    simp only [flush]
    split
    · rename_i hq
      cases s; simp_all
    · rename_i m r hq
      rw [ih]
      · simp [sendMessage, hs, hq]
      · simp [sendMessage, hs]
      · rw [hq] at hl; simp [sendMessage, hs] at hl ⊢; omega

structure CInv (c : Config) (s : Conn M) : Prop where
  sched : schedule c none s.log = some (if s.everConnected then some s.retries else none)
  cur : s.current = expected c s.retries
  fresh : s.everConnected = false → s.retries = 0
  timer : s.timer = true → s.sock = .closed
  qopen : s.sock = .open → s.queue = []
  notStarted : s.started = false → s.sock = .none ∧ s.everConnected = false

theorem cinv_init (c : Config) : CInv (M := M) c (initConn c) := by
  constructor <;> simp [initConn, schedule, expected]

theorem step_cinv {c : Config} {s : Conn M} (h : CInv c s) (a : Act M) : CInv c (step c s a) := by
  cases a with
  | ready =>
    simp only [step]
    split
    · exact h
    · rename_i hs
      have hs : s.started = false := by simpa using hs
      have := h.notStarted hs
      refine ⟨?_, h.cur, h.fresh, ?_, by simp, by simp⟩
      · simp only [schedule_append, h.sched, Option.bind_some]
        split <;> rfl
      · intro ht; have := h.timer ht; simp_all
  | «open» =>
    simp only [step]
    split
    · rename_i hs
      rw [flush_open _ { s with sock := .open, everConnected := true, current := c.interval, retries := 0, log := s.log ++ [.opened] } rfl (Nat.le_refl _)]
      refine ⟨?_, rfl, by simp, ?_, by simp, ?_⟩
      · simp only [schedule_append, h.sched, Option.bind_some, if_true]
        cases s.everConnected <;> simp [schedule, schedule_sent]
      · intro ht; have := h.timer ht; simp_all
      · intro ht; have := h.notStarted ht; simp_all
    · exact h
  | closing =>
    simp only [step]
    split
    · rename_i hs
      refine ⟨h.sched, h.cur, h.fresh, ?_, by simp, ?_⟩
      · intro ht; have := h.timer ht; simp_all
      · intro ht; have := h.notStarted ht; simp_all
    · exact h
  | close =>
    simp only [step]
    split
    · rename_i hs
      have hst : s.started = true := by
        cases hx : s.started with
        | true => rfl
        | false => have := h.notStarted hx; simp_all
      have h1 : schedule c none (s.log ++ [.lost]) = some (if s.everConnected then some s.retries else none) := by
        simp only [schedule_append, h.sched, Option.bind_some]; split <;> rfl
      split
      · rename_i he
        refine ⟨?_, h.cur, h.fresh, by simp, by simp, by simp [hst]⟩
        simp only [schedule_append, h.sched, Option.bind_some]; split <;> rfl
      · rename_i he
        split
        · refine ⟨?_, h.cur, h.fresh, by simp, by simp, by simp [hst]⟩
          simp only [schedule_append, h.sched, Option.bind_some]; split <;> rfl
        · rename_i hr
          have he : s.everConnected = true := by simpa using he
          refine ⟨?_, ?_, ?_, by simp, by simp, by simp [hst]⟩
          · have hr : ¬ s.retries ≥ c.maxRetries := hr
            simp only [schedule_append, h.sched, he, Option.bind_some, if_true, schedule]
            rw [if_pos ⟨h.cur, by omega⟩]
          · simp only [nextInterval, h.cur, expected]
          · simp [he]
    · exact h
  | timer =>
    simp only [step]
    split
    · rename_i ht
      refine ⟨?_, h.cur, h.fresh, by simp, by simp, ?_⟩
      · simp only [schedule_append, h.sched, Option.bind_some]; split <;> rfl
      · intro hs; have := h.notStarted hs; have := h.timer ht; simp_all
    · exact h
  | send m =>
    simp only [step, sendMessage]
    split
    · rename_i hs
      refine ⟨?_, h.cur, h.fresh, h.timer, h.qopen, h.notStarted⟩
      simp only [schedule_append, h.sched, Option.bind_some]; split <;> rfl
    · rename_i hs
      exact ⟨h.sched, h.cur, h.fresh, h.timer, fun ho => absurd ho hs, h.notStarted⟩

theorem run_cinv (c : Config) (acts : List (Act M)) : CInv c (run c acts) := by
  have : ∀ s, CInv c s → CInv c (acts.foldl (step c) s) := by
    induction acts with
    | nil => intro s h; exact h
    | cons a r ih => intro s h; exact ih _ (step_cinv h a)
  exact this _ (cinv_init c)

/-! ## C49 -/

/-- C49, schedule: for every history of the connection and every configuration, reconnection attempts are
scheduled only after the connection has been open; the delay of the `k`-th one since it last opened is
`expected k`; and there are at most `maxRetries` of them. -/
theorem C49_schedule (c : Config) (acts : List (Act M)) : (schedule c none (run c acts).log).isSome := by
  rw [(run_cinv c acts).sched]; rfl

/-- C49, growth: with a starting interval between 0 and the maximum and a multiplier of at least 1, the delays are
those of geometric growth, cut off at the maximum. -/
theorem C49_geometric_partial (c : Config) (h0 : 0 ≤ c.interval) (hm : 1 ≤ c.multiplier) (hi : c.interval ≤ c.maxInterval) (k : Nat) :
    expected c k = min (c.interval * c.multiplier ^ k) c.maxInterval := by
  have hm0 : 0 ≤ c.multiplier := Rat.le_trans (by decide) hm
  have hle : ∀ x : Rat, 0 ≤ x → x ≤ x * c.multiplier := by
    intro x hx
    have := Rat.mul_le_mul_of_nonneg_left hm hx
    rwa [Rat.mul_one] at this
  have hpow : ∀ k : Nat, 0 ≤ c.interval * c.multiplier ^ k := by
    intro k
    exact Rat.mul_nonneg h0 (Rat.pow_nonneg hm0)
  induction k with
  | zero =>
    simp only [expected, Rat.pow_zero, Rat.mul_one, Rat.min_def]
    rw [if_pos hi]
  | succ k ih =>
    have e : c.interval * c.multiplier ^ (k + 1) = c.interval * c.multiplier ^ k * c.multiplier := by
      rw [Rat.pow_succ, Rat.mul_assoc]
    rw [expected, ih, e]
    have hk := hpow k
    generalize c.interval * c.multiplier ^ k = x at *
    simp only [Rat.min_def]
    have hx := hle x hk
    by_cases h1 : x ≤ c.maxInterval
    · simp only [h1, if_true]
    · simp only [h1, if_false]
      have h2 : c.maxInterval ≤ x := Rat.le_of_lt (Rat.not_le.1 h1)
      have h3 : c.maxInterval ≤ c.maxInterval * c.multiplier := hle _ (Rat.le_trans h0 hi)
      have h4 : ¬ x * c.multiplier ≤ c.maxInterval := fun h => h1 (Rat.le_trans hx h)
      simp only [h4, if_false]
      split
      · rename_i h5; exact Rat.le_antisymm h5 h3
      · rfl

/-- C49, bound (partial: a starting interval that does not exceed the maximum): no delay exceeds the
maximum.  Missing: `C49_first_violated`. -/
theorem C49_bounded_partial (c : Config) (hi : c.interval ≤ c.maxInterval) (acts : List (Act M)) (d : Rat)
    (hd : .delay d ∈ (run c acts).log) : d ≤ c.maxInterval := by
  have hexp : ∀ k, expected c k ≤ c.maxInterval := by
    intro k
    cases k with
    | zero => exact hi
    | succ k =>
      simp only [expected, Rat.min_def]
      split
      · assumption
      · exact Rat.le_refl
  have hs := C49_schedule c acts
  generalize (run c acts).log = l at *
  generalize (none : Option Nat) = k at hs
  induction l generalizing k with
  | nil => cases hd
  | cons o l ih =>
    cases o with
    | delay d' =>
      cases k with
      | none => simp [schedule] at hs
      | some k =>
        simp only [schedule] at hs
        split at hs
        · rename_i h
          rcases List.mem_cons.1 hd with h' | h'
          · cases h'; rw [h.1]; exact hexp k
          · exact ih h' _ hs
        · simp at hs
    | attempt => cases k <;> exact ih (by simpa using hd) _ hs
    | opened => cases k <;> exact ih (by simpa using hd) _ hs
    | lost => cases k <;> exact ih (by simpa using hd) _ hs
    | gaveUp => cases k <;> exact ih (by simpa using hd) _ hs
    | sent m => cases k <;> exact ih (by simpa using hd) _ hs

/-- C49, never more than one connection: a reconnection is pending only when the last connection is closed. -/
theorem C49_one_connection (c : Config) (acts : List (Act M)) (h : (run c acts).timer = true) : (run c acts).sock = .closed :=
  (run_cinv c acts).timer h

/-- The phase a state is in. -/
def Conn.phase (s : Conn M) : Phase := match s.sock with
  | .none => .before
  | .connecting => .trying
  | .open => .up
  | .closing => .up
  | .closed => if s.timer then .waiting else .over

def Conn.count (s : Conn M) : Option Nat := if s.everConnected then some s.retries else none

theorem life_sent (c : Config) (k : Option Nat) (ms : List M) : (ms.map Obs.sent).foldlM (life c) (.up, k) = some (.up, k) := by
  induction ms with
  | nil => rfl
  | cons m ms ih => simp only [List.map_cons, List.foldlM_cons, life]; exact ih

theorem step_life {c : Config} {s : Conn M} (h : CInv c s) (hl : s.log.foldlM (life c) (.before, none) = some (s.phase, s.count))
    (a : Act M) : (step c s a).log.foldlM (life c) (.before, none) = some ((step c s a).phase, (step c s a).count) := by
  cases a with
  | ready =>
    simp only [step]
    split
    · exact hl
    · rename_i hs
      have hs := h.notStarted (by simpa using hs)
      simp [List.foldlM_append, hl, Conn.phase, Conn.count, hs.1, life]
  | «open» =>
    simp only [step]
    split
    · rename_i hs
      rw [flush_open _ { s with sock := .open, everConnected := true, current := c.interval, retries := 0, log := s.log ++ [.opened] } rfl (Nat.le_refl _)]
      simp only [List.foldlM_append, hl, Option.bind_eq_bind, Option.bind_some, Conn.phase, hs, List.foldlM_cons, List.foldlM_nil, life,
        Conn.count, if_true]
      exact life_sent c _ _
    · exact hl
  | closing =>
    simp only [step]
    split
    · rename_i hs
      simp [hl, Conn.phase, Conn.count, hs]
    · exact hl
  | close =>
    simp only [step]
    split
    · rename_i hs
      have hp : s.phase = .trying ∨ s.phase = .up := by rcases hs with h | h | h <;> simp [Conn.phase, h]
      have h1 : (s.log ++ [Obs.lost]).foldlM (life c) (.before, none) = some (.down, s.count) := by
        simp only [List.foldlM_append, hl, Option.bind_eq_bind, Option.bind_some, List.foldlM_cons, List.foldlM_nil]
        rcases hp with h | h <;> rw [h] <;> rfl
      have hnt : s.timer = false := by
        cases ht : s.timer with
        | false => rfl
        | true => have := h.timer ht; simp_all
      split
      · rename_i he
        have he : s.everConnected = false := by simpa using he
        show List.foldlM (life c) (.before, none) ((s.log ++ [.lost]) ++ [.gaveUp]) = _
        rw [List.foldlM_append, h1]
        simp [Conn.count, Conn.phase, he, life, hnt]
      · rename_i he
        have he : s.everConnected = true := by simpa using he
        split
        · rename_i hr
          have hr : c.maxRetries ≤ s.retries := hr
          show List.foldlM (life c) (.before, none) ((s.log ++ [.lost]) ++ [.gaveUp]) = _
          rw [List.foldlM_append, h1]
          simp [Conn.count, Conn.phase, he, life, hnt, hr]
        · rename_i hr
          have hr : s.retries < c.maxRetries := by
            have : ¬ s.retries ≥ c.maxRetries := hr
            omega
          show List.foldlM (life c) (.before, none) ((s.log ++ [.lost]) ++ [.delay s.current]) = _
          rw [List.foldlM_append, h1]
          simp [Conn.count, Conn.phase, he, life, hr]
    · exact hl
  | timer =>
    simp only [step]
    split
    · rename_i ht
      have := h.timer ht
      simp [List.foldlM_append, hl, Conn.phase, Conn.count, this, ht, life]
    · exact hl
  | send m =>
    simp only [step, sendMessage]
    split
    · rename_i hs
      simp [List.foldlM_append, hl, Conn.phase, Conn.count, hs, life]
    · exact hl

theorem run_life (c : Config) (acts : List (Act M)) :
    (run c acts).log.foldlM (life c) (.before, none) = some ((run c acts).phase, (run c acts).count) := by
  have : ∀ s, CInv c s → s.log.foldlM (life c) (.before, none) = some (s.phase, s.count) →
      (acts.foldl (step c) s).log.foldlM (life c) (.before, none) = some ((acts.foldl (step c) s).phase, (acts.foldl (step c) s).count) := by
    induction acts with
    | nil => intro s _ h; exact h
    | cons a r ih => intro s h hl; exact ih _ (step_cinv h a) (step_life h hl a)
  exact this _ (cinv_init c) rfl

/-- C49, persistence: every history is a life as specified: the client never gives up while it has retries left, never
tries while another attempt is under way, and never leaves a loss unanswered. -/
theorem C49_persistent (c : Config) (acts : List (Act M)) :
    ∃ ph k, (run c acts).log.foldlM (life c) (.before, none) = some (ph, k) ∧ ph ≠ .down := by
  refine ⟨_, _, run_life c acts, ?_⟩
  simp only [Conn.phase]
  repeat' split
  all_goals simp

/-- C49, the next attempt: when one is scheduled, and its timer fires, it is made. -/
theorem C49_retried (c : Config) (acts : List (Act M)) (k : Option Nat)
    (hw : (run c acts).log.foldlM (life c) (.before, none) = some (.waiting, k)) :
    (run c (acts ++ [.timer])).log = (run c acts).log ++ [.attempt] := by
  rw [run_life] at hw
  have hp : (run c acts).phase = .waiting := by simpa using congrArg (Option.map Prod.fst) hw
  have ht : (run c acts).timer = true := by
    simp only [Conn.phase] at hp
    repeat' split at hp
    all_goals first | assumption | cases hp
  have : run c (acts ++ [.timer]) = step c (run c acts) .timer := by simp [run, List.foldl_append]
  rw [this]; simp [step, ht]

/-- C49, options: what `mountReactPy` is given, if it is not 0, and otherwise 750 ms, 60 s, 150 retries and 1.25. -/
theorem C49_options (p : MountProps) :
    ((p.interval = none → (mountConfig p).interval = 750) ∧ ∀ v, p.interval = some v → v ≠ 0 → (mountConfig p).interval = v) ∧
    ((p.maxInterval = none → (mountConfig p).maxInterval = 60000) ∧ ∀ v, p.maxInterval = some v → v ≠ 0 → (mountConfig p).maxInterval = v) ∧
    ((p.maxRetries = none → (mountConfig p).maxRetries = 150) ∧ ∀ v, p.maxRetries = some v → v ≠ 0 → (mountConfig p).maxRetries = v) ∧
    ((p.multiplier = none → (mountConfig p).multiplier = 5 / 4) ∧ ∀ v, p.multiplier = some v → v ≠ 0 → (mountConfig p).multiplier = v) := by
  have ho : ∀ (o : Option Rat) (d : Rat), (o = none → orDefault o d = d) ∧ ∀ v, o = some v → v ≠ 0 → orDefault o d = v := by
    intro o d
    refine ⟨fun h => by rw [h]; rfl, fun v h hv => by rw [h]; simp [orDefault, hv]⟩
  refine ⟨ho _ _, ho _ _, ⟨fun h => by simp [mountConfig, h], fun v h hv => by simp [mountConfig, h, hv]⟩, ho _ _⟩

def exConfig : Config := { interval := 750, maxInterval := 1000, maxRetries := 3, multiplier := 5 / 4 }

/-- A connection that opens, is lost, fails to open three times, and is given up. -/
example : (run (M := Nat) exConfig [.ready, .open, .close, .timer, .close, .timer, .close, .timer, .close, .timer]).log =
    [.attempt, .opened, .lost, .delay 750, .attempt, .lost, .delay (1875 / 2), .attempt, .lost, .delay 1000, .attempt, .lost, .gaveUp] := by
  decide +kernel
/-- Here an attempt is scheduled. -/
example : (run (M := Nat) exConfig [.send 1, .ready, .open, .send 2, .close]).log.foldlM (life exConfig) (.before, none) =
    some (.waiting, some 1) := by decide +kernel
/-- Giving up with retries left is no such life. -/
example : ([.attempt, .opened, .lost, .gaveUp] : List (Obs Nat)).foldlM (life exConfig) (.before, none) = none := by decide +kernel
example : (mountConfig { maxRetries := some 7 }) = { interval := 750, maxInterval := 60000, maxRetries := 7, multiplier := 5 / 4 } := by
  decide +kernel
/-- A successful connection resets the schedule. -/
example : (run (M := Nat) exConfig [.ready, .open, .close, .timer, .close, .timer, .open, .close]).log =
    [.attempt, .opened, .lost, .delay 750, .attempt, .lost, .delay (1875 / 2), .attempt, .opened, .lost, .delay 750] := by
  decide +kernel
example : (0 : Rat) ≤ exConfig.interval ∧ 1 ≤ exConfig.multiplier ∧ exConfig.interval ≤ exConfig.maxInterval := by decide +kernel

/-- C49 fails for the first delay: it is the starting interval even if that exceeds the maximum. -/
theorem C49_first_violated : ∃ (c : Config) (acts : List (Act Nat)) (d : Rat), .delay d ∈ (run c acts).log ∧ c.maxInterval < d :=
  ⟨{ interval := 5000, maxInterval := 1000, maxRetries := 3, multiplier := 2 }, [.ready, .open, .close], 5000,
    by decide +kernel, by decide +kernel⟩

/-- C49 fails for a configured maximum of zero retries: `0 || 150` is 150, and the client does reconnect. -/
theorem C49_zero_violated : ∃ (p : MountProps) (acts : List (Act Nat)), p.maxRetries = some 0 ∧
    .delay 750 ∈ (run (mountConfig p) acts).log :=
  ⟨{ maxRetries := some 0 }, [.ready, .open, .close], rfl, by decide +kernel⟩

/-! ## C50 -/

theorem sentMsgs_append (l l' : List (Obs M)) : sentMsgs (l ++ l') = sentMsgs l ++ sentMsgs l' := by
  simp [sentMsgs, List.filterMap_append]

theorem sentMsgs_map (ms : List M) : sentMsgs (ms.map .sent) = ms := by
  induction ms with
  | nil => rfl
  | cons m ms ih => simp only [sentMsgs, List.map_cons, List.filterMap_cons] at *; rw [ih]

theorem step_sent {c : Config} {s : Conn M} (h : CInv c s) (a : Act M) :
    sentMsgs (step c s a).log ++ (step c s a).queue = sentMsgs s.log ++ s.queue ++ passed [a] := by
  cases a with
  | ready =>
    simp only [step]; split
    · simp [passed]
    · simp [sentMsgs, passed]
  | «open» =>
    simp only [step]; split
    · rw [flush_open _ { s with sock := .open, everConnected := true, current := c.interval, retries := 0, log := s.log ++ [.opened] } rfl (Nat.le_refl _)]
      simp only [sentMsgs_append, sentMsgs_map]
      simp [passed, sentMsgs]
    · simp [passed]
  | closing => simp only [step]; split <;> simp [passed]
  | close =>
    simp only [step]; split
    · split
      · simp [sentMsgs, passed]
      · split <;> simp [sentMsgs, passed]
    · simp [passed]
  | timer => simp only [step]; split <;> simp [sentMsgs, passed]
  | send m =>
    simp only [step, sendMessage]; split
    · rename_i hs
      rw [h.qopen hs]; simp [sentMsgs, passed]
    · simp [passed]

/-- C50, order: at every time, the messages handed to the socket followed by those queued are the messages
passed to `sendMessage`, in order, each exactly once. -/
theorem C50_in_order (c : Config) (acts : List (Act M)) :
    sentMsgs (run c acts).log ++ (run c acts).queue = passed acts := by
  have : ∀ (acts : List (Act M)) s, CInv c s →
      sentMsgs (acts.foldl (step c) s).log ++ (acts.foldl (step c) s).queue = sentMsgs s.log ++ s.queue ++ passed acts := by
    intro acts
    induction acts with
    | nil => intro s _; simp [passed]
    | cons a r ih =>
      intro s h
      rw [List.foldl_cons, ih _ (step_cinv h a), step_sent h a]
      rw [show a :: r = [a] ++ r from rfl]
      simp only [passed, List.filterMap_append, List.append_assoc]
  have h := this acts (initConn c) (cinv_init c)
  rw [show run c acts = acts.foldl (step c) (initConn c) from rfl, h]
  simp [initConn, sentMsgs]

/-- C50, flushed: while the connection is open nothing is queued. -/
theorem C50_flushed (c : Config) (acts : List (Act M)) (h : (run c acts).sock = .open) : (run c acts).queue = [] :=
  (run_cinv c acts).qopen h

/-- The state of the specification after a log. -/
def isOpen : Bool → List (Obs M) → Bool
  | o, [] => o
  | _, .opened :: l => isOpen true l
  | _, .lost :: l => isOpen false l
  | o, _ :: l => isOpen o l

theorem only_append (l l' : List (Obs M)) : ∀ o, sentOnlyOpen o (l ++ l') = (sentOnlyOpen o l && sentOnlyOpen (isOpen o l) l') := by
  induction l with
  | nil => intro o; simp [sentOnlyOpen, isOpen]
  | cons x l ih => intro o; cases x <;> simp [sentOnlyOpen, isOpen, ih, Bool.and_assoc]

theorem isOpen_append (l l' : List (Obs M)) : ∀ o, isOpen o (l ++ l') = isOpen (isOpen o l) l' := by
  induction l with
  | nil => intro o; rfl
  | cons x l ih => intro o; cases x <;> simp [isOpen, ih]

theorem only_map (ms : List M) : sentOnlyOpen true (ms.map Obs.sent) = true ∧ ∀ o, isOpen o (ms.map Obs.sent) = o := by
  induction ms with
  | nil => simp [sentOnlyOpen, isOpen]
  | cons m ms ih => simpa [sentOnlyOpen, isOpen] using ih

theorem step_only {c : Config} {s : Conn M} (h : sentOnlyOpen false s.log = true)
    (ho : s.sock = .open → isOpen false s.log = true) (a : Act M) :
    sentOnlyOpen false (step c s a).log = true ∧ ((step c s a).sock = .open → isOpen false (step c s a).log = true) := by
  cases a with
  | ready =>
    simp only [step]; split
    · exact ⟨h, ho⟩
    · exact ⟨by simp [only_append, h, sentOnlyOpen], by simp⟩
  | «open» =>
    simp only [step]; split
    · rw [flush_open _ { s with sock := .open, everConnected := true, current := c.interval, retries := 0, log := s.log ++ [.opened] } rfl (Nat.le_refl _)]
      simp [only_append, isOpen_append, h, sentOnlyOpen, isOpen, only_map]
    · exact ⟨h, ho⟩
  | closing =>
    simp only [step]; split
    · exact ⟨h, by simp⟩
    · exact ⟨h, ho⟩
  | close =>
    simp only [step]; split
    · split
      · simp [only_append, h, sentOnlyOpen]
      · split <;> simp [only_append, h, sentOnlyOpen]
    · exact ⟨h, ho⟩
  | timer =>
    simp only [step]; split
    · exact ⟨by simp [only_append, h, sentOnlyOpen], by simp⟩
    · exact ⟨h, ho⟩
  | send m =>
    simp only [step, sendMessage]; split
    · rename_i hs; simp [only_append, isOpen_append, h, sentOnlyOpen, isOpen, ho hs]
    · exact ⟨h, ho⟩

/-- C50, only while open: no message is handed to the socket before the connection opens or after it is lost. -/
theorem C50_only_open (c : Config) (acts : List (Act M)) : sentOnlyOpen false (run c acts).log = true := by
  have : ∀ (acts : List (Act M)) s, sentOnlyOpen false s.log = true → (s.sock = .open → isOpen false s.log = true) →
      sentOnlyOpen false (acts.foldl (step c) s).log = true := by
    intro acts
    induction acts with
    | nil => intro s h _; exact h
    | cons a r ih =>
      intro s h ho
      obtain ⟨h1, h2⟩ := step_only (c := c) h ho a
      exact ih _ h1 h2
  exact this acts _ (by simp [initConn, sentOnlyOpen]) (by simp [initConn])

/-- Messages before the first connection, during it, while it is closing, and after the next one. -/
example : (run exConfig [.send 1, .ready, .send 2, .open, .send 3, .closing, .send 4, .close, .send 5, .timer, .send 6, .open, .send 7]).log =
    [.attempt, .opened, .sent 1, .sent 2, .sent 3, .lost, .delay 750, .attempt, .opened, .sent 4, .sent 5, .sent 6, .sent 7] := by
  decide +kernel

/-! ### Cases that meet the hypotheses -/

example := C49_geometric_partial exConfig (by decide +kernel) (by decide +kernel) (by decide +kernel) 3
example := C49_bounded_partial (M := Nat) exConfig (by decide +kernel) [.ready, .open, .close] 750 (by decide +kernel)
example := C49_one_connection (M := Nat) exConfig [.ready, .open, .close] (by decide +kernel)
example := C49_retried (M := Nat) exConfig [.send 1, .ready, .open, .send 2, .close] (some 1) (by decide +kernel)
example := C50_flushed (M := Nat) exConfig [.send 1, .ready, .send 2, .open, .send 3] (by decide +kernel)

end Verif.Client
