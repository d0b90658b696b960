import Verif.Queue.Lemmas
/-! # C15: the serial render queue -/
namespace Verif.Queue
variable {V : Type} [DecidableEq V]

/-- The observations of a run, oldest first. -/
def obs (s : St V) : List (Obs V) := s.log.reverse

/-- C15 (partial: calls of `put` that are not interrupted by another thread).  For every queue size and
every interleaving the observations are those of a set of pending values: a put of a pending value is
merged, every other put makes the value pending, and each get returns one pending value and removes it;
`get` never raises; and the pending values are exactly those held by the machinery, so none is lost.
Missing: order under backpressure (`C15_order_violated`), interrupted puts (`C15_threads_violated`). -/
theorem C15_exactly_once_partial (cap : Nat) (cs : List (Call V)) :
    ∃ p, bag [] (obs (runCalls cap cs)) = some p ∧ p.Nodup ∧
      p.Perm ((runCalls cap cs).queue ++ (runCalls cap cs).blocked ++ (runCalls cap cs).created ++ (runCalls cap cs).soon) :=
  have h := runCalls_inv cap cs
  ⟨_, h.obs, h.nodup, h.perm⟩

/-- C15 (partial: at most as many different values as the queue holds, or an unbounded queue).  Values
are obtained in the order in which they became pending. -/
theorem C15_fifo_partial (cap : Nat) (vs : List V) (hcap : cap = 0 ∨ vs.length ≤ cap) (cs : List (Call V))
    (hv : ∀ t v, .put t v ∈ cs → v ∈ vs) : (fifo [] (obs (runCalls cap cs))).isSome := by
  have h := runCalls_ord_from (cap := cap) vs hcap cs ord_init (by simp) (by
    intro v h
    simp only [puts, List.mem_filterMap] at h
    obtain ⟨c, hc, hcv⟩ := h
    cases c <;> simp at hcv
    subst hcv; exact hv _ _ hc)
  rw [show obs (runCalls cap cs) = _ from rfl, show fifo [] (obs (runCalls cap cs)) = _ from h.obs]
  rfl

/-- C15, nothing gets stuck: when the loop has nothing left to do for the queue — no callback, no
task that can begin or be resumed — and a value is pending, then `get` has a value to return. -/
theorem C15_no_stall_partial (cap : Nat) (cs : List (Call V)) (p : List V)
    (hp : bag [] (obs (runCalls cap cs)) = some p) (hne : p ≠ [])
    (hsoon : (runCalls cap cs).soon = []) (hcreated : (runCalls cap cs).created = [])
    (hblocked : ∀ v ∈ (runCalls cap cs).blocked, full cap (runCalls cap cs).queue = true) :
    (runCalls cap cs).queue ≠ [] := by
  have h := runCalls_inv cap cs
  have e : (runCalls cap cs).pending = p := by
    have := h.obs
    rw [show (runCalls cap cs).log.reverse = obs (runCalls cap cs) from rfl, hp] at this
    exact (Option.some.inj this).symm
  intro hq
  have hpm := h.perm
  rw [hsoon, hcreated, hq, e] at hpm
  simp only [List.append_nil, List.nil_append] at hpm
  cases hb : (runCalls cap cs).blocked with
  | nil => rw [hb] at hpm; exact hne hpm.eq_nil
  | cons v r =>
    have := hblocked v (by rw [hb]; simp)
    rw [hq] at this
    simp [full] at this

/-- A queue of size one, three values, one of them put twice: all obtained once. -/
example : obs (runCalls 1 [.put 0 7, .put 0 8, .put 1 7, .callback, .callback, .start, .start, .put 0 9, .callback,
      .get, .resume 8, .put 0 7, .start, .get, .resume 9, .callback, .start, .get, .resume 7, .get]) =
    [.put 7, .put 8, .put 7, .put 9, .got 7, .put 7, .got 8, .got 9, .got 7] := by decide +kernel
example : let s := runCalls 1 [.put 0 7, .put 0 8, .callback, .callback, .start, .start]
    bag [] (obs s) = some [7, 8] ∧ s.soon = [] ∧ s.created = [] ∧ s.blocked = [8] ∧ full 1 s.queue = true := by
  decide +kernel
example : fifo [] (obs (runCalls 3 [.put 0 7, .put 0 8, .callback, .put 0 9, .callback, .start, .get, .start, .callback, .start,
    .put 0 7, .get, .get])) = some [7] := by decide +kernel

/-- C15 (partial: what is left of it when several threads put at the same time).  For every queue size and every interleaving
of interrupted calls, a value that was put after it was last obtained is held by the machinery, so it is not lost, and
together the calls of `get` that returned the value, those that raised because of it and the copies held are no more than the calls
of `put` with it. -/
theorem C15_any_threads_partial (cap : Nat) (acts : List (Act V)) (v : V) :
    let s := run cap acts
    let held := s.queue ++ s.blocked ++ s.created ++ s.soon
    (awaited v (obs s).reverse = true → v ∈ held) ∧
      (obs s).count (.got v) + (obs s).count (.keyError v) + held.count v ≤ (obs s).count (.put v) := by
  simp only [obs, List.reverse_reverse, List.count_reverse]
  have h := run_thr cap acts v
  exact ⟨fun hw => h.held (h.waits hw), h.num⟩

/-- Two threads put the same value, one of them is obtained, a third put is merged with nothing. -/
example : let s := run 2 [.test 0 7, .test 1 7, .add 0, .add 1, .callback, .callback, .start, .start, .get, .test 0 7, .add 0]
    obs s = [.put 7, .put 7, .got 7, .put 7] ∧ awaited 7 (obs s).reverse = true ∧ s.queue = [7] ∧ s.soon = [7] := by
  decide +kernel

/-- C15 is false of the code with backpressure: a value whose task begins between the `get` that made
room and the resumption of the task waiting for room overtakes it. -/
theorem C15_order_violated : ∃ cs : List (Call Nat), (∀ t v, Call.put t v ∈ cs → t = 0) ∧
    obs (runCalls 1 cs) = [.put 7, .put 8, .put 9, .got 7, .got 9] ∧ fifo [] (obs (runCalls 1 cs)) = none := by
  refine ⟨[.put 0 7, .put 0 8, .put 0 9, .callback, .callback, .callback, .start, .start, .get, .start, .get], ?_, ?_⟩
  · simp; omega
  · decide +kernel

/-- C15 is false of the code when two threads put the same value at the same time, although the class
is made for that: both find it not pending, it is enqueued twice, and the second `get` raises
`KeyError` out of `Layout.render()`. -/
theorem C15_threads_violated (cap : Nat) (hc : cap = 0 ∨ 2 ≤ cap) : ∃ acts : List (Act Nat),
    obs (run cap acts) = [.put 7, .put 7, .got 7, .keyError 7] := by
  refine ⟨[.test 0 7, .test 1 7, .add 0, .add 1, .callback, .callback, .start, .start, .get, .get], ?_⟩
  have h0 : full cap ([] : List Nat) = false := by simp [full]
  have h1 : full cap ([7] : List Nat) = false := by simp [full]; omega
  simp [obs, run, step, h0, h1]

end Verif.Queue
