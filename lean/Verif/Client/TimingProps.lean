import Verif.Client.Timing
/-! # C47, C48: throttling and debouncing -/
namespace Verif.Client.Timing
variable {W A : Type}

theorem snocInd {α : Type} {P : List α → Prop} (h0 : P []) (h1 : ∀ l a, P l → P (l ++ [a])) : ∀ l, P l := by
  intro l
  have : ∀ n, ∀ l : List α, l.length = n → P l := by
    intro n
    induction n with
    | zero => intro l hl; rw [List.length_eq_zero_iff.1 hl]; exact h0
    | succ n ih =>
      intro l hl
      have hne : l ≠ [] := by intro h; rw [h] at hl; cases hl
      rw [← List.dropLast_concat_getLast hne]
      exact h1 _ _ (ih _ (by rw [List.length_dropLast]; omega))
  exact this _ l rfl

theorem run_snoc (w : Wrapper W A) (p : List (Act A)) (a : Act A) : run w (p ++ [a]) = step w (run w p) a := by
  simp [run, List.foldl_append]

theorem single_snoc {p : List (Act A)} {a : Act A} (h : Single (p ++ [a])) : Single p ∧ ((∃ t b, a = .call t b) ∨ ∃ t, a = .timer t) :=
  ⟨fun x hx => h x (by simp [hx]), h a (by simp)⟩

theorem ontime_snoc {w : Wrapper W A} {p : List (Act A)} {a : Act A} (h : OnTime w (p ++ [a])) : OnTime w p :=
  fun p' t b q hq => h p' t b (q ++ [a]) (by simp [hq])

theorem ontime_last {w : Wrapper W A} {p : List (Act A)} {t : Int} {a : A} (h : OnTime w (p ++ [.call t a])) :
    ∀ d, w.due (run w p).cur = some d → t < d := h p t a [] rfl

theorem fireTimes_append (l l' : List (Ev A)) : fireTimes (l ++ l') = fireTimes l ++ fireTimes l' := by simp [fireTimes, List.filterMap_append]
theorem firesOf_append (l l' : List (Ev A)) : firesOf (l ++ l') = firesOf l ++ firesOf l' := by simp [firesOf, List.filterMap_append]
theorem callsOf_append (l l' : List (Ev A)) : callsOf (l ++ l') = callsOf l ++ callsOf l' := by simp [callsOf, List.filterMap_append]

/-! ## C47 -/

structure TInv (interval : Int) (s : St (Throttle A) A) : Prop where
  both : s.cur.timer.isSome = s.cur.pending.isSome
  due : ∀ d, s.cur.timer = some d → d = s.cur.last + interval
  past : s.cur.last ≤ s.now
  fires : ∀ t ∈ fireTimes s.log, t ≤ s.cur.last
  spaced : (fireTimes s.log).Pairwise (fun x y => x + interval ≤ y)
  order : (firesOf s.log ++ s.cur.pending.toList).Sublist (callsOf s.log)

theorem tinv (interval : Int) (acts : List (Act A)) : Single acts → OnTime (throttle A interval) acts →
    TInv interval (run (throttle A interval) acts) := by
  induction acts using snocInd with
  | h0 =>
    intro _ _
    constructor <;> simp [run, throttle, fireTimes, firesOf, callsOf]
  | h1 p x ih =>
    intro hs ho
    obtain ⟨hs1, hs2⟩ := single_snoc hs
    have h := ih hs1 (ontime_snoc ho)
    rw [run_snoc]
    rcases hs2 with ⟨t, a, rfl⟩ | ⟨t, rfl⟩
    · have hd := ontime_last ho
      generalize run (throttle A interval) p = s at *
      simp only [step]
      by_cases hnow : s.now ≤ t
      · rw [if_pos hnow]
        have hdue : ∀ d, s.cur.timer = some d → t < d := hd
        simp only [throttle]
        by_cases he : t - s.cur.last ≥ interval
        · simp only [he, if_true, fired]
          have hnone : s.cur.timer = none := by
            cases hx : s.cur.timer with
            | none => rfl
            | some d => have := hdue d hx; have := h.due d hx; omega
          have hp : s.cur.pending = none := by
            have := h.both; rw [hnone] at this; simpa using this.symm
          refine ⟨h.both, ?_, Int.le_refl _, ?_, ?_, ?_⟩
          · simp [hnone]
          · intro x hx
            simp only [fireTimes_append] at hx
            simp [fireTimes] at hx
            rcases hx with hx | hx
            · have := h.fires x (by simpa [fireTimes] using hx); have := h.past; simp only; omega
            · simp [hx]
          · simp only [fireTimes_append]
            rw [show fireTimes [Ev.call t a] = [] by simp [fireTimes], show fireTimes [Ev.fire t a] = [t] by simp [fireTimes], List.append_nil,
              List.pairwise_append]
            refine ⟨h.spaced, by simp, ?_⟩
            intro x hx y hy
            simp at hy; subst hy
            have := h.fires x hx; omega
          · simp only [firesOf_append, callsOf_append, hp]
            rw [show firesOf [Ev.call t a] = [] by simp [firesOf], show firesOf [Ev.fire t a] = [a] by simp [firesOf],
              show callsOf [Ev.call t a] = [a] by simp [callsOf], show callsOf [Ev.fire t a] = [] by simp [callsOf]]
            have := h.order
            rw [hp] at this
            simp at this ⊢
            exact this
        · simp only [he, if_false]
          have hf : fireTimes [Ev.call t a] = [] := by simp [fireTimes]
          have hf2 : firesOf [Ev.call t a] = [] := by simp [firesOf]
          have hc : callsOf [Ev.call t a] = [a] := by simp [callsOf]
          have hord : (firesOf s.log ++ [a]).Sublist (callsOf s.log ++ [a]) := by
            apply List.Sublist.append _ (List.Sublist.refl _)
            exact (List.sublist_append_left _ _).trans h.order
          cases hx : s.cur.timer with
          | none =>
            simp only [fired, List.append_nil]
            refine ⟨by simp, ?_, ?_, ?_, ?_, ?_⟩
            · intro d hd; simp at hd; have := h.past; simp only; omega
            · have := h.past; simp only; omega
            · simp only [fireTimes_append, hf, List.append_nil]; exact h.fires
            · simp only [fireTimes_append, hf, List.append_nil]; exact h.spaced
            · simp only [firesOf_append, callsOf_append, hf2, hc, List.append_nil]; exact hord
          | some d =>
            simp only [fired, List.append_nil]
            refine ⟨by simp [hx], ?_, ?_, ?_, ?_, ?_⟩
            · intro d' hd'; exact h.due d' (by simpa [hx] using hd')
            · have := h.past; simp only; omega
            · simp only [fireTimes_append, hf, List.append_nil]; exact h.fires
            · simp only [fireTimes_append, hf, List.append_nil]; exact h.spaced
            · simp only [firesOf_append, callsOf_append, hf2, hc, List.append_nil]; exact hord
      · rw [if_neg hnow]; exact h
    · generalize run (throttle A interval) p = s at *
      simp only [step, throttle]
      split
      · exact h
      · rename_i d hd
        by_cases hc : s.now ≤ t ∧ d ≤ t
        · rw [if_pos hc]
          have hp : s.cur.pending.isSome := by rw [← h.both, hd]; rfl
          obtain ⟨a, ha⟩ := Option.isSome_iff_exists.1 hp
          have hdl := h.due d hd
          simp only [ha, fired]
          refine ⟨by simp, by simp, Int.le_refl _, ?_, ?_, ?_⟩
          · intro x hx
            simp [fireTimes] at hx
            rcases hx with hx | hx
            · have := h.fires x (by simpa [fireTimes] using hx); have := h.past; simp only; omega
            · simp [hx]
          · simp only [fireTimes_append]
            rw [show fireTimes [Ev.fire t a] = [t] by simp [fireTimes], List.pairwise_append]
            refine ⟨h.spaced, by simp, ?_⟩
            intro x hx y hy
            simp at hy; subst hy
            have := h.fires x hx; omega
          · simp only [firesOf_append, callsOf_append]
            rw [show firesOf [Ev.fire t a] = [a] by simp [firesOf], show callsOf [Ev.fire t a] = [] by simp [callsOf]]
            have := h.order
            rw [ha] at this
            simpa using this
        · rw [if_neg hc]; exact h

/-- C47, rate and order (partial: one wrapper, timers on time).  Whatever the times of the events, two
consecutive calls of the handler are at least the interval apart, and the handler is called with events
in the order in which they were dispatched, each at most once.
Missing: `C47_late_violated`, `C47_rerender_violated`. -/
theorem C47_rate_and_order_partial (interval : Int) (acts : List (Act A)) (hs : Single acts)
    (ho : OnTime (throttle A interval) acts) :
    (fireTimes (run (throttle A interval) acts).log).Pairwise (fun x y => x + interval ≤ y) ∧
    (firesOf (run (throttle A interval) acts).log).Sublist (callsOf (run (throttle A interval) acts).log) := by
  have h := tinv interval acts hs ho
  exact ⟨h.spaced, (List.sublist_append_left _ _).trans h.order⟩

theorem undelivered_append [DecidableEq A] (l l' : List (Ev A)) : ∀ u, undelivered u (l ++ l') = undelivered (undelivered u l) l' := by
  induction l with
  | nil => intro u; rfl
  | cons e l ih => intro u; cases e <;> simp [undelivered, ih]

/-- C47, the last event is not lost, however late timers are: it has been delivered, or it is held with a
timer pending, and will be delivered when the timer runs. -/
theorem C47_last_kept_partial [DecidableEq A] (interval : Int) (acts : List (Act A)) (hs : Single acts) (a : A)
    (hu : undelivered none (run (throttle A interval) acts).log = some a) :
    (run (throttle A interval) acts).cur.timer.isSome ∧
    ∀ t, (∀ d, (run (throttle A interval) acts).cur.timer = some d → d ≤ t) → (run (throttle A interval) acts).now ≤ t →
      undelivered none (run (throttle A interval) (acts ++ [.timer t])).log = none := by
  have key : (run (throttle A interval) acts).cur.timer.isSome = (run (throttle A interval) acts).cur.pending.isSome ∧
      ∀ a, undelivered none (run (throttle A interval) acts).log = some a → (run (throttle A interval) acts).cur.pending = some a := by
    clear hu
    revert hs
    induction acts using snocInd with
    | h0 => intro _; simp [run, throttle, undelivered]
    | h1 p x ih =>
      intro hs
      obtain ⟨hs1, hs2⟩ := single_snoc hs
      obtain ⟨h1, h2⟩ := ih hs1
      rw [run_snoc]
      generalize run (throttle A interval) p = s at *
      rcases hs2 with ⟨t, b, rfl⟩ | ⟨t, rfl⟩
      · simp only [step, throttle]
        split
        · by_cases he : t - s.cur.last ≥ interval
          · simp only [he, if_true, fired]
            refine ⟨h1, ?_⟩
            simp [undelivered_append, undelivered]
          · simp only [he, if_false]
            cases hx : s.cur.timer <;> simp [fired, undelivered_append, undelivered, hx]
        · exact ⟨h1, h2⟩
      · simp only [step, throttle]
        split
        · exact ⟨h1, h2⟩
        · rename_i d hd
          split
          · obtain ⟨b, hb⟩ := Option.isSome_iff_exists.1 (by rw [← h1, hd]; rfl : s.cur.pending.isSome)
            simp only [hb, fired]
            refine ⟨by simp, ?_⟩
            intro a ha
            rw [undelivered_append] at ha
            simp only [undelivered] at ha
            split at ha
            · cases ha
            · rename_i hne
              have := h2 a ha
              rw [hb] at this
              rw [ha, this] at hne
              exact absurd rfl hne
          · exact ⟨h1, h2⟩
  have hp := key.2 a hu
  refine ⟨by rw [key.1, hp]; rfl, ?_⟩
  intro t hd hnow
  rw [run_snoc]
  have h1 := key.1
  generalize run (throttle A interval) acts = s at *
  rw [hp] at h1
  obtain ⟨d, hdd⟩ := Option.isSome_iff_exists.1 h1
  have := hd d hdd
  simp only [step, throttle, hdd]
  rw [if_pos ⟨hnow, this⟩]
  simp [hp, fired, undelivered_append, undelivered, hu]

/-- Three events within 100 ms: the first and the last are delivered, 100 ms apart. -/
def exThrottle : List (Act Nat) := [.call 1000 1, .call 1030 2, .call 1060 3, .timer 1101, .call 1150 4]
example : (run (throttle Nat 100) exThrottle).log =
    [.call 1000 1, .fire 1000 1, .call 1030 2, .call 1060 3, .fire 1101 3, .call 1150 4] := by decide +kernel
example : undelivered none (run (throttle Nat 100) exThrottle).log = some 4 := by decide +kernel
example : Single exThrottle ∧ OnTime (throttle Nat 100) exThrottle := by
  refine ⟨?_, ?_⟩
  · intro x hx
    simp [exThrottle] at hx
    rcases hx with rfl | rfl | rfl | rfl | rfl <;> simp
  · intro p t a q hq d hd
    simp only [exThrottle] at hq
    rcases p with _ | ⟨p0, _ | ⟨p1, _ | ⟨p2, _ | ⟨p3, _ | ⟨p4, p⟩⟩⟩⟩⟩ <;> simp at hq
    · obtain ⟨⟨rfl, rfl⟩, rfl⟩ := hq
      simp [run, throttle] at hd
    · obtain ⟨rfl, ⟨rfl, rfl⟩, rfl⟩ := hq
      rw [show (throttle Nat 100).due (run (throttle Nat 100) [.call 1000 1]).cur = none by decide +kernel] at hd
      cases hd
    · obtain ⟨rfl, rfl, ⟨rfl, rfl⟩, rfl⟩ := hq
      rw [show (throttle Nat 100).due (run (throttle Nat 100) [.call 1000 1, .call 1030 2]).cur = some 1100 by decide +kernel] at hd
      cases hd; decide
    · obtain ⟨rfl, rfl, rfl, rfl, ⟨rfl, rfl⟩, rfl⟩ := hq
      rw [show (throttle Nat 100).due (run (throttle Nat 100) [.call 1000 1, .call 1030 2, .call 1060 3, .timer 1101]).cur = none by
        decide +kernel] at hd
      cases hd

/-- C47 fails with a late timer: a leading call does not cancel the pending timer, so the handler is called
with the newer event first, and then, within the interval, with the older one. -/
theorem C47_late_violated : ∃ acts : List (Act Nat), Single acts ∧
    (run (throttle Nat 100) acts).log =
      [.call 1000 1, .fire 1000 1, .call 1050 2, .call 1100 3, .fire 1100 3, .fire 1101 2] :=
  ⟨[.call 1000 1, .call 1050 2, .call 1100 3, .timer 1101], by
    intro x hx; simp at hx; rcases hx with rfl | rfl | rfl | rfl <;> simp, by decide +kernel⟩

/-- C47 fails across renders: a render makes a new wrapper, which knows of no earlier call. -/
theorem C47_rerender_violated : ∃ acts : List (Act Nat),
    (run (throttle Nat 100) acts).log = [.call 1000 1, .fire 1000 1, .call 1001 2, .fire 1001 2] :=
  ⟨[.call 1000 1, .rerender, .call 1001 2], by decide +kernel⟩

/-! ## C48 -/

structure DInv (delay : Int) (s : St (Debounce A) A) : Prop where
  /-- either nothing is pending, and the last thing that happened was a call of the handler, if anything -/
  state : (s.cur.pending = none ∧ s.cur.timer = none ∧ (s.log = [] ∨ ∃ l t a, s.log = l ++ [.fire t a])) ∨
    (∃ l t a, s.log = l ++ [.call t a] ∧ s.cur.pending = some a ∧ s.cur.timer = some (t + delay) ∧ t ≤ s.now)
  good : ∀ p q t a, s.log = p ++ .fire t a :: q → ∃ p' t', p = p' ++ [.call t' a] ∧ t' + delay ≤ t

theorem dinv (delay : Int) (acts : List (Act A)) (hs : Single acts) : DInv delay (run (debounce A delay) acts) := by
  revert hs
  induction acts using snocInd with
  | h0 => intro _; exact ⟨.inl (by simp [run, debounce]), by simp [run, debounce]⟩
  | h1 p x ih =>
    intro hs
    obtain ⟨hs1, hs2⟩ := single_snoc hs
    have h := ih hs1
    rw [run_snoc]
    generalize run (debounce A delay) p = s at *
    rcases hs2 with ⟨t, a, rfl⟩ | ⟨t, rfl⟩
    · simp only [step, debounce]
      split
      · simp only [fired, List.append_nil]
        refine ⟨.inr ⟨s.log, t, a, rfl, rfl, rfl, Int.le_refl _⟩, ?_⟩
        intro p q t' a' hq
        rcases List.eq_nil_or_concat q with rfl | ⟨q', b, rfl⟩
        · have := List.append_inj_right' hq rfl; simp at this
        · rw [show p ++ Ev.fire t' a' :: (q'.concat b) = (p ++ Ev.fire t' a' :: q') ++ [b] by simp] at hq
          exact h.good p q' t' a' (List.append_inj_left' hq rfl)
      · exact h
    · simp only [step, debounce]
      split
      · exact h
      · rename_i d hd
        split
        · rename_i hc
          rcases h.state with ⟨h1, h2, -⟩ | ⟨l, t0, a, hl, hp, ht, hn⟩
          · rw [h2] at hd; cases hd
          · simp only [hp, fired]
            rw [ht] at hd
            simp at hd
            refine ⟨.inl ⟨rfl, rfl, .inr ⟨s.log, t, a, rfl⟩⟩, ?_⟩
            intro p q t' a' hq
            rcases List.eq_nil_or_concat q with rfl | ⟨q', b, rfl⟩
            · have h3 := List.append_inj_right' hq rfl
              have h4 := List.append_inj_left' hq rfl
              simp at h3
              obtain ⟨rfl, rfl⟩ := h3
              exact ⟨l, t0, by rw [← h4, hl], by omega⟩
            · rw [show p ++ Ev.fire t' a' :: (q'.concat b) = (p ++ Ev.fire t' a' :: q') ++ [b] by simp] at hq
              exact h.good p q' t' a' (List.append_inj_left' hq rfl)
        · exact h

/-- C48 (one wrapper, timers as late as they may be).  Whenever the handler is called, it is with the last
event dispatched, at least the delay after it, and only once: nothing happens between that event and the
call.  Missing: renders (`C48_rerender_violated`). -/
theorem C48_fires_last_partial (delay : Int) (acts : List (Act A)) (hs : Single acts) (p q : List (Ev A)) (t : Int) (a : A)
    (h : (run (debounce A delay) acts).log = p ++ .fire t a :: q) :
    ∃ p' t', p = p' ++ [.call t' a] ∧ t' + delay ≤ t :=
  (dinv delay acts hs).good p q t a h

/-- C48, the last event is never lost: if it has not been delivered, a timer for it is pending, due after the
delay, and when the timer runs the event is delivered. -/
theorem C48_last_kept_partial (delay : Int) (acts : List (Act A)) (hs : Single acts) (p : List (Ev A)) (t : Int) (a : A)
    (h : (run (debounce A delay) acts).log = p ++ [.call t a]) :
    (run (debounce A delay) acts).cur.timer = some (t + delay) ∧
    ∀ t', (run (debounce A delay) acts).now ≤ t' → t + delay ≤ t' →
      (run (debounce A delay) (acts ++ [.timer t'])).log = p ++ [.call t a, .fire t' a] := by
  rcases (dinv delay acts hs).state with ⟨-, -, h1 | ⟨l, t0, a0, h1⟩⟩ | ⟨l, t0, a0, hl, hp, ht, -⟩
  · rw [h1] at h; simp at h
  · rw [h1] at h; have := List.append_inj_right' h rfl; simp at this
  · rw [hl] at h
    have h3 := List.append_inj_right' h rfl
    have h4 := List.append_inj_left' h rfl
    simp at h3
    obtain ⟨rfl, rfl⟩ := h3
    subst h4
    refine ⟨ht, ?_⟩
    intro t' hn hd
    rw [run_snoc]
    generalize run (debounce A delay) acts = s at *
    simp only [step, debounce, ht]
    rw [if_pos ⟨hn, hd⟩]
    simp [hp, fired, hl]

/-- C48, one call per burst (partial: timers on time): two events dispatched one after the other, with no call
of the handler in between, are less than the delay apart; so an event followed by a quiet period is
delivered. -/
theorem C48_burst_partial (delay : Int) (acts : List (Act A)) (hs : Single acts) (ho : OnTime (debounce A delay) acts)
    (p q : List (Ev A)) (t t' : Int) (a a' : A)
    (h : (run (debounce A delay) acts).log = p ++ .call t a :: .call t' a' :: q) : t' < t + delay := by
  revert hs ho h
  induction acts using snocInd generalizing p q with
  | h0 => intro _ _ h; simp [run, debounce] at h
  | h1 l x ih =>
    intro hs ho h
    obtain ⟨hs1, hs2⟩ := single_snoc hs
    have ih := fun q => ih p q hs1 (ontime_snoc ho)
    have hi := dinv delay l hs1
    rw [run_snoc] at h
    rcases hs2 with ⟨u, b, rfl⟩ | ⟨u, rfl⟩
    · have hd := ontime_last ho
      generalize run (debounce A delay) l = s at *
      simp only [step, debounce] at h
      split at h
      · simp only [fired, List.append_nil] at h
        rcases List.eq_nil_or_concat q with rfl | ⟨q', c, rfl⟩
        · rw [show p ++ [Ev.call t a, Ev.call t' a'] = (p ++ [Ev.call t a]) ++ [Ev.call t' a'] by simp] at h
          have h3 := List.append_inj_right' h rfl
          have h4 := List.append_inj_left' h rfl
          simp at h3
          obtain ⟨rfl, rfl⟩ := h3
          rcases hi.state with ⟨-, -, h1 | ⟨_, _, _, h1⟩⟩ | ⟨l', t0, a0, hl, hp, ht, -⟩
          · rw [h1] at h4; simp at h4
          · rw [h1] at h4; have := List.append_inj_right' h4 rfl; simp at this
          · rw [hl] at h4
            have h5 := List.append_inj_right' h4 rfl
            simp at h5
            obtain ⟨rfl, rfl⟩ := h5
            exact hd _ ht
        · rw [show p ++ Ev.call t a :: Ev.call t' a' :: (q'.concat c) = (p ++ Ev.call t a :: Ev.call t' a' :: q') ++ [c] by simp] at h
          exact ih q' (List.append_inj_left' h rfl)
      · exact ih q h
    · generalize run (debounce A delay) l = s at *
      simp only [step, debounce] at h
      split at h
      · exact ih q h
      · split at h
        · cases hp : s.cur.pending with
          | none => rw [hp] at h; simp [fired] at h; exact ih q h
          | some b =>
            rw [hp] at h
            simp only [fired] at h
            rcases List.eq_nil_or_concat q with rfl | ⟨q', c, rfl⟩
            · rw [show p ++ [Ev.call t a, Ev.call t' a'] = (p ++ [Ev.call t a]) ++ [Ev.call t' a'] by simp] at h
              have h3 := List.append_inj_right' h rfl
              simp at h3
            · rw [show p ++ Ev.call t a :: Ev.call t' a' :: (q'.concat c) = (p ++ Ev.call t a :: Ev.call t' a' :: q') ++ [c] by simp] at h
              exact ih q' (List.append_inj_left' h rfl)
        · exact ih q h

/-- Two bursts. -/
example : (run (debounce Nat 200) [.call 1000 1, .call 1100 2, .call 1250 3, .timer 1460, .call 2000 4, .timer 2200]).log =
    [.call 1000 1, .call 1100 2, .call 1250 3, .fire 1460 3, .call 2000 4, .fire 2200 4] := by decide +kernel
example : Single [Act.call 1000 1, .call 1100 2, .timer 1460] ∧ OnTime (debounce Nat 200) [.call 1000 1, .call 1100 2, .timer 1460] := by
  refine ⟨?_, ?_⟩
  · intro x hx; simp at hx; rcases hx with rfl | rfl | rfl <;> simp
  · intro p t a q hq d hd
    rcases p with _ | ⟨p0, _ | ⟨p1, _ | ⟨p2, p⟩⟩⟩ <;> simp at hq
    · obtain ⟨⟨rfl, rfl⟩, rfl⟩ := hq
      simp [run, debounce] at hd
    · obtain ⟨rfl, ⟨rfl, rfl⟩, rfl⟩ := hq
      rw [show (debounce Nat 200).due (run (debounce Nat 200) [.call 1000 1]).cur = some 1200 by decide +kernel] at hd
      cases hd; decide

/-- C48 fails across renders: a render in the middle of a burst makes a new wrapper, the timer of the old one stays
pending, and both the middle and the last event of the burst are delivered. -/
theorem C48_rerender_violated : ∃ acts : List (Act Nat),
    (run (debounce Nat 200) acts).log = [.call 1000 1, .call 1100 2, .fire 1200 1, .fire 1300 2] :=
  ⟨[.call 1000 1, .rerender, .call 1100 2, .oldTimer 0 1200, .timer 1300], by decide +kernel⟩

/-- With late timers a quiet period may go unnoticed: the event before it is not delivered. -/
theorem C48_late_violated : ∃ acts : List (Act Nat), Single acts ∧
    (run (debounce Nat 200) acts).log = [.call 1000 1, .call 1300 2, .fire 1500 2] :=
  ⟨[.call 1000 1, .call 1300 2, .timer 1500], by intro x hx; simp at hx; rcases hx with rfl | rfl | rfl <;> simp, by decide +kernel⟩

/-! ### Across renders -/

/-- The events held by the wrappers of all renders. -/
def heldBy (pending : W → Option A) (s : St W A) : List A := (s.cur :: s.old).flatMap fun w => (pending w).toList

theorem held_set (pending : W → Option A) [DecidableEq A] (a : A) (o' : W) : ∀ (l : List W) (i : Nat) (o : W), l[i]? = some o →
    (l.flatMap fun w => (pending w).toList).count a + (pending o').toList.count a =
      ((l.set i o').flatMap fun w => (pending w).toList).count a + (pending o).toList.count a
  | [], _, _, h => by simp at h
  | x :: l, 0, o, h => by
    simp only [List.getElem?_cons_zero, Option.some.injEq] at h
    subst h
    simp only [List.set_cons_zero, List.flatMap_cons, List.count_append]
    omega
  | x :: l, i + 1, o, h => by
    simp only [List.getElem?_cons_succ] at h
    have := held_set pending a o' l i o h
    simp only [List.set_cons_succ, List.flatMap_cons, List.count_append]
    omega

/-- What a wrapper may do: keep or pass on what it was called with, and pass on what it holds, once. -/
structure Careful [DecidableEq A] (w : Wrapper W A) (pending : W → Option A) : Prop where
  init : pending w.init = none
  call : ∀ t a x b, ((w.call t a x).2.toList ++ (pending (w.call t a x).1).toList).count b ≤ (a :: (pending x).toList).count b
  timer : ∀ t x b, ((w.timer t x).2.toList ++ (pending (w.timer t x).1).toList).count b ≤ (pending x).toList.count b

theorem firesOf_fired (t : Int) (o : Option A) : firesOf (fired t o) = o.toList := by cases o <;> rfl
theorem callsOf_fired (t : Int) (o : Option A) : callsOf (fired t o) = [] := by cases o <;> rfl

theorem once [DecidableEq A] {w : Wrapper W A} {pending : W → Option A} (hw : Careful w pending) (acts : List (Act A)) (b : A) :
    (firesOf (run w acts).log).count b + (heldBy pending (run w acts)).count b ≤ (callsOf (run w acts).log).count b := by
  induction acts using snocInd with
  | h0 => simp [run, heldBy, hw.init, firesOf, callsOf]
  | h1 p x ih =>
    rw [run_snoc]
    generalize run w p = s at *
    cases x with
    | call t a =>
      simp only [step]
      split
      · have := hw.call t a s.cur b
        simp only [heldBy, List.flatMap_cons, firesOf_append, callsOf_append, firesOf_fired, callsOf_fired, List.count_append, List.append_nil] at this ih ⊢
        rw [show firesOf [Ev.call t a] = [] from rfl, show callsOf [Ev.call t a] = [a] from rfl, List.count_nil]
        rw [show a :: (pending s.cur).toList = [a] ++ (pending s.cur).toList from rfl, List.count_append] at this
        omega
      · exact ih
    | timer t =>
      simp only [step]
      split
      · exact ih
      · split
        · have := hw.timer t s.cur b
          simp only [heldBy, List.flatMap_cons, firesOf_append, callsOf_append, firesOf_fired, callsOf_fired, List.count_append, List.append_nil] at this ih ⊢
          omega
        · exact ih
    | rerender =>
      simp only [step, heldBy, List.flatMap_cons, List.flatMap_append, List.flatMap_nil, hw.init, List.count_append, Option.toList_none, List.count_nil] at ih ⊢
      omega
    | oldTimer i t =>
      simp only [step]
      split
      · exact ih
      · rename_i o ho
        split
        · exact ih
        · split
          · have h1 := hw.timer t o b
            have h2 := held_set pending b (w.timer t o).1 s.old i o ho
            simp only [heldBy, List.flatMap_cons, firesOf_append, callsOf_append, firesOf_fired, callsOf_fired, List.count_append, List.append_nil] at h1 ih ⊢
            omega
          · exact ih

theorem careful_throttle [DecidableEq A] (interval : Int) : Careful (throttle A interval) (·.pending) := by
  refine ⟨rfl, fun t a x b => ?_, fun t x b => ?_⟩
  · simp only [throttle]
    split
    · simp [List.count_cons]
    · split <;> simp [List.count_cons]
  · simp only [throttle]
    cases hx : x.pending <;> simp

theorem careful_debounce [DecidableEq A] (delay : Int) : Careful (debounce A delay) (·.pending) := by
  refine ⟨rfl, fun t a x b => ?_, fun t x b => ?_⟩
  · simp [debounce, List.count_cons]
  · simp only [debounce]
    cases hx : x.pending <;> simp

/-- C47, across renders and however late timers are: the handler is called with an event at most as often as it was dispatched. -/
theorem C47_at_most_once [DecidableEq A] (interval : Int) (acts : List (Act A)) (a : A) :
    (firesOf (run (throttle A interval) acts).log).count a ≤ (callsOf (run (throttle A interval) acts).log).count a := by
  have := once (careful_throttle interval) acts a
  omega

/-- C48, across renders and however late timers are: the handler is called with an event at most as often as it was dispatched. -/
theorem C48_at_most_once [DecidableEq A] (delay : Int) (acts : List (Act A)) (a : A) :
    (firesOf (run (debounce A delay) acts).log).count a ≤ (callsOf (run (debounce A delay) acts).log).count a := by
  have := once (careful_debounce delay) acts a
  omega

/-- A wrapper that holds an event: it was dispatched the delay before the timer is due. -/
def Holds (delay : Int) (log : List (Ev A)) (w : Debounce A) : Prop :=
  ∀ a, w.pending = some a → ∀ d, w.timer = some d → ∃ t, .call t a ∈ log ∧ t + delay ≤ d

theorem Holds.append {delay : Int} {log l : List (Ev A)} {w : Debounce A} (h : Holds delay log w) : Holds delay (log ++ l) w :=
  fun a ha d hd => by
    obtain ⟨t, h1, h2⟩ := h a ha d hd
    exact ⟨t, by simp [h1], h2⟩

theorem delayed (delay : Int) (acts : List (Act A)) :
    (∀ w ∈ (run (debounce A delay) acts).cur :: (run (debounce A delay) acts).old, Holds delay (run (debounce A delay) acts).log w) ∧
    ∀ p q t a, (run (debounce A delay) acts).log = p ++ .fire t a :: q → ∃ t', .call t' a ∈ p ∧ t' + delay ≤ t := by
  induction acts using snocInd with
  | h0 =>
    refine ⟨fun w hw => ?_, fun p q t a h => ?_⟩
    · simp only [run, List.foldl_nil, List.mem_cons, List.not_mem_nil, or_false] at hw
      subst hw
      intro a ha
      cases ha
    · simp [run] at h
  | h1 l x ih =>
    rw [run_snoc]
    generalize run (debounce A delay) l = s at *
    obtain ⟨ih1, ih2⟩ := ih
    -- a timer of a wrapper that was there
    have fire : ∀ w t d, w ∈ s.cur :: s.old → w.timer = some d → d ≤ t →
        ∀ p q t' a', s.log ++ fired t ((debounce A delay).timer t w).2 = p ++ .fire t' a' :: q → ∃ t'', .call t'' a' ∈ p ∧ t'' + delay ≤ t' := by
      intro w t d hw ht hd p q t' a' h
      simp only [debounce] at h
      cases hp : w.pending with
      | none =>
        simp only [hp, fired, List.append_nil] at h
        exact ih2 p q t' a' h
      | some a =>
        simp only [hp, fired] at h
        rcases List.eq_nil_or_concat q with rfl | ⟨q', y, rfl⟩
        · have h1 := List.append_inj_left' h rfl
          have h2 := List.append_inj_right' h rfl
          cases h2
          subst h1
          obtain ⟨t0, h3, h4⟩ := ih1 w hw _ hp d ht
          exact ⟨t0, h3, by omega⟩
        · rw [List.concat_eq_append, ← List.cons_append, ← List.append_assoc] at h
          exact ih2 p q' t' a' (List.append_inj_left' h rfl)
    have after : ∀ t w, ∀ a, ((debounce A delay).timer t w).1.pending ≠ some a := by
      intro t w a h
      simp only [debounce] at h
      cases hp : w.pending <;> simp [hp] at h
    cases x with
    | call t a =>
      simp only [step]
      split
      · refine ⟨fun w hw => ?_, fun p q t' a' h => ?_⟩
        · rcases List.mem_cons.1 hw with rfl | hw
          · intro b hb d hd
            simp only [debounce, Option.some.injEq] at hb hd
            subst hb
            subst hd
            exact ⟨t, by simp, Int.le_refl _⟩
          · exact ((ih1 w (by simp [hw])).append).append
        · simp only [debounce, fired, List.append_nil] at h
          rcases List.eq_nil_or_concat q with rfl | ⟨q', y, rfl⟩
          · have h2 := List.append_inj_right' h rfl
            cases h2
          · rw [List.concat_eq_append, ← List.cons_append, ← List.append_assoc] at h
            exact ih2 p q' t' a' (List.append_inj_left' h rfl)
      · exact ⟨ih1, ih2⟩
    | timer t =>
      simp only [step]
      split
      · exact ⟨ih1, ih2⟩
      · rename_i d hd
        split
        · rename_i hc
          refine ⟨fun w hw => ?_, fire s.cur t d (by simp) hd hc.2⟩
          rcases List.mem_cons.1 hw with rfl | hw
          · intro a ha; exact absurd ha (after t s.cur a)
          · exact (ih1 w (by simp [hw])).append
        · exact ⟨ih1, ih2⟩
    | rerender =>
      simp only [step]
      refine ⟨fun w hw => ?_, ih2⟩
      rcases List.mem_cons.1 hw with rfl | hw
      · intro a ha; cases ha
      · rcases List.mem_append.1 hw with hw | hw
        · exact ih1 w (by simp [hw])
        · simp only [List.mem_singleton] at hw
          subst hw
          exact ih1 _ (by simp)
    | oldTimer i t =>
      simp only [step]
      split
      · exact ⟨ih1, ih2⟩
      · rename_i o ho
        have hm : o ∈ s.cur :: s.old := List.mem_cons_of_mem _ (List.mem_of_getElem? ho)
        split
        · exact ⟨ih1, ih2⟩
        · rename_i d hd
          split
          · rename_i hc
            refine ⟨fun w hw => ?_, fire o t d hm hd hc.2⟩
            rcases List.mem_cons.1 hw with rfl | hw
            · exact (ih1 _ (by simp)).append
            · rcases List.mem_or_eq_of_mem_set hw with hw | rfl
              · exact (ih1 w (by simp [hw])).append
              · intro a ha; exact absurd ha (after t o a)
          · exact ⟨ih1, ih2⟩

/-- C48, across renders and however late timers are: the handler is called with an event at least the delay after that event. -/
theorem C48_delayed (delay : Int) (acts : List (Act A)) (p q : List (Ev A)) (t : Int) (a : A)
    (h : (run (debounce A delay) acts).log = p ++ .fire t a :: q) : ∃ t', .call t' a ∈ p ∧ t' + delay ≤ t :=
  (delayed delay acts).2 p q t a h

theorem run_append (w : Wrapper W A) (p q : List (Act A)) : run w (p ++ q) = q.foldl (step w) (run w p) := by
  simp [run, List.foldl_append]

/-- An old wrapper stays as it is until its timer runs. -/
theorem old_kept (w : Wrapper W A) (i : Nat) (o : W) : ∀ (more : List (Act A)) (s : St W A), s.old[i]? = some o →
    (∀ t, .oldTimer i t ∉ more) → (more.foldl (step w) s).old[i]? = some o
  | [], s, h, _ => h
  | x :: more, s, h, hm => by
    refine old_kept w i o more (step w s x) ?_ fun t ht => hm t (by simp [ht])
    cases x with
    | call t a => simp only [step]; split <;> exact h
    | timer t =>
      simp only [step]
      split
      · exact h
      · split <;> exact h
    | rerender =>
      simp only [step]
      rw [List.getElem?_append_left (List.getElem?_eq_some_iff.1 h).1]
      exact h
    | oldTimer j t =>
      have hj : j ≠ i := fun e => hm t (by simp [e])
      simp only [step]
      split
      · exact h
      · split
        · exact h
        · split
          · simp only [List.getElem?_set_ne hj]; exact h
          · exact h

/-- C48, a render loses nothing: an event dispatched before a render is delivered when its timer runs, whatever happens in between. -/
theorem C48_render_keeps (delay : Int) (acts more : List (Act A)) (t t' : Int) (a : A) (ht : (run (debounce A delay) acts).now ≤ t)
    (hm : ∀ t, .oldTimer (run (debounce A delay) acts).old.length t ∉ more) (hd : t + delay ≤ t')
    (hn : (run (debounce A delay) (acts ++ [.call t a, .rerender] ++ more)).now ≤ t') :
    (run (debounce A delay) (acts ++ [.call t a, .rerender] ++ more ++ [.oldTimer (run (debounce A delay) acts).old.length t'])).log =
      (run (debounce A delay) (acts ++ [.call t a, .rerender] ++ more)).log ++ [.fire t' a] := by
  have h := old_kept (debounce A delay) (run (debounce A delay) acts).old.length { pending := some a, timer := some (t + delay) } more
    (run (debounce A delay) (acts ++ [.call t a, .rerender])) (by
      rw [run_append]
      generalize run (debounce A delay) acts = s at *
      simp only [List.foldl_cons, List.foldl_nil, step, if_pos ht]
      simp [debounce]) hm
  rw [← run_append] at h
  rw [run_snoc]
  generalize run (debounce A delay) (acts ++ [.call t a, .rerender] ++ more) = s at *
  simp only [step, h]
  simp only [debounce]
  rw [if_pos ⟨hn, hd⟩]
  rfl

/-- The hypotheses are met: an event before a render, one after it, and the timer of the first. -/
example : (run (debounce Nat 200) [.call 1000 1, .rerender, .call 1100 2]).now ≤ 1200 ∧
    (run (debounce Nat 200) [.call 1000 1, .rerender, .call 1100 2, .oldTimer 0 1200]).log = [.call 1000 1, .call 1100 2, .fire 1200 1] := by
  decide +kernel

/-! ### Cases that meet the hypotheses -/

example := C48_delayed 200 [.call 1000 1, .rerender, .call 1100 2, .oldTimer 0 1200] [.call 1000 1, .call 1100 2] [] 1200 1 (by decide +kernel)
example := C48_fires_last_partial 200 [.call 1000 1, .call 1100 2, .timer 1460] (fun x hx => by simp at hx; rcases hx with rfl | rfl | rfl <;> simp) [.call 1000 1, .call 1100 2] [] 1460 2
  (by decide +kernel)
example := C48_last_kept_partial 200 [.call 1000 1, .call 1100 2] (fun x hx => by simp at hx; rcases hx with rfl | rfl <;> simp) [.call 1000 1] 1100 2 (by decide +kernel)

end Verif.Client.Timing
