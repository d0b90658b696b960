import Verif.Client.Input
import Verif.Client.TimingProps
/-! # C18: the client and older server values -/
namespace Verif.Client.Input
open Verif.Client.Timing (snocInd)

theorem run_snoc (p : List Act) (a : Act) : run (p ++ [a]) = step (run p) a := by simp [run, List.foldl_append]

structure Inv (acts : List Act) (s : St) : Prop where
  count : s.counter = events acts
  last : s.lastSent = (s.counter : Int) - 1
  deps : s.deps = lastUpdate acts
  armed : ∀ h, s.armed h = true → s.outgoing h ≤ s.counter
  sent : ∀ k t, Ev.sent k t ∈ s.log → k ≤ s.counter
  log : ∀ p q v ack, s.log = p ++ Ev.applied v ack :: q → ∀ k t, Ev.sent k t ∈ p → (k : Int) ≤ ack + 1

theorem split_snoc {α : Type} {l : List α} {x y : α} {p q : List α} (h : l ++ [x] = p ++ y :: q) :
    (q = [] ∧ l = p ∧ x = y) ∨ ∃ q', l = p ++ y :: q' := by
  rcases List.eq_nil_or_concat q with rfl | ⟨q', b, rfl⟩
  · have h1 := List.append_inj_left' h rfl
    have h2 := List.append_inj_right' h rfl
    simp at h2
    exact .inl ⟨rfl, h1, h2⟩
  · rw [show p ++ y :: (q'.concat b) = (p ++ y :: q') ++ [b] by simp] at h
    exact .inr ⟨q', List.append_inj_left' h rfl⟩

theorem events_snoc (p : List Act) (a : Act) : events (p ++ [a]) = events p + (match a with | .event .. => 1 | _ => 0) := by
  cases a <;> simp [events, List.filter_append]

theorem lastUpdate_snoc (p : List Act) (a : Act) :
    lastUpdate (p ++ [a]) = match a with | .update v k => some (v, k) | _ => lastUpdate p := by
  cases a <;> simp [lastUpdate, List.foldl_append]

theorem log_sent {l : List Ev} {k0 : Nat} {t0 : String}
    (h : ∀ p q v ack, l = p ++ Ev.applied v ack :: q → ∀ k t, Ev.sent k t ∈ p → (k : Int) ≤ ack + 1) :
    ∀ p q v ack, l ++ [Ev.sent k0 t0] = p ++ Ev.applied v ack :: q → ∀ k t, Ev.sent k t ∈ p → (k : Int) ≤ ack + 1 := by
  intro p q v ack hq k t hk
  rcases split_snoc hq with ⟨-, -, h'⟩ | ⟨q', hq'⟩
  · cases h'
  · exact h p q' v ack hq' k t hk

theorem inv (acts : List Act) : Inv acts (run acts) := by
  induction acts using snocInd with
  | h0 => constructor <;> simp [run, events, lastUpdate]
  | h1 p a ih =>
    rw [run_snoc]
    generalize run p = s at *
    cases a with
    | type t => exact ⟨by simpa [step, events_snoc] using ih.count, ih.last, by simpa [step, lastUpdate_snoc] using ih.deps, ih.armed, ih.sent, ih.log⟩
    | event h now =>
      have hgt : (s.counter : Int) > s.lastSent := by have := ih.last; omega
      simp only [step, onEvent, hgt, if_true]
      by_cases hnow : (now && !s.armed h) = true
      · simp only [hnow, if_true, send]
        have hna : s.armed h = false := by
          simp only [Bool.and_eq_true, Bool.not_eq_true'] at hnow; exact hnow.2
        refine ⟨by simp [events_snoc, ih.count], by simp, by simpa [lastUpdate_snoc] using ih.deps, ?_, ?_, log_sent ih.log⟩
        · intro h' ha
          simp only [upd] at ha ⊢
          by_cases hh : h' = h
          · rw [hh, hna] at ha; cases ha
          · simp [hh]; have := ih.armed h' ha; omega
        · intro k t hk
          rcases List.mem_append.1 hk with hk | hk
          · have := ih.sent k t hk; simp only; omega
          · simp [upd] at hk; simp only; omega
      · simp only [hnow, Bool.false_eq_true, if_false]
        refine ⟨by simp [events_snoc, ih.count], by simp, by simpa [lastUpdate_snoc] using ih.deps, ?_, ?_, ih.log⟩
        · intro h' ha
          simp only [upd] at ha ⊢
          by_cases hh : h' = h
          · simp [hh]
          · simp [hh] at ha ⊢; have := ih.armed h' ha; omega
        · intro k t hk
          have := ih.sent k t hk; simp only; omega
    | fire h =>
      simp only [step]
      have hd : s.deps = lastUpdate (p ++ [Act.fire h]) := by simpa [lastUpdate_snoc] using ih.deps
      have hc : s.counter = events (p ++ [Act.fire h]) := by simpa [events_snoc] using ih.count
      by_cases ha : s.armed h = true
      · simp only [ha, if_true, send]
        refine ⟨hc, ih.last, hd, ?_, ?_, log_sent ih.log⟩
        · intro h' ha'
          simp only [upd] at ha' ⊢
          by_cases hh : h' = h
          · simp [hh] at ha'
          · simp [hh] at ha' ⊢; exact ih.armed h' ha'
        · intro k t hk
          rcases List.mem_append.1 hk with hk | hk
          · exact ih.sent k t hk
          · simp at hk; obtain ⟨rfl, -⟩ := hk; exact ih.armed h ha
      · simp only [ha]; exact ⟨hc, ih.last, hd, ih.armed, ih.sent, ih.log⟩
    | update v ack =>
      simp only [step, effect]
      have hc : s.counter = events (p ++ [Act.update v ack]) := by simpa [events_snoc] using ih.count
      have hd : lastUpdate (p ++ [Act.update v ack]) = some (v, ack) := by simp [lastUpdate_snoc]
      by_cases hs : s.deps = some (v, ack)
      · rw [if_pos hs]
        exact ⟨hc, ih.last, by rw [hd, hs], ih.armed, ih.sent, ih.log⟩
      · rw [if_neg hs]
        by_cases hack : ack < s.lastSent
        · simp only [hack, if_true]
          exact ⟨hc, ih.last, by rw [hd], ih.armed, ih.sent, ih.log⟩
        · simp only [hack, if_false]
          cases v with
          | none => exact ⟨hc, ih.last, by rw [hd], ih.armed, ih.sent, ih.log⟩
          | some v =>
            refine ⟨hc, ih.last, by rw [hd], ih.armed, ?_, ?_⟩
            · intro k t hk
              simp at hk
              exact ih.sent k t hk
            · intro p' q v' ack' hq k t hk
              rcases split_snoc hq with ⟨-, h1, h2⟩ | ⟨q', hq'⟩
              · cases h2
                have h3 := ih.sent k t (by rw [h1]; exact hk)
                have h4 := ih.last
                omega
              · exact ih.log p' q' v' ack' hq' k t hk

/-- C18 (partial).  When a server value is put in the field, at most the last event is not acknowledged: every
sequence number sent before is at most one more than the acknowledged one.
Missing: that one (`C18_violated`): numbers on the wire start at 1, and the element compares with a number from 0. -/
theorem C18_applied_partial (acts : List Act) (p q : List Ev) (v : String) (ack : Int)
    (h : (run acts).log = p ++ .applied v ack :: q) : ∀ k t, Ev.sent k t ∈ p → (k : Int) ≤ ack + 1 :=
  (inv acts).log p q v ack h

/-- C18, when a value is applied: after any history, a new model from the server (a value or acknowledgement other
than in the last model) changes the field exactly if at most one of the events so far has no acknowledgement, and
then to the server's value; and it never moves anything else. -/
theorem C18_exact_partial (acts : List Act) (v : String) (ack : Int) (hnew : lastUpdate acts ≠ some (some v, ack)) :
    (run (acts ++ [.update (some v) ack])).text = if (events acts : Int) ≤ ack + 1 then v else (run acts).text := by
  have h := inv acts
  rw [run_snoc]
  generalize run acts = s at *
  simp only [step, effect]
  rw [if_neg (by rw [h.deps]; exact hnew)]
  have h1 := h.count
  have h2 := h.last
  by_cases hc : (events acts : Int) ≤ ack + 1
  · rw [if_pos hc, if_neg (by omega)]
  · rw [if_neg hc, if_pos (by omega)]

/-- A model with the same value and acknowledgement as the last one changes nothing, nor does one without a value. -/
theorem C18_unchanged (acts : List Act) (v : Option String) (ack : Int) (h : lastUpdate acts = some (v, ack) ∨ v = none) :
    (run (acts ++ [.update v ack])).text = (run acts).text := by
  have hi := inv acts
  rw [run_snoc]
  generalize run acts = s at *
  simp only [step, effect]
  by_cases hs : s.deps = some (v, ack)
  · rw [if_pos hs]
  · rw [if_neg hs]
    rcases h with h | rfl
    · rw [hi.deps] at hs; exact absurd h hs
    · by_cases ha : ack < s.lastSent
      · rw [if_pos ha]
      · rw [if_neg ha]

/-- Three keystrokes; the server's answers to the first is ignored, the answer to the last applied. -/
example : (run [.update (some "") (-1), .type "a", .event 0 true, .type "ab", .event 0 true, .type "abc", .event 0 true,
    .update (some "A") 1, .update (some "ABC") 3]).log =
    [.applied "" (-1), .sent 1 "a", .sent 2 "ab", .sent 3 "abc", .applied "ABC" 3] := by decide +kernel

/-- C18 fails: the server has acknowledged only the first of two events, and its older value replaces the newer
text. -/
theorem C18_violated : ∃ acts : List Act,
    (run acts).log = [.applied "" (-1), .sent 1 "a", .sent 2 "ab", .applied "a" 1] ∧ (run acts).text = "a" :=
  ⟨[.update (some "") (-1), .type "a", .event 0 true, .type "ab", .event 0 true, .update (some "a") 1],
    by decide +kernel, by decide +kernel⟩

/-! ### Cases that meet the hypotheses -/

example := C18_applied_partial [.update (some "") (-1), .type "a", .event 0 true, .update (some "A") 1] [.applied "" (-1), .sent 1 "a"] [] "A" 1 (by decide +kernel) 1 "a" (by simp)
example := C18_exact_partial [.update (some "") (-1), .type "a", .event 0 true] "A" 1 (by decide +kernel)

end Verif.Client.Input
