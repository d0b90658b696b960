import Verif.Testing.Level
/-! # C105: the logger follows debug mode -/
namespace Verif.Testing
variable {C : Type}

/-- The level that debug mode asks for: DEBUG, or INFO without it. -/
def wanted (debug : Bool) : Nat := if debug then 10 else 20

/-- Debug mode is not assigned inside capturing blocks; `inside` tells whether the code is in one. -/
def Steady : DProg C → Bool → Prop
  | .debug _, inside => inside = false
  | .log _, _ => True
  | .fail, _ => True
  | .seq p q, inside => Steady p inside ∧ Steady q inside
  | .capture p, _ => Steady p true

/-- The messages that reach the captor from code inside a block, in debug mode or not: those of level DEBUG and more that are not in a block inside it. -/
def captured : DProg C → List (Rec C) × Bool
  | .debug _ => ([], false)
  | .log r => (if 10 ≤ r.level then [r] else [], false)
  | .fail => ([], true)
  | .seq p q => match captured p with
    | (a, false) => (a ++ (captured q).1, (captured q).2)
    | (a, true) => (a, true)
  | .capture p => ([], (captured p).2)

theorem emit_level (l : Logger C) (r : Rec C) : (l.emit r).level = l.level ∧ (l.emit r).on = l.on := by
  unfold Logger.emit; split <;> exact ⟨rfl, rfl⟩

theorem setDebugLevel_eq (note : C) (b : Bool) (l : Logger C) (ho : l.on = false) :
    setDebugLevel note b l = { l with level := wanted b } := by
  cases b <;> simp [setDebugLevel, wanted, Logger.emit, ho]

/-- Inside a block, without changes of debug mode: the captor gets the messages, and nothing else changes. -/
theorem execD_inside (note : C) (p : DProg C) (hp : Steady p true) (s : DState C) (ho : s.logger.on = true) (hl : s.logger.level = 10) :
    execD note p s = ({ s with logger := { s.logger with records := s.logger.records ++ (captured p).1 } }, (captured p).2) := by
  induction p generalizing s with
  | debug b => cases hp
  | log r =>
    obtain ⟨⟨lv, on, recs⟩, d⟩ := s
    simp only at ho hl
    subst ho hl
    simp only [execD, captured, Logger.emit]
    by_cases h : 10 ≤ r.level <;> simp [h]
  | fail => simp [execD, captured]
  | seq p q ihp ihq =>
    unfold execD captured
    rw [ihp hp.1 s ho hl]
    cases hc : captured p with
    | mk a b =>
      cases b with
      | true => rfl
      | false =>
        simp only
        rw [ihq hp.2 ⟨⟨s.logger.level, s.logger.on, s.logger.records ++ a⟩, s.debug⟩ ho hl]
        simp [List.append_assoc]
  | capture p ih =>
    obtain ⟨⟨lv, on, recs⟩, d⟩ := s
    simp only at ho hl
    subst ho hl
    unfold execD captured
    rw [ih hp _ rfl rfl]
    simp [Logger.leave, Logger.enter]

/-! ## C105 -/

/-- C105: after any code that does not change debug mode inside a capturing block, also if it raises, the level of the logger is the one for debug mode as it
is then, and the logger captures nothing.

Missing: changes inside a block (`C105_after_violated`). -/
theorem C105_level_partial (note : C) (p : DProg C) (hp : Steady p false) (debug : Bool) :
    let s := (execD note p (importLogging note debug)).1
    s.logger.level = wanted s.debug ∧ s.logger.on = false ∧ s.logger.records = [] := by
  have key : ∀ s : DState C, s.logger.level = wanted s.debug ∧ s.logger.on = false ∧ s.logger.records = [] →
      (execD note p s).1.logger.level = wanted (execD note p s).1.debug ∧ (execD note p s).1.logger.on = false ∧
      (execD note p s).1.logger.records = [] := by
    induction p with
    | debug b =>
      rintro s ⟨h1, h2, h3⟩
      simp only [execD, assignDebug]
      split
      · exact ⟨h1, h2, h3⟩
      · simp only [setDebugLevel_eq note b s.logger h2]
        exact ⟨trivial, h2, h3⟩
    | log r =>
      rintro s ⟨h1, h2, h3⟩
      simp [execD, Logger.emit, h1, h2, h3]
    | fail => exact fun s h => h
    | seq p q ihp ihq =>
      intro s h
      have h1 := ihp hp.1 s h
      unfold execD
      cases he : execD note p s with
      | mk t b =>
        rw [he] at h1
        cases b with
        | true => exact h1
        | false => exact ihq hp.2 t h1
    | capture p ih =>
      rintro s ⟨h1, h2, h3⟩
      unfold execD
      rw [execD_inside note p hp _ rfl rfl]
      exact ⟨h1, h2, by simp [Logger.leave, h2]⟩
  refine key _ ?_
  cases debug <;> simp [importLogging, setDebugLevel, wanted, Logger.emit]

/-- C105: a block of such code captures all messages of level DEBUG and more that it logs itself, in debug mode or not; and it leaves debug mode, the logger
and what was captured before it as they were, also if it raises.

Missing: changes inside a block (`C105_missed_violated`). -/
theorem C105_captured_partial (note : C) (p : DProg C) (hp : Steady p true) (s : DState C)
    (hs : s.logger.on = true ∨ (s.logger.on = false ∧ s.logger.records = [])) :
    (execD note p { s with logger := s.logger.enter }).1.logger.records = s.logger.records ++ (captured p).1 ∧
    execD note (.capture p) s = (s, (captured p).2) := by
  rw [execD_inside note p hp _ rfl rfl]
  refine ⟨rfl, ?_⟩
  unfold execD
  rw [execD_inside note p hp _ rfl rfl]
  obtain ⟨⟨lv, on, recs⟩, d⟩ := s
  rcases hs with h | ⟨h, h'⟩
  · simp only at h; subst h; simp [Logger.leave, Logger.enter]
  · simp only at h h'; subst h h'; simp [Logger.leave]

/-- C105: outside blocks every assignment that changes debug mode sets the level, and the others change nothing. -/
theorem C105_assigned (note : C) (b : Bool) (s : DState C) (ho : s.logger.on = false) :
    execD note (.debug b) s = (if b = s.debug then s else ⟨{ s.logger with level := wanted b }, b⟩, false) := by
  simp only [execD, assignDebug, setDebugLevel_eq note b s.logger ho]

/-- Debug mode turned on, a block that raises after two messages, and a message. -/
example : Steady (.seq (.debug true) (.seq (.capture (.seq (.log ⟨10, 1⟩) (.seq (.log ⟨5, 2⟩) .fail))) (.log ⟨10, 3⟩)) : DProg Nat) false := by
  simp [Steady]

example : captured (.seq (.log ⟨10, 1⟩) (.seq (.log ⟨5, 2⟩) (.seq (.capture (.log ⟨30, 4⟩)) (.seq (.log ⟨40, 5⟩) .fail))) : DProg Nat) =
    ([⟨10, 1⟩, ⟨40, 5⟩], true) := rfl

/-- C105 is violated by turning debug mode on inside a block: after it debug mode is on, but the logger is at level INFO. -/
theorem C105_after_violated : (execD 0 (.capture (.debug true)) (importLogging 0 false)).1 = (⟨⟨20, false, []⟩, true⟩ : DState Nat) := rfl

/-- C105 is violated by turning debug mode off inside a block: the message of level DEBUG after it is not captured. -/
theorem C105_missed_violated :
    (execD 0 (.seq (.debug false) (.log ⟨10, 7⟩)) { (importLogging 0 true : DState Nat) with logger := (importLogging 0 true : DState Nat).logger.enter }).1.logger.records =
      [] := rfl

end Verif.Testing
