import Verif.Testing.Backend
import Verif.Testing.LogsProps
/-! # C102: `BackendFixture` stops its server and restores the logger -/
namespace Verif.Testing
variable {C E : Type}

/-! ## Specification -/

/-- The records test code logs, wherever it does. -/
def logged : Prog C → List (Rec C)
  | .skip => []
  | .log r => [r]
  | .fail _ => []
  | .seq p q => logged p ++ logged q
  | .capture p => logged p
  | .did _ p => logged p
  | .didNot _ p => logged p

/-- Where test code stands: outside any block, directly inside a fixture, or inside a capturing block. -/
inductive Place where
  | outside
  | fixture
  | capture
deriving DecidableEq

/-- Test code whose servers start, and whose fixtures are restarted directly inside them.  A fixture may be inside another block only if the code logs
no errors (`quiet`). -/
def Starts (exc : Rec C → Option E) (quiet : Bool) : FProg C → Place → Prop
  | .test p, _ => quiet = true → ∀ r ∈ logged p, exc r = none
  | .seq p q, i => Starts exc quiet p i ∧ Starts exc quiet q i
  | .capture p, _ => Starts exc quiet p .capture
  | .fixture up p, i => up = true ∧ (i = .outside ∨ quiet = true) ∧ Starts exc quiet p .fixture
  | .restart up, i => up = true ∧ i = .fixture

/-! ## Lemmas -/

theorem exec_logged (p : Prog C) (l : Logger C) (h : Fine l) : ∀ r ∈ (exec p l).1.records, r ∈ l.records ∨ r ∈ logged p := by
  induction p generalizing l with
  | skip => exact fun r hr => Or.inl hr
  | log r =>
    intro r' hr
    change r' ∈ (l.emit r).records at hr
    unfold Logger.emit at hr
    split at hr
    · simpa [logged] using hr
    · exact Or.inl hr
  | fail o => exact fun r hr => Or.inl hr
  | seq p q ihp ihq =>
    have hk := exec_kept p l h
    have hp := ihp l h
    intro r hr
    unfold exec at hr
    cases he : exec p l with
    | mk l' o =>
      rw [he] at hr hk hp
      have hp' : r ∈ l'.records → r ∈ l.records ∨ r ∈ logged (.seq p q) := fun h =>
        (hp r h).imp id fun h => by simp [logged, h]
      cases o with
      | ok =>
        rcases ihq l' (h.kept hk) r hr with h | h
        · exact hp' h
        · exact Or.inr (by simp [logged, h])
      | logAssertion => exact hp' hr
      | other => exact hp' hr
  | capture p ih =>
    intro r hr
    change r ∈ (l.leave (exec p l.enter).1).records at hr
    rw [leave_eq h (exec_kept p l.enter (Fine.enter l))] at hr
    exact Or.inl hr
  | did want p ih =>
    have := leave_eq h (exec_kept p l.enter (Fine.enter l))
    intro r hr
    unfold exec at hr
    cases he : exec p l.enter with
    | mk l' o =>
      rw [he] at this hr
      cases o <;> (simp only at this hr; rw [this] at hr; exact Or.inl hr)
  | didNot want p ih =>
    have := leave_eq h (exec_kept p l.enter (Fine.enter l))
    intro r hr
    unfold exec at hr
    cases he : exec p l.enter with
    | mk l' o =>
      rw [he] at this hr
      cases o <;> (simp only at this hr; rw [this] at hr; exact Or.inl hr)

/-- Leaving a fixture entered at `l0`, when nothing logged before is an error. -/
theorem stop_eq (exc : Rec C → Option E) (l0 l : Logger C) (n : Nat) (r : List (Option (Logger C))) (h : Fine l0) (hk : Kept l0.enter l)
    (hq : ∀ r ∈ l0.records, exc r = none) :
    FState.stop exc ⟨l, n, some l0 :: r⟩ = (⟨l0, n - 1, none :: r⟩, .ok) := by
  have e : listLoggedExceptions exc false l0.records = (l0.records, []) := by
    rw [C74_listed, List.filterMap_eq_nil_iff.2 hq]
  simp [FState.stop, FState.close, leave_eq h hk, e]

/-- What holds of the state at a place. -/
def Stands (exc : Rec C → Option E) (quiet : Bool) (i : Place) (s : FState C) : Prop :=
  Fine s.logger ∧ (quiet = true → ∀ r ∈ s.logger.records, exc r = none) ∧
  (i = .outside → Idle s.logger) ∧
  (i = .fixture → 0 < s.running ∧ ∃ l0 r, s.stacks = some l0 :: r ∧ Fine l0 ∧ (∀ r ∈ l0.records, exc r = none) ∧ Kept l0.enter s.logger)

/-- The logger at a place after running code there: inside a fixture that was restarted, the records of before are gone. -/
def Goes (i : Place) (s s' : FState C) : Prop :=
  s'.running = s.running ∧ s'.stacks = s.stacks ∧ (i ≠ .fixture → Kept s.logger s'.logger)

theorem execF_kept (exc : Rec C → Option E) (quiet : Bool) (p : FProg C) (i : Place) (hp : Starts exc quiet p i) (s : FState C)
    (hs : Stands exc quiet i s) : Stands exc quiet i (execF exc p s).1 ∧ Goes i s (execF exc p s).1 := by
  induction p generalizing i s with
  | test p =>
    obtain ⟨hf, hq, ho, hx⟩ := hs
    have hk := exec_kept p s.logger hf
    refine ⟨⟨hf.kept hk, fun h r hr => ?_, fun h => ?_, fun h => ?_⟩, rfl, rfl, fun _ => hk⟩
    · rcases exec_logged p s.logger hf r hr with h' | h'
      · exact hq h r h'
      · exact hp h r h'
    · show Idle (exec p s.logger).1
      rw [C74_restored p s.logger (ho h)]
      exact ho h
    · obtain ⟨h0, l0, r, h1, h2, h3, h4⟩ := hx h
      exact ⟨h0, l0, r, h1, h2, h3, h4.trans hk⟩
  | seq p q ihp ihq =>
    have h1 := ihp i hp.1 s hs
    unfold execF
    cases he : execF exc p s with
    | mk s' o =>
      rw [he] at h1
      cases o with
      | ok =>
        have h2 := ihq i hp.2 s' h1.1
        exact ⟨h2.1, h2.2.1.trans h1.2.1, h2.2.2.1.trans h1.2.2.1, fun h => (h1.2.2.2 h).trans (h2.2.2.2 h)⟩
      | logAssertion => exact h1
      | other => exact h1
  | capture p ih =>
    obtain ⟨hf, hq, ho, hx⟩ := hs
    obtain ⟨h1, h2, h3, h4⟩ := ih .capture hp { s with logger := s.logger.enter } ⟨Fine.enter _, hq, by simp, by simp⟩
    have e := leave_eq hf (h4 (by simp))
    unfold execF
    cases he : execF exc p { s with logger := s.logger.enter } with
    | mk s' o =>
      rw [he] at h1 h2 h3 h4 e
      simp only at e h2 h3 ⊢
      refine ⟨⟨?_, ?_, ?_, ?_⟩, h2, h3, fun _ => ?_⟩
      · simp only [e]; exact hf
      · simp only [e]; exact hq
      · simp only [e]; exact ho
      · simp only [e, h2, h3]; exact hx
      · simp only [e]; exact Kept.refl _
  | fixture up p ih =>
    obtain ⟨hup, hi, hp⟩ := hp
    obtain ⟨hf, hq, ho, hx⟩ := hs
    have hl : ∀ r ∈ s.logger.records, exc r = none := by
      rcases hi with hi | hi
      · rw [(ho hi).2]; simp
      · exact hq hi
    subst hup
    have := ih .fixture hp (s.start true).1 ⟨Fine.enter _, hq, by simp, fun _ =>
      ⟨Nat.succ_pos _, s.logger, s.stacks, rfl, hf, hl, Kept.refl _⟩⟩
    obtain ⟨⟨h1, h2, h3, h4⟩, h5, h6, -⟩ := this
    obtain ⟨h7, l0, r, h8, h9, h10, h11⟩ := h4 rfl
    have e : (execF exc (.fixture true p) s).1 = s := by
      unfold execF
      have hst : s.start true = ((s.start true).1, .ok) := rfl
      rw [hst]
      simp only
      cases he : execF exc p (s.start true).1 with
      | mk s' o =>
        rw [he] at h5 h6 h8 h11
        obtain ⟨lg, n, st⟩ := s'
        simp only at h5 h6 h8 h11
        subst h8
        simp only [FState.start] at h5 h6
        injection h6 with h6 h6'
        injection h6 with h6
        subst h6 h6' h5
        simp only [stop_eq exc s.logger lg (s.running + 1) s.stacks hf h11 hl]
        rfl
    rw [e]
    exact ⟨⟨hf, hq, ho, hx⟩, rfl, rfl, fun _ => Kept.refl _⟩
  | restart up =>
    obtain ⟨hup, hi⟩ := hp
    subst hup hi
    obtain ⟨hf, hq, ho, hx⟩ := hs
    obtain ⟨h7, l0, r, h8, h9, h10, h11⟩ := hx rfl
    have e : (execF exc (.restart true) s).1 = ⟨l0.enter, s.running, some l0 :: r⟩ := by
      obtain ⟨lg, n, st⟩ := s
      simp only at h8 h7
      subst h8
      unfold execF
      simp only [stop_eq exc l0 lg n r h9 h11 h10, FState.start]
      have : n - 1 + 1 = n := Nat.sub_add_cancel h7
      simp [this]
    rw [e]
    exact ⟨⟨Fine.enter _, fun _ => h10, by simp, fun _ => ⟨h7, l0, r, rfl, h9, h10, Kept.refl _⟩⟩, rfl, h8.symm, fun h => absurd rfl h⟩

/-! ## C102 -/

/-- C102: test code with fixtures, restarted or not, that are not inside each other or inside a capturing block: however it ends and whatever it logs,
afterwards no server of it is running, and the logger is as it was.

Missing: servers that do not start (`C102_start_violated`), and blocks around fixtures (`C102_nested_partial`). -/
theorem C102_stopped_partial (exc : Rec C → Option E) (p : FProg C) (hp : Starts exc false p .outside) (s : FState C) (hs : Idle s.logger) :
    (execF exc p s).1 = s := by
  obtain ⟨⟨-, -, h1, -⟩, h2, h3, h4⟩ := execF_kept exc false p .outside hp s ⟨Or.inl hs, by simp, fun _ => hs, by simp⟩
  have h5 := h1 rfl
  have h6 := h4 (by simp)
  generalize (execF exc p s).1 = s' at *
  obtain ⟨⟨lv, on, recs⟩, n, st⟩ := s
  obtain ⟨⟨lv', on', recs'⟩, n', st'⟩ := s'
  simp only at h2 h3
  obtain ⟨g1, g2, -⟩ := h6
  simp only at g1 g2
  have := h5.2.trans hs.2.symm
  simp only at this
  subst h2 h3 g1 g2 this
  rfl

/-- C102: and the same of fixtures inside each other and inside capturing blocks in any way, if the code logs no errors.

Missing: with an error logged in a block around it, a fixture raises and its server goes on running (`C102_earlier_violated`). -/
theorem C102_nested_partial (exc : Rec C → Option E) (p : FProg C) (hp : Starts exc true p .outside) (s : FState C) (hs : Idle s.logger) :
    (execF exc p s).1 = s := by
  obtain ⟨⟨-, -, h1, -⟩, h2, h3, h4⟩ := execF_kept exc true p .outside hp s ⟨Or.inl hs, fun _ => by rw [hs.2]; simp, fun _ => hs, by simp⟩
  have h5 := h1 rfl
  have h6 := h4 (by simp)
  generalize (execF exc p s).1 = s' at *
  obtain ⟨⟨lv, on, recs⟩, n, st⟩ := s
  obtain ⟨⟨lv', on', recs'⟩, n', st'⟩ := s'
  simp only at h2 h3
  obtain ⟨g1, g2, -⟩ := h6
  simp only at g1 g2
  have := h5.2.trans hs.2.symm
  simp only at this
  subst h2 h3 g1 g2 this
  rfl

/-- Errors carry exceptions, in the examples. -/
def excOf (r : Rec Nat) : Option Nat := if 40 ≤ r.level then some r.content else none

/-- A fixture in which an error is logged, that is restarted, and is left by an exception; then another. -/
example : Starts excOf false (.seq (.fixture true (.seq (.test (.log ⟨40, 7⟩)) (.seq (.restart true) (.test (.fail .other))))) (.fixture true (.test .skip)))
    .outside := by simp [Starts]

example : Starts excOf true (.fixture true (.seq (.test (.log ⟨20, 7⟩)) (.seq (.restart true) (.capture (.fixture true (.test (.fail .other)))))))
    .outside := by simp [Starts, logged, excOf]

/-- C102: while the fixture is open its server runs and the logger is captured; restarting it drops what it had captured. -/
theorem C102_open (exc : Rec C → Option E) (s : FState C) (l0 : Logger C) (r : List (Option (Logger C))) (hl : Fine l0)
    (hq : ∀ r ∈ l0.records, exc r = none) (h : s.stacks = some l0 :: r) (hk : Kept l0.enter s.logger) (hr : 0 < s.running) :
    (s.start true).2 = .ok ∧ (s.start true).1.running = s.running + 1 ∧ (s.start true).1.logger.on = true ∧ (s.start true).1.logger.level = 10 ∧
    (s.start true).1.logger.records = s.logger.records ∧
    execF exc (.restart true) s = ({ s with logger := l0.enter }, .ok) := by
  refine ⟨rfl, rfl, rfl, rfl, rfl, ?_⟩
  obtain ⟨lg, n, st⟩ := s
  simp only at h hr
  subst h
  unfold execF
  simp only [stop_eq exc l0 lg n r hl hk hq, FState.start]
  have : n - 1 + 1 = n := Nat.sub_add_cancel hr
  simp [this]

/-- C102 is violated: whatever test code logs inside a fixture, leaving the fixture never raises because of it: the block ends as the code alone would
in a capturing block.  (The records are dropped before they are looked at.) -/
theorem C102_unnoticed_violated (exc : Rec C → Option E) (p : Prog C) (s : FState C) (hs : Idle s.logger) :
    (execF exc (.fixture true (.test p)) s).2 = (exec (.capture p) s.logger).2 := by
  have hst : s.start true = ((s.start true).1, .ok) := rfl
  unfold execF
  rw [hst]
  simp only [execF, FState.start]
  rw [stop_eq exc s.logger _ _ _ (Or.inl hs) (exec_kept p s.logger.enter (Fine.enter _)) (by rw [hs.2]; simp)]
  rfl

example : (execF excOf (.fixture true (.test (.log ⟨40, 7⟩))) ⟨⟨30, false, []⟩, 0, []⟩).2 = .ok := rfl

/-- C102 is violated inside a capturing block: an error logged before the fixture makes leaving it raise, and the server goes on running. -/
theorem C102_earlier_violated : execF excOf (.capture (.seq (.test (.log ⟨40, 7⟩)) (.fixture true (.test .skip)))) ⟨⟨30, false, []⟩, 0, []⟩ =
    (⟨⟨30, false, []⟩, 1, []⟩, .logAssertion) := rfl

/-- C102 is violated when the server does not start: the task that serves is left, and the logger keeps the captor and the level DEBUG. -/
theorem C102_start_violated : execF excOf (.fixture false (.test .skip)) ⟨⟨30, false, []⟩, 0, []⟩ = (⟨⟨10, true, []⟩, 1, []⟩, .other) := rfl

end Verif.Testing
