import Verif.Testing.Logs
/-!
# C74: log assertions tell what was logged; C75: polling
-/
namespace Verif.Testing

/-! ## C74: `list_logged_exceptions` -/

variable {R E C : Type}

theorem excLoop_false (exc : R → Option E) (fuel i : Nat) (recs : List R) (found : List E) (h : recs.length ≤ fuel + i) :
    excLoop exc false fuel i recs found = (recs, found ++ (recs.drop i).filterMap exc) := by
  induction fuel generalizing i found with
  | zero => simp [excLoop, List.drop_of_length_le (show recs.length ≤ i by omega)]
  | succ fuel ih =>
    unfold excLoop
    cases hg : recs[i]? with
    | none => simp [List.drop_of_length_le (List.getElem?_eq_none_iff.1 hg)]
    | some r =>
      have hlt := (List.getElem?_eq_some_iff.1 hg).1
      have hd : recs.drop i = r :: recs.drop (i + 1) := by
        rw [List.drop_eq_getElem_cons hlt]
        congr 1
        exact (List.getElem?_eq_some_iff.1 hg).2
      simp only
      cases he : exc r with
      | none => rw [ih _ _ (by omega), hd]; simp [he]
      | some e => simp only [Bool.false_eq_true, if_false]; rw [ih _ _ (by omega), hd]; simp [he]

/-- C74: asked not to delete, `list_logged_exceptions` returns the matching exceptions, all of them, in the order logged, and
leaves the records as they are. -/
theorem C74_listed (exc : R → Option E) (recs : List R) :
    listLoggedExceptions exc false recs = (recs, recs.filterMap exc) := by
  have := excLoop_false exc recs.length 0 recs [] (by omega)
  simp only [List.nil_append, List.drop_zero] at this
  exact this

example : listLoggedExceptions (fun n : Nat => if n % 2 = 0 then some (n / 2) else none) false [2, 3, 4, 6] =
    ([2, 3, 4, 6], [1, 2, 3]) := by decide

theorem excLoop_none (exc : R → Option E) (fuel i : Nat) (recs : List R) (found : List E)
    (h : ∀ r ∈ recs.drop i, exc r = none) : excLoop exc true fuel i recs found = (recs, found) := by
  induction fuel generalizing i with
  | zero => rfl
  | succ fuel ih =>
    unfold excLoop
    cases hg : recs[i]? with
    | none => rfl
    | some r =>
      have hlt := (List.getElem?_eq_some_iff.1 hg).1
      have hd : recs.drop i = r :: recs.drop (i + 1) := by
        rw [List.drop_eq_getElem_cons hlt]
        congr 1
        exact (List.getElem?_eq_some_iff.1 hg).2
      simp only [h r (by simp [hd])]
      exact ih _ fun r' hr' => h r' (by simp [hd, hr'])

theorem excLoop_skip (exc : R → Option E) (a b : List R) (ha : ∀ r ∈ a, exc r = none) (fuel : Nat) (pre : List R) :
    excLoop exc true (a.length + fuel) pre.length (pre ++ a ++ b) [] =
      excLoop exc true fuel (pre.length + a.length) (pre ++ a ++ b) [] := by
  induction a generalizing pre with
  | nil => simp
  | cons r a ih =>
    have e : (r :: a).length + fuel = (a.length + fuel) + 1 := by simp; omega
    rw [e]
    conv => lhs; unfold excLoop
    have hg : (pre ++ r :: a ++ b)[pre.length]? = some r := by simp
    simp only [hg, ha r (by simp)]
    have := ih (fun r' hr' => ha r' (by simp [hr'])) (pre ++ [r])
    simp at this ⊢
    rw [this]
    congr 1
    omega

/-- C74, with deleting (the default), when at most one record matches: its exception is returned and that record alone is
deleted.

Missing: with more than one it is wrong (`C74_deleting_violated`). -/
theorem C74_deleting_partial (exc : R → Option E) (recs : List R) (h : (recs.filterMap exc).length ≤ 1) :
    listLoggedExceptions exc true recs = (recs.filter (fun r => (exc r).isNone), recs.filterMap exc) := by
  by_cases hall : ∀ r ∈ recs, exc r = none
  · have h1 : recs.filter (fun r => (exc r).isNone) = recs := List.filter_eq_self.2 fun r hr => by simp [hall r hr]
    have h2 : recs.filterMap exc = [] := List.filterMap_eq_nil_iff.2 hall
    rw [h1, h2]
    exact excLoop_none exc _ 0 recs [] (by simpa using hall)
  · obtain ⟨a, r, b, e, hr, ha, hb⟩ : ∃ a r b, recs = a ++ r :: b ∧ exc r ≠ none ∧ (∀ x ∈ a, exc x = none) ∧
        (∀ x ∈ b, exc x = none) := by
      induction recs with
      | nil => simp at hall
      | cons x xs ih =>
        cases hx : exc x with
        | none =>
          obtain ⟨a, r, b, e, h1, h2, h3⟩ := ih (by simpa [hx] using h) (by simpa [hx] using hall)
          exact ⟨x :: a, r, b, by simp [e], h1, by simpa [hx] using h2, h3⟩
        | some y =>
          refine ⟨[], x, xs, rfl, by simp [hx], by simp, ?_⟩
          have : (xs.filterMap exc) = [] := by
            apply List.eq_nil_of_length_eq_zero
            simp [hx] at h
            simpa using h
          exact List.filterMap_eq_nil_iff.1 this
    cases he : exc r with
    | none => exact absurd he hr
    | some y =>
      have fa : a.filterMap exc = [] := List.filterMap_eq_nil_iff.2 ha
      have fb : b.filterMap exc = [] := List.filterMap_eq_nil_iff.2 hb
      have ga : a.filter (fun r => (exc r).isNone) = a := List.filter_eq_self.2 fun r hr => by simp [ha r hr]
      have gb : b.filter (fun r => (exc r).isNone) = b := List.filter_eq_self.2 fun r hr => by simp [hb r hr]
      have e2 : recs.filterMap exc = [y] := by simp [e, fa, fb, he]
      have e1 : recs.filter (fun r => (exc r).isNone) = a ++ b := by simp [e, ga, gb, he]
      rw [e1, e2]
      show excLoop exc true recs.length 0 recs [] = _
      have hl : recs.length = a.length + (b.length + 1) := by simp [e]
      have hs := excLoop_skip exc a (r :: b) ha (b.length + 1) []
      simp only [List.length_nil, List.nil_append, Nat.zero_add] at hs
      rw [hl, e, hs]
      unfold excLoop
      have hg : (a ++ r :: b)[a.length]? = some r := by simp
      simp only [hg, he, if_true, List.length_nil, Nat.sub_zero, List.nil_append]
      have her : (a ++ r :: b).eraseIdx a.length = a ++ b := by
        rw [List.eraseIdx_append_of_length_le (Nat.le_refl _)]; simp
      rw [her]
      apply excLoop_none
      intro x hx
      have : x ∈ b := by
        rw [List.drop_append] at hx
        simp at hx
        rcases hx with hx | hx
        · rw [List.drop_of_length_le (by omega)] at hx; simp at hx
        · exact List.mem_of_mem_tail hx
      exact hb x this

example : listLoggedExceptions (fun n : Nat => if n % 2 = 0 then some (n / 2) else none) true [1, 3, 4, 7] =
    ([1, 3, 7], [2]) := by decide

theorem excLoop_sound (exc : R → Option E) (fuel i : Nat) (recs : List R) (found : List E) (hf : found.length ≤ i) :
    ∃ more, (excLoop exc true fuel i recs found).2 = found ++ more ∧ more.Sublist ((recs.drop i).filterMap exc) ∧
      (excLoop exc true fuel i recs found).1.Sublist recs ∧
      (excLoop exc true fuel i recs found).1.length + more.length = recs.length := by
  induction fuel generalizing i recs found with
  | zero => exact ⟨[], by simp [excLoop], by simp, by simp [excLoop], by simp [excLoop]⟩
  | succ fuel ih =>
    unfold excLoop
    cases hg : recs[i]? with
    | none => exact ⟨[], by simp, by simp, by simp, by simp⟩
    | some r =>
      have hlt := (List.getElem?_eq_some_iff.1 hg).1
      have hd : recs.drop i = r :: recs.drop (i + 1) := by
        rw [List.drop_eq_getElem_cons hlt]
        congr 1
        exact (List.getElem?_eq_some_iff.1 hg).2
      simp only
      cases he : exc r with
      | none =>
        obtain ⟨m, h1, h2, h3, h4⟩ := ih (i + 1) recs found (by omega)
        exact ⟨m, h1, by simpa [hd, he] using h2, h3, h4⟩
      | some e =>
        simp only [if_true]
        obtain ⟨m, h1, h2, h3, h4⟩ := ih (i + 1) (recs.eraseIdx (i - found.length)) (found ++ [e]) (by simp; omega)
        refine ⟨e :: m, by simpa using h1, ?_, h3.trans (List.eraseIdx_sublist _ _), ?_⟩
        · rw [hd]
          simp only [List.filterMap_cons, he]
          refine List.Sublist.cons_cons _ (h2.trans (List.Sublist.filterMap _ ?_))
          have : (recs.eraseIdx (i - found.length)).drop (i + 1) = recs.drop (i + 2) := by
            apply List.ext_getElem?
            intro k
            rw [List.getElem?_drop, List.getElem?_drop, List.getElem?_eraseIdx]
            have : ¬ (i + 1 + k < i - found.length) := by omega
            rw [if_neg this]
            congr 1
            omega
          rw [this]
          have := List.drop_sublist_drop_left recs (show i + 1 ≤ i + 2 by omega)
          exact this
        · have := List.length_eraseIdx_of_lt (l := recs) (i := i - found.length) (by omega)
          simp
          omega

/-- C74: with deleting, whatever the records: nothing is returned that is not a matching exception, none twice, and in the
order logged; only logged records remain; and as many records are deleted as exceptions are returned. -/
theorem C74_deleting_sound (exc : R → Option E) (recs : List R) :
    (listLoggedExceptions exc true recs).2.Sublist (recs.filterMap exc) ∧
    (listLoggedExceptions exc true recs).1.Sublist recs ∧
    (listLoggedExceptions exc true recs).1.length + (listLoggedExceptions exc true recs).2.length = recs.length := by
  obtain ⟨m, h1, h2, h3, h4⟩ := excLoop_sound exc recs.length 0 recs [] (by simp)
  simp only [List.nil_append] at h1
  refine ⟨?_, h3, ?_⟩
  · show (excLoop exc true recs.length 0 recs []).2.Sublist _
    rw [h1]; simpa using h2
  · show (excLoop exc true recs.length 0 recs []).1.length + (excLoop exc true recs.length 0 recs []).2.length = _
    rw [h1]; exact h4

/-- C74 is violated by `list_logged_exceptions` with deleting (the default), which deletes from the list it is going through:
of two errors in a row only the first is returned; and of two errors with a message between them the message is deleted and
the second error stays. -/
theorem C74_deleting_violated :
    let exc := fun n : Nat => if n % 2 = 0 then some n else none
    listLoggedExceptions exc true [2, 4] = ([4], [2]) ∧ listLoggedExceptions exc true [2, 3, 4] = ([4], [2, 4]) := by
  decide

/-! ## C74: the context managers -/

/-- What test code should do, without any logger: the records of level DEBUG or more it logs that are not inside a capturing
block of its own (those "are cleared afterwards"), and how it ends.  A block's assertion looks at the records of that block. -/
def emits : Prog C → List (Rec C) × Out
  | .skip => ([], .ok)
  | .log r => (if 10 ≤ r.level then [r] else [], .ok)
  | .fail o => ([], o)
  | .seq p q =>
    match emits p with
    | (a, .ok) => (a ++ (emits q).1, (emits q).2)
    | (a, o) => (a, o)
  | .capture p => ([], (emits p).2)
  | .did want p =>
    ([], match emits p with
      | (a, .ok) => if a.any (fun r => want r.content) then .ok else .logAssertion
      | (_, o) => o)
  | .didNot want p =>
    ([], match emits p with
      | (a, .ok) => if a.any (fun r => want r.content) then .logAssertion else .ok
      | (_, o) => o)

/-- The captor is installed only inside capturing blocks, and holds nothing outside. -/
def Idle (l : Logger C) : Prop := l.on = false ∧ l.records = []

/-- Any state the logger can be in: outside a block, or inside, where the level is DEBUG. -/
def Fine (l : Logger C) : Prop := Idle l ∨ (l.on = true ∧ l.level = 10)

/-- The level, the handlers and the earlier records are as they were; new records come last. -/
def Kept (l l' : Logger C) : Prop := l'.level = l.level ∧ l'.on = l.on ∧ ∃ new, l'.records = l.records ++ new ∧ (l.on = false → new = [])

theorem Kept.refl (l : Logger C) : Kept l l := ⟨rfl, rfl, [], by simp, fun _ => rfl⟩

theorem Kept.trans {a b c : Logger C} (h : Kept a b) (g : Kept b c) : Kept a c := by
  obtain ⟨h1, h2, n, h3, h4⟩ := h
  obtain ⟨g1, g2, m, g3, g4⟩ := g
  exact ⟨g1.trans h1, g2.trans h2, n ++ m, by rw [g3, h3, List.append_assoc], fun h => by
    rw [h4 h, g4 (h2.trans h)]; rfl⟩

theorem Fine.enter (l : Logger C) : Fine l.enter := Or.inr ⟨rfl, rfl⟩

theorem Fine.kept {l l' : Logger C} (h : Fine l) (g : Kept l l') : Fine l' := by
  obtain ⟨g1, g2, n, g3, g4⟩ := g
  rcases h with ⟨h1, h2⟩ | ⟨h1, h2⟩
  · exact Or.inl ⟨g2.trans h1, by rw [g3, h2, g4 h1]; rfl⟩
  · exact Or.inr ⟨g2.trans h1, g1.trans h2⟩

/-- Leaving a block undoes it. -/
theorem leave_eq {l l' : Logger C} (h : Fine l) (g : Kept l.enter l') : l.leave l' = l := by
  obtain ⟨g1, g2, n, g3, g4⟩ := g
  obtain ⟨lv, on, recs⟩ := l
  have g3' : l'.records = recs ++ n := g3
  unfold Logger.leave
  rcases h with ⟨h1, h2⟩ | ⟨h1, h2⟩
  · simp only at h1 h2
    simp [h1, h2]
  · simp only at h1
    simp [h1, g3']

theorem exec_kept (p : Prog C) (l : Logger C) (h : Fine l) : Kept l (exec p l).1 := by
  induction p generalizing l with
  | skip => exact Kept.refl l
  | log r =>
    show Kept l (l.emit r)
    unfold Logger.emit
    split
    next hc =>
      refine ⟨rfl, rfl, [r], rfl, fun h => ?_⟩
      rw [h] at hc; simp at hc
    next => exact Kept.refl l
  | fail o => exact Kept.refl l
  | seq p q ihp ihq =>
    have hp := ihp l h
    unfold exec
    cases he : exec p l with
    | mk l' o =>
      rw [he] at hp
      cases o with
      | ok => exact hp.trans (ihq l' (h.kept hp))
      | logAssertion => exact hp
      | other => exact hp
  | capture p ih =>
    show Kept l (l.leave (exec p l.enter).1)
    rw [leave_eq h (ih l.enter (Fine.enter l))]
    exact Kept.refl l
  | did want p ih =>
    have := leave_eq h (ih l.enter (Fine.enter l))
    unfold exec
    cases he : exec p l.enter with
    | mk l' o =>
      rw [he] at this
      cases o <;> (simp only at this ⊢; rw [this]; exact Kept.refl l)
  | didNot want p ih =>
    have := leave_eq h (ih l.enter (Fine.enter l))
    unfold exec
    cases he : exec p l.enter with
    | mk l' o =>
      rw [he] at this
      cases o <;> (simp only at this ⊢; rw [this]; exact Kept.refl l)

/-- C74: test code of any form, with capturing blocks and assertions nested in any way and exceptions anywhere, leaves the
logger as it found it: level, handlers, and no records left. -/
theorem C74_restored (p : Prog C) (l : Logger C) (h : Idle l) : (exec p l).1 = l := by
  obtain ⟨h1, h2, n, h3, h4⟩ := exec_kept p l (Or.inl h)
  have h5 : (exec p l).1.records = l.records := by rw [h3, h4 h.1, List.append_nil]
  cases hq : (exec p l).1
  cases l
  simp_all

/-- C74: a capturing block inside another leaves the logger as it found it too, however it ends: what was captured before is
kept, what was logged in the block is gone. -/
theorem C74_restored_inside (p : Prog C) (l : Logger C) (h : l.on = true ∧ l.level = 10) :
    (exec (.capture p) l).1 = l :=
  leave_eq (Or.inr h) (exec_kept p l.enter (Fine.enter l))

/-- A failing block that captures, inside one that asserts. -/
example : (exec (.seq (.log ⟨20, 1⟩) (.did (fun _ => true) (.seq (.capture (.log ⟨20, 2⟩)) (.fail .other))))
    (⟨30, false, []⟩ : Logger Nat)) = (⟨30, false, []⟩, .other) := rfl

/-- Test code without assertions, raising nothing but other exceptions. -/
def Plain : Prog C → Prop
  | .skip => True
  | .log _ => True
  | .fail o => o ≠ .logAssertion
  | .seq p q => Plain p ∧ Plain q
  | .capture p => Plain p
  | .did _ _ => False
  | .didNot _ _ => False

/-- Test code whose capturing blocks contain no assertions. -/
def Flat : Prog C → Prop
  | .seq p q => Flat p ∧ Flat q
  | .capture p => Plain p
  | .did _ p => Plain p
  | .didNot _ p => Plain p
  | _ => True

theorem plain_exec (p : Prog C) (hp : Plain p) (l : Logger C) (h : l.on = true ∧ l.level = 10) :
    (exec p l).2 = (emits p).2 ∧ (exec p l).1.records = l.records ++ (emits p).1 ∧ (emits p).2 ≠ .logAssertion := by
  induction p generalizing l with
  | skip => simp [exec, emits]
  | log r =>
    refine ⟨rfl, ?_, by simp [emits]⟩
    show (l.emit r).records = _
    unfold Logger.emit
    simp only [h.1, h.2, Bool.true_and, emits]
    by_cases hr : 10 ≤ r.level <;> simp [hr]
  | fail o => exact ⟨rfl, by simp [exec, emits], hp⟩
  | seq p q ihp ihq =>
    obtain ⟨h1, h2, h3⟩ := ihp hp.1 l h
    have hk := exec_kept p l (Or.inr h)
    unfold exec emits
    cases he : exec p l with
    | mk l' o =>
      cases hm : emits p with
      | mk a o' =>
        rw [he] at h1 h2 hk
        rw [hm] at h1 h2 h3
        simp only at h1 h2 h3
        subst h1
        cases o with
        | ok =>
          obtain ⟨g1, g2, g3⟩ := ihq hp.2 l' ⟨hk.2.1.trans h.1, hk.1.trans h.2⟩
          exact ⟨g1, by rw [g2, h2, List.append_assoc], g3⟩
        | logAssertion => exact absurd rfl h3
        | other => exact ⟨rfl, h2, by simp⟩
  | capture p ih =>
    obtain ⟨h1, h2, h3⟩ := ih hp l.enter ⟨rfl, rfl⟩
    refine ⟨h1, ?_, h3⟩
    show (l.leave (exec p l.enter).1).records = _
    rw [leave_eq (Or.inr h) (exec_kept p l.enter (Fine.enter l))]
    simp [emits]
  | did want p ih => exact hp.elim
  | didNot want p ih => exact hp.elim

/-- C74, for assertions that are not inside another capturing block and whose own block raises no `LogAssertionError`: an
assertion passes exactly when its block logged (or did not log) a matching record; exceptions of the block pass through.

Missing: nested assertions, see `C74_nested_violated` and `C74_swallowed_violated`. -/
theorem C74_asserted_partial (p : Prog C) (hp : Flat p) (l : Logger C) (h : Idle l) : (exec p l).2 = (emits p).2 := by
  induction p generalizing l with
  | skip => rfl
  | log r => rfl
  | fail o => rfl
  | seq p q ihp ihq =>
    have h1 := ihp hp.1 l h
    have hk := C74_restored p l h
    unfold exec emits
    cases he : exec p l with
    | mk l' o =>
      cases hm : emits p with
      | mk a o' =>
        rw [he] at h1 hk
        rw [hm] at h1
        simp only at h1 hk
        subst h1
        subst hk
        cases o with
        | ok => exact ihq hp.2 l' h
        | logAssertion => rfl
        | other => rfl
  | capture p ih => exact (plain_exec p hp l.enter ⟨rfl, rfl⟩).1
  | did want p ih =>
    obtain ⟨h1, h2, h3⟩ := plain_exec p hp l.enter ⟨rfl, rfl⟩
    have hr : l.enter.records = [] := h.2
    unfold exec emits
    cases he : exec p l.enter with
    | mk l' o =>
      cases hm : emits p with
      | mk a o' =>
        rw [he] at h1 h2
        rw [hm] at h1 h2 h3
        simp only [hr, List.nil_append] at h1 h2 h3
        subst h1
        subst h2
        cases o <;> rfl
  | didNot want p ih =>
    obtain ⟨h1, h2, h3⟩ := plain_exec p hp l.enter ⟨rfl, rfl⟩
    have hr : l.enter.records = [] := h.2
    unfold exec emits
    cases he : exec p l.enter with
    | mk l' o =>
      cases hm : emits p with
      | mk a o' =>
        rw [he] at h1 h2
        rw [hm] at h1 h2 h3
        simp only [hr, List.nil_append] at h1 h2 h3
        subst h1
        subst h2
        cases o with
        | logAssertion => exact absurd rfl h3
        | _ => rfl

/-- The claim, seen through its own specification: an assertion on a block that logs records and then ends normally. -/
example (want : Nat → Bool) (r s : Rec Nat) (hr : 10 ≤ r.level) (hs : s.level < 10) (l : Logger Nat) (h : Idle l) :
    (exec (.did want (.seq (.log r) (.log s))) l).2 = if want r.content then .ok else .logAssertion := by
  rw [C74_asserted_partial _ (by simp [Flat, Plain]) l h]
  simp [emits, hr, Nat.not_le.2 hs]

/-- C74 is violated by an assertion inside another capturing block: it looks at what was logged before it too.  Nothing is
logged in the inner block, yet the assertion that something was passes, and the assertion that nothing was fails. -/
theorem C74_nested_violated (want : C → Bool) (c : C) (hc : want c = true) (l : Logger C) :
    (exec (.capture (.seq (.log ⟨20, c⟩) (.did want .skip))) l).2 = .ok ∧
    (emits (.capture (.seq (.log ⟨20, c⟩) (.did want .skip)))).2 = .logAssertion ∧
    (exec (.capture (.seq (.log ⟨20, c⟩) (.didNot want .skip))) l).2 = .logAssertion ∧
    (emits (.capture (.seq (.log ⟨20, c⟩) (.didNot want .skip)))).2 = .ok := by
  simp [exec, emits, Logger.enter, Logger.emit, hc]

/-- C74 is violated by `assert_reactpy_did_not_log` around an assertion that fails: the failure is swallowed, and the test
passes. -/
theorem C74_swallowed_violated (want want' : C → Bool) (l : Logger C) (h : Idle l) :
    (exec (.didNot want (.did want' .skip)) l).2 = .ok ∧ (emits (.didNot want (.did want' .skip))).2 = .logAssertion := by
  obtain ⟨lv, on, recs⟩ := l
  obtain ⟨h1, h2⟩ := h
  simp only at h1 h2
  subst h1 h2
  simp [exec, emits, Logger.enter]

/-! ## C75: polling -/

theorem poll_spec (ok late : Nat → Bool) (n : Nat) :
    (∀ k, poll ok late n 0 = .returned k ↔ k < n ∧ ok k = true ∧ ∀ j < k, ok j = false ∧ late j = false) ∧
    (∀ k, poll ok late n 0 = .timedOut k ↔ k < n ∧ ok k = false ∧ late k = true ∧ ∀ j < k, ok j = false ∧ late j = false) ∧
    (poll ok late n 0 = .polling ↔ ∀ j < n, ok j = false ∧ late j = false) := by
  suffices h : ∀ m,
      (∀ k, poll ok late n m = .returned k ↔ (m ≤ k ∧ k < m + n) ∧ ok k = true ∧ ∀ j, m ≤ j → j < k → ok j = false ∧ late j = false) ∧
      (∀ k, poll ok late n m = .timedOut k ↔ (m ≤ k ∧ k < m + n) ∧ ok k = false ∧ late k = true ∧
        ∀ j, m ≤ j → j < k → ok j = false ∧ late j = false) ∧
      (poll ok late n m = .polling ↔ ∀ j, m ≤ j → j < m + n → ok j = false ∧ late j = false) by
    simpa using h 0
  induction n with
  | zero =>
    intro m
    refine ⟨?_, ?_, ?_⟩
    · intro k; simp [poll]; omega
    · intro k; simp [poll]; omega
    · simp [poll]; omega
  | succ n ih =>
    intro m
    obtain ⟨h1, h2, h3⟩ := ih (m + 1)
    unfold poll
    cases ho : ok m with
    | true =>
      simp only [if_true]
      refine ⟨?_, ?_, ?_⟩
      · intro k
        constructor
        · intro e
          have e : m = k := by simpa using e
          subst e
          exact ⟨⟨Nat.le_refl _, by omega⟩, ho, fun j hj hk => absurd hk (by omega)⟩
        · rintro ⟨⟨a, b⟩, c, d⟩
          by_cases e : m = k
          · rw [e]
          · have := (d m (Nat.le_refl _) (by omega)).1
            rw [ho] at this; simp at this
      · intro k
        constructor
        · intro e; simp at e
        · rintro ⟨⟨a, b⟩, c, d, f⟩
          by_cases e : m = k
          · rw [← e, ho] at c; simp at c
          · have := (f m (Nat.le_refl _) (by omega)).1
            rw [ho] at this; simp at this
      · constructor
        · intro e; simp at e
        · intro d
          have := (d m (Nat.le_refl _) (by omega)).1
          rw [ho] at this; simp at this
    | false =>
      simp only [Bool.false_eq_true, if_false]
      cases hl : late m with
      | true =>
        simp only [if_true]
        refine ⟨?_, ?_, ?_⟩
        · intro k
          constructor
          · intro e; simp at e
          · rintro ⟨⟨a, b⟩, c, d⟩
            by_cases e : m = k
            · rw [← e, ho] at c; simp at c
            · have := (d m (Nat.le_refl _) (by omega)).2
              rw [hl] at this; simp at this
        · intro k
          constructor
          · intro e
            have e : m = k := by simpa using e
            subst e
            exact ⟨⟨Nat.le_refl _, by omega⟩, ho, hl, fun j hj hk => absurd hk (by omega)⟩
          · rintro ⟨⟨a, b⟩, c, d, f⟩
            by_cases e : m = k
            · rw [e]
            · have := (f m (Nat.le_refl _) (by omega)).2
              rw [hl] at this; simp at this
        · constructor
          · intro e; simp at e
          · intro d
            have := (d m (Nat.le_refl _) (by omega)).2
            rw [hl] at this; simp at this
      | false =>
        simp only [Bool.false_eq_true, if_false]
        have ext : ∀ (b : Nat), (∀ j, m + 1 ≤ j → j < b → ok j = false ∧ late j = false) →
            ∀ j, m ≤ j → j < b → ok j = false ∧ late j = false := by
          intro b hb j hj hk
          by_cases e : j = m
          · rw [e]; exact ⟨ho, hl⟩
          · exact hb j (by omega) hk
        refine ⟨?_, ?_, ?_⟩
        · intro k
          rw [h1 k]
          constructor
          · rintro ⟨⟨a, b⟩, c, d⟩
            exact ⟨⟨by omega, by omega⟩, c, ext k d⟩
          · rintro ⟨⟨a, b⟩, c, d⟩
            have : m ≠ k := by intro e; rw [← e, ho] at c; simp at c
            exact ⟨⟨by omega, by omega⟩, c, fun j hj hk => d j (by omega) hk⟩
        · intro k
          rw [h2 k]
          constructor
          · rintro ⟨⟨a, b⟩, c, c', d⟩
            exact ⟨⟨by omega, by omega⟩, c, c', ext k d⟩
          · rintro ⟨⟨a, b⟩, c, c', d⟩
            have : m ≠ k := by intro e; rw [← e, hl] at c'; simp at c'
            exact ⟨⟨by omega, by omega⟩, c, c', fun j hj hk => d j (by omega) hk⟩
        · rw [h3]
          constructor
          · intro d
            have e : m + (n + 1) = m + 1 + n := by omega
            rw [e]
            exact ext _ d
          · intro d j hj hk
            exact d j (by omega) (by omega)

/-- C75: `poll(f).until(cond, timeout)` returns after the first result that meets the condition, provided the clock was within
the timeout after each earlier result; it raises `TimeoutError` only after a result that does not meet the condition, obtained
when the timeout was exceeded, and after no result that does; and it goes on polling otherwise. -/
theorem C75_until (cond : R → Bool) (result : Nat → R) (now : Nat → Int) (start timeout : Int) (n : Nat) :
    (∀ k, «until» cond result now start timeout n = .returned k ↔
      k < n ∧ cond (result k) = true ∧ ∀ j < k, cond (result j) = false ∧ now j ≤ start + timeout) ∧
    (∀ k, «until» cond result now start timeout n = .timedOut k ↔
      k < n ∧ cond (result k) = false ∧ start + timeout < now k ∧ ∀ j < k, cond (result j) = false ∧ now j ≤ start + timeout) ∧
    («until» cond result now start timeout n = .polling ↔ ∀ j < n, cond (result j) = false ∧ now j ≤ start + timeout) := by
  have h := poll_spec (fun k => cond (result k)) (fun k => decide (now k - start > timeout)) n
  have e1 : ∀ j, decide (now j - start > timeout) = false ↔ now j ≤ start + timeout := by
    intro j; simp; omega
  have e2 : ∀ j, decide (now j - start > timeout) = true ↔ start + timeout < now j := by
    intro j; simp; omega
  simp only [e1, e2] at h
  exact h

/-- C75: polling ends at the latest with the first check after the timeout. -/
theorem C75_ends (cond : R → Bool) (result : Nat → R) (now : Nat → Int) (start timeout : Int) (k : Nat)
    (h : start + timeout < now k) :
    ∃ j ≤ k, «until» cond result now start timeout (k + 1) = .returned j ∨
      «until» cond result now start timeout (k + 1) = .timedOut j := by
  obtain ⟨h1, h2, h3⟩ := C75_until cond result now start timeout (k + 1)
  cases hp : «until» cond result now start timeout (k + 1) with
  | returned j => exact ⟨j, by have := ((h1 j).1 hp).1; omega, Or.inl rfl⟩
  | timedOut j => exact ⟨j, by have := ((h2 j).1 hp).1; omega, Or.inr rfl⟩
  | polling =>
    have := (h3.1 hp k (by omega)).2
    omega

/-- The condition holds from the third check on, within the timeout; and never. -/
example : «until» (fun r => decide (2 ≤ r)) (fun k => k) (fun k => 100 + k) 100 4 10 = .returned 2 ∧
    «until» (fun r => decide (20 ≤ r)) (fun k => k) (fun k => 100 + k) 100 4 10 = .timedOut 5 := by decide

end Verif.Testing
