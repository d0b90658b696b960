import Verif.Sched.Switch
/-! # C104: switching parallel rendering while a layout is open -/
namespace Verif.Sched.Switch

/-- A render of the newest state of `x` is still to come: `x` is in the queue, or a task for it has not run, or has seen that state. -/
def Due (s : St) (x : Nat) : Prop := x ∈ s.queue ∨ ∃ r, (x, r) ∈ s.tasks ∧ (r = none ∨ r = some (s.ver x))

/-- The newest state of `x` was handed out. -/
def Shown (s : St) (x : Nat) : Prop := s.got x = s.ver x

/-! ## Lemmas -/

structure Inv (s : St) : Prop where
  due : ∀ x, Shown s x ∨ Due s x
  got : ∀ x, s.got x ≤ s.ver x
  saw : ∀ x v, (x, some v) ∈ s.tasks → v ≤ s.ver x

theorem inv_schedule (s : St) (x : Nat) (hd : ∀ y, y ≠ x → Shown s y ∨ Due s y) (hg : ∀ x, s.got x ≤ s.ver x)
    (hs : ∀ x v, (x, some v) ∈ s.tasks → v ≤ s.ver x) : Inv (schedule s x) := by
  unfold schedule
  split
  · refine ⟨fun y => ?_, hg, fun y v h => ?_⟩
    · by_cases hy : y = x
      · subst hy; exact Or.inr (Or.inr ⟨none, by simp, Or.inl rfl⟩)
      · refine (hd y hy).imp id fun h => h.imp id ?_
        rintro ⟨r, h1, h2⟩
        exact ⟨r, by simp [h1], h2⟩
    · simp only [List.mem_append, List.mem_singleton, Prod.mk.injEq, reduceCtorEq, and_false, or_false] at h
      exact hs y v h
  · split
    next hq =>
      refine ⟨fun y => ?_, hg, hs⟩
      by_cases hy : y = x
      · subst hy; exact Or.inr (Or.inl hq)
      · exact hd y hy
    next hq =>
      refine ⟨fun y => ?_, hg, hs⟩
      by_cases hy : y = x
      · subst hy; exact Or.inr (Or.inl (by simp))
      · exact (hd y hy).imp id fun h => h.imp (fun h => by simp [h]) id

theorem inv_step (s : St) (h : Inv s) (e : Ev) : Inv (step s e) := by
  cases e with
  | assign b => exact ⟨h.due, h.got, h.saw⟩
  | set x =>
    refine inv_schedule _ x (fun y hy => ?_) (fun y => ?_) (fun y v hv => ?_)
    · simpa only [Shown, Due, upd, hy, if_false] using h.due y
    · have := h.got y
      show s.got y ≤ upd s.ver x (s.ver x + 1) y
      unfold upd; split
      next hy => subst hy; omega
      next => exact this
    · have := h.saw y v hv
      show v ≤ upd s.ver x (s.ver x + 1) y
      unfold upd; split
      next hy => subst hy; omega
      next => exact this
  | run i =>
    simp only [step]
    split
    next x hi =>
      obtain ⟨hlt, hget⟩ := List.getElem?_eq_some_iff.1 hi
      refine ⟨fun y => (h.due y).imp id fun hd => hd.imp id fun ⟨r, h1, h2⟩ => ?_, h.got, fun y v hv => ?_⟩
      · rcases List.mem_or_eq_of_mem_set hv with hv | hv
        · exact h.saw y v hv
        · injection hv with h3 h4
          injection h4 with h4
          subst h3 h4
          exact Nat.le_refl _
      · skip
        obtain ⟨j, hj, hj'⟩ := List.mem_iff_getElem.1 h1
        by_cases hij : i = j
        · subst hij
          rw [hget] at hj'
          injection hj' with h3 h4
          subst h3
          exact ⟨some (s.ver x), List.mem_iff_getElem.2 ⟨i, by simpa using hlt, by simp⟩, Or.inr rfl⟩
        · exact ⟨r, List.mem_iff_getElem.2 ⟨j, by simpa using hj, by simp [hij, hj']⟩, h2⟩
    next => exact h
  | call =>
    simp only [step]
    split
    · exact ⟨h.due, h.got, h.saw⟩
    · exact h
  | take i =>
    simp only [step]
    split
    · split
      next x q hq =>
        refine ⟨fun y => ?_, fun y => ?_, h.saw⟩
        · by_cases hy : y = x
          · subst hy
            exact Or.inl (by simpa [Shown, handOut, upd] using Nat.max_eq_right (h.got y))
          · refine (h.due y).imp (fun hs => ?_) fun hd => hd.imp (fun hm => ?_) id
            · simpa [Shown, handOut, upd, hy] using hs
            · rw [hq] at hm
              simpa [handOut, hy] using hm
        · have := h.got y
          by_cases hy : y = x
          · subst hy
            simp only [handOut, upd, if_true]
            omega
          · simpa [handOut, upd, hy] using this
      next => exact h
    · split
      next x v hi =>
        obtain ⟨hlt, hget⟩ := List.getElem?_eq_some_iff.1 hi
        have hv : v ≤ s.ver x := h.saw x v (hget ▸ List.getElem_mem hlt)
        refine ⟨fun y => ?_, fun y => ?_, fun y w hw => h.saw y w (List.mem_of_mem_eraseIdx hw)⟩
        · by_cases hc : y = x ∧ v = s.ver x
          · obtain ⟨h1, h2⟩ := hc
            subst h1 h2
            exact Or.inl (by simpa [Shown, handOut, upd] using Nat.max_eq_right (h.got y))
          · rcases h.due y with hs | hd
            · refine Or.inl ?_
              unfold Shown at hs ⊢
              by_cases hy : y = x
              · subst hy
                simp only [handOut, upd, if_true]
                omega
              · simpa [handOut, upd, hy] using hs
            · refine Or.inr (hd.imp id ?_)
              rintro ⟨r, h1, h2⟩
              refine ⟨r, ?_, h2⟩
              obtain ⟨j, hj, hj'⟩ := List.mem_iff_getElem.1 h1
              have hij : j ≠ i := by
                rintro rfl
                rw [hget] at hj'
                injection hj' with h3 h4
                subst h3 h4
                rcases h2 with h2 | h2
                · cases h2
                · injection h2 with h2
                  exact hc ⟨rfl, h2⟩
              show (y, r) ∈ s.tasks.eraseIdx i
              rw [List.mem_eraseIdx_iff_getElem]
              exact ⟨j, hj, hij, hj'⟩
        · have := h.got y
          by_cases hy : y = x
          · subst hy
            simp only [handOut, upd, if_true]
            omega
          · simpa [handOut, upd, hy] using this
      next => exact h
    · exact h

theorem inv_exec (s : St) (h : Inv s) (es : List Ev) : Inv (exec s es) := by
  induction es generalizing s with
  | nil => exact h
  | cons e es ih => exact ih (step s e) (inv_step s h e)

theorem inv_start (b : Bool) (root : Nat) : Inv (start b root) :=
  inv_step _ ⟨fun _ => Or.inl (by simp [Shown]), fun _ => Nat.le_refl _, fun _ _ h => absurd h (by simp)⟩ _

/-! ## C104 -/

/-- C104: however the option is changed, no change is forgotten: the newest state of every component has been handed out by `render()`, or a render that
will see it, or has seen it, is in the queue or among the tasks. -/
theorem C104_kept (b : Bool) (root : Nat) (es : List Ev) (x : Nat) :
    Shown (exec (start b root) es) x ∨ Due (exec (start b root) es) x :=
  (inv_exec _ (inv_start b root) es).due x

/-- In one mode only: the other's work is never filled, and calls are in that mode. -/
theorem one_mode (b : Bool) (es : List Ev) (hes : ∀ c, .assign c ∈ es → c = b) (s : St)
    (h : s.async = b ∧ (b = true → s.queue = []) ∧ (b = false → s.tasks = []) ∧ (s.waiting = none ∨ s.waiting = some b)) :
    let t := exec s es
    t.async = b ∧ (b = true → t.queue = []) ∧ (b = false → t.tasks = []) ∧ (t.waiting = none ∨ t.waiting = some b) := by
  induction es generalizing s with
  | nil => exact h
  | cons e es ih =>
    refine ih (fun c hc => hes c (by simp [hc])) (step s e) ?_
    obtain ⟨h1, h2, h3, h4⟩ := h
    cases e with
    | assign c => exact ⟨hes c (by simp), h2, h3, h4⟩
    | set x =>
      simp only [step, schedule]
      split
      next ha => exact ⟨h1, h2, fun hb => by rw [h1, hb] at ha; exact absurd ha (by simp), h4⟩
      next ha =>
        have hb : b = false := by rw [← h1]; simpa using ha
        split
        · exact ⟨h1, h2, h3, h4⟩
        · exact ⟨h1, fun h => absurd (hb.symm.trans h) (by simp), h3, h4⟩
    | run i =>
      simp only [step]
      split
      next x hi => exact ⟨h1, h2, fun hb => by rw [h3 hb] at hi; simp at hi, h4⟩
      next => exact ⟨h1, h2, h3, h4⟩
    | call =>
      simp only [step]
      split
      · exact ⟨h1, h2, h3, Or.inr (by simp [h1])⟩
      · exact ⟨h1, h2, h3, h4⟩
    | take i =>
      simp only [step]
      split
      · split
        next x q hq => exact ⟨h1, fun hb => (by rw [h2 hb] at hq; cases hq), h3, Or.inl rfl⟩
        next => exact ⟨h1, h2, h3, h4⟩
      · split
        next x v hi => exact ⟨h1, h2, fun hb => (by rw [h3 hb] at hi; simp at hi), Or.inl rfl⟩
        next => exact ⟨h1, h2, h3, h4⟩
      · exact ⟨h1, h2, h3, h4⟩

/-- What a call of `render()` in progress takes from is used up: the queue is empty, or there are no tasks. -/
def Blocked (s : St) : Prop := (s.waiting = some false ∧ s.queue = []) ∨ (s.waiting = some true ∧ s.tasks = [])

/-- C104, while the option is not changed: whenever `render()` has nothing to wait for, the newest state of every component has been handed out.

Missing: with a change of the option (`C104_stuck_violated`). -/
theorem C104_unchanged_partial (b : Bool) (root : Nat) (es : List Ev) (hes : ∀ c, .assign c ∈ es → c = b)
    (h : Blocked (exec (start b root) es)) (x : Nat) : Shown (exec (start b root) es) x := by
  have hs : (start b root).async = b ∧ (b = true → (start b root).queue = []) ∧ (b = false → (start b root).tasks = []) ∧
      ((start b root).waiting = none ∨ (start b root).waiting = some b) := by
    cases b <;> simp [start, step, schedule]
  obtain ⟨-, h2, h3, h4⟩ := one_mode b es hes _ hs
  rcases C104_kept b root es x with h' | h'
  · exact h'
  · exfalso
    rcases h with ⟨hw, hq⟩ | ⟨hw, hq⟩
    · rw [hw] at h4
      have hb : b = false := by simpa using h4.symm
      rcases h' with h' | ⟨r, h', -⟩
      · rw [hq] at h'; cases h'
      · rw [h3 hb] at h'; cases h'
    · rw [hw] at h4
      have hb : b = true := by simpa using h4.symm
      rcases h' with h' | ⟨r, h', -⟩
      · rw [h2 hb] at h'; cases h'
      · rw [hq] at h'; cases h'

/-- Calls of `render()` while the option has the value `b`, each of which returns: the tasks have run, and the first is taken. -/
def drain : Nat → List Ev
  | 0 => []
  | n + 1 => .call :: .run 0 :: .take 0 :: drain n

theorem drain_queue (n : Nat) (s : St) (hw : s.waiting = none) (ha : s.async = false) (hn : s.queue.length = n) :
    (exec s (drain n)).queue = [] ∧ (exec s (drain n)).waiting = none ∧ (exec s (drain n)).tasks.length = s.tasks.length ∧
    (exec s (drain n)).ver = s.ver := by
  induction n generalizing s with
  | zero => exact ⟨List.eq_nil_of_length_eq_zero hn, hw, rfl, rfl⟩
  | succ n ih =>
    cases hq : s.queue with
    | nil => rw [hq] at hn; cases hn
    | cons x q =>
      have hl : q.length = n := by rw [hq] at hn; simpa using hn
      show (exec (step (step (step s .call) (.run 0)) (.take 0)) (drain n)).queue = [] ∧ _ ∧ _ ∧ _
      have key : ∃ t, step (step (step s .call) (.run 0)) (.take 0) = handOut { s with queue := q, tasks := t } x (s.ver x) ∧ t.length = s.tasks.length := by
        have h1 : step s .call = { s with waiting := some false } := by simp [step, hw, ha]
        rw [h1]
        cases ht : s.tasks with
        | nil => exact ⟨[], by simp [step, hq, handOut, ht], rfl⟩
        | cons k ks =>
          obtain ⟨y, r⟩ := k
          cases r with
          | none => exact ⟨(y, some (s.ver y)) :: ks, by simp [step, hq, handOut, ht], rfl⟩
          | some v => exact ⟨(y, some v) :: ks, by simp [step, hq, handOut, ht], rfl⟩
      obtain ⟨t, ht, hlen⟩ := key
      rw [show exec s (drain (n + 1)) = exec (step (step (step s .call) (.run 0)) (.take 0)) (drain n) from rfl, ht]
      obtain ⟨g1, g2, g3, g4⟩ := ih (handOut { s with queue := q, tasks := t } x (s.ver x)) rfl ha hl
      exact ⟨g1, g2, g3.trans hlen, g4⟩

theorem drain_tasks (n : Nat) (s : St) (hw : s.waiting = none) (ha : s.async = true) (hn : s.tasks.length = n) :
    (exec s (drain n)).tasks = [] ∧ (exec s (drain n)).waiting = none ∧ (exec s (drain n)).queue = s.queue ∧ (exec s (drain n)).ver = s.ver := by
  induction n generalizing s with
  | zero => exact ⟨List.eq_nil_of_length_eq_zero hn, hw, rfl, rfl⟩
  | succ n ih =>
    cases ht : s.tasks with
    | nil => rw [ht] at hn; cases hn
    | cons k ks =>
      have hl : ks.length = n := by rw [ht] at hn; simpa using hn
      obtain ⟨y, r⟩ := k
      have h1 : step s .call = { s with waiting := some true } := by simp [step, hw, ha]
      have key : ∃ v, step (step (step s .call) (.run 0)) (.take 0) = handOut { s with tasks := ks } y v := by
        rw [h1]
        cases r with
        | none => exact ⟨s.ver y, by simp [step, ht, handOut]⟩
        | some v => exact ⟨v, by simp [step, ht, handOut]⟩
      obtain ⟨v, hv⟩ := key
      rw [show exec s (drain (n + 1)) = exec (step (step (step s .call) (.run 0)) (.take 0)) (drain n) from rfl, hv]
      exact ih (handOut { s with tasks := ks } y v) rfl ha hl

/-- C104: what is left over is not lost: if `render()` is not waiting for the wrong one, then with the option off and on again for as many calls of
`render()` as there are renders to come, every component's newest state is handed out. -/
theorem C104_back (b : Bool) (root : Nat) (es : List Ev) (h : (exec (start b root) es).waiting = none) (x : Nat) :
    let s := exec (start b root) es
    let t := exec s (.assign false :: drain s.queue.length ++ .assign true :: drain s.tasks.length)
    Shown t x ∧ t.ver = s.ver := by
  intro s t
  have hi : Inv t := inv_exec _ (inv_exec _ (inv_start b root) es) _
  have e : t = exec (step (exec (step s (.assign false)) (drain s.queue.length)) (.assign true)) (drain s.tasks.length) := by
    simp [t, exec, List.foldl_append]
  obtain ⟨g1, g2, g3, g4⟩ := drain_queue s.queue.length (step s (.assign false)) h rfl rfl
  generalize exec (step s (.assign false)) (drain s.queue.length) = u at e g1 g2 g3 g4
  have g3' : u.tasks.length = s.tasks.length := g3
  obtain ⟨k1, k2, k3, k4⟩ := drain_tasks s.tasks.length (step u (.assign true)) g2 rfl g3'
  rw [← e] at k1 k2 k3 k4
  refine ⟨?_, k4.trans g4⟩
  rcases hi.due x with h' | h' | ⟨r, h', -⟩
  · exact h'
  · rw [k3] at h'
    change x ∈ u.queue at h'
    rw [g1] at h'
    cases h'
  · rw [k1] at h'; cases h'

/-- A change while the option is off, with a call begun while it was on. -/
example : (exec (start true 0) [.call, .run 0, .take 0, .assign false, .set 1, .set 1]).queue = [1] ∧
    (exec (start true 0) [.call, .run 0, .take 0, .assign false, .set 1, .set 1]).waiting = none := by decide

example : (exec (start true 0) [.call, .run 0, .take 0, .assign false, .set 1, .assign true, .set 2]).tasks = [(2, none)] := by decide

example : Blocked (exec (start false 0) [.call, .take 0, .set 1, .set 1, .call, .take 0, .call]) := by
  left; decide

/-- Stuck: a call in parallel mode without tasks, and the option off. -/
theorem stuck (x : Nat) (es : List Ev) (hes : ∀ c, Ev.assign c ∉ es) (s : St)
    (h : s.waiting = some true ∧ s.tasks = [] ∧ s.async = false ∧ s.got x < s.ver x) :
    (exec s es).got x < (exec s es).ver x := by
  induction es generalizing s with
  | nil => exact h.2.2.2
  | cons e es ih =>
    refine ih (fun c hc => hes c (by simp [hc])) (step s e) ?_
    obtain ⟨h1, h2, h3, h4⟩ := h
    cases e with
    | assign c => exact absurd List.mem_cons_self (hes c)
    | set y =>
      have : s.got x < upd s.ver y (s.ver y + 1) x := by
        unfold upd; split
        next hy => subst hy; omega
        next => exact h4
      simp only [step, schedule]
      simp only [h3, Bool.false_eq_true, if_false]
      split <;> exact ⟨h1, h2, rfl, this⟩
    | run i => simp [step, h1, h2, h3, h4]
    | call => simp [step, h1, h2, h3, h4]
    | take i => simp [step, h1, h2, h3, h4]

/-- C104 is violated when the option is turned off while `render()` waits: the change of a component, and whatever changes after it, is not handed out
for as long as the option stays off, however often the components change and the tasks run. -/
theorem C104_stuck_violated (es : List Ev) (hes : ∀ c, Ev.assign c ∉ es) :
    ¬ Shown (exec (start true 0) ([.call, .run 0, .take 0, .call, .assign false, .set 0] ++ es)) 0 := by
  have e : exec (start true 0) ([.call, .run 0, .take 0, .call, .assign false, .set 0] ++ es) =
      exec (exec (start true 0) [.call, .run 0, .take 0, .call, .assign false, .set 0]) es := by simp [exec, List.foldl_append]
  rw [e]
  have := stuck 0 es hes (exec (start true 0) [.call, .run 0, .take 0, .call, .assign false, .set 0]) (by decide)
  unfold Shown
  omega

/-- **C104**, the start: the root of a layout that was just entered was not handed out yet and is due. -/
theorem C104_root (b : Bool) (root : Nat) : ¬ Shown (start b root) root ∧ Due (start b root) root := by
  cases b <;> simp [start, step, schedule, upd, Shown, Due]

example : ¬ Shown (start true 3) 3 ∧ Shown (start true 3) 4 := by unfold Shown; decide

end Verif.Sched.Switch
