import Verif.Client.Child
/-!
# C78: imported components inside imported components
-/
namespace Verif.Client.Child
open Verif.Client

/-! ## Specification -/

/-- One call in an orderly sequence: at most one binding at a time, rendered only while it is there.  The state is the binding
there is, `none` if the order was broken. -/
def tidy1 : Option (Option Nat) → Op → Option (Option Nat)
  | some none, .bind b => some (some b)
  | some (some b), .render b' _ => if b = b' then some (some b) else none
  | some (some b), .unmount b' => if b = b' then some none else none
  | _, _ => none

/-- The binding there is after an orderly sequence of calls. -/
def tidy (ops : List Op) : Option (Option Nat) := ops.foldl tidy1 (some none)

/-- No module raises while binding. -/
def NoRaise (acts : List Act) : Prop := ∀ id, Act.load id .raises ∉ acts

/-- What was given last, after one more event. -/
def nowGiven (o : Option M) : Act → Option M
  | .give m => some m
  | _ => o

/-- The model given last. -/
def lastGiven (acts : List Act) : Option M := acts.foldl nowGiven none

/-- Whether the element is in the document after one more event. -/
def nowThere (b : Bool) : Act → Bool
  | .connect => true
  | .disconnect => false
  | _ => b

/-- The element is in the document. -/
def there (acts : List Act) : Bool := acts.foldl nowThere false

/-! ## Orderly calls -/

theorem tidy_snoc (ops : List Op) (o : Op) : tidy (ops ++ [o]) = tidy1 (tidy ops) o := by
  simp [tidy, List.foldl_append]

theorem react_snoc (ops : List Op) (o : Op) : react (ops ++ [o]) = Op.react (react ops) o := by
  simp [react, List.foldl_append]

theorem preact_snoc (ops : List Op) (o : Op) : preact (ops ++ [o]) = Op.preact (preact ops) o := by
  simp [preact, List.foldl_append]

/-- After orderly calls both kinds of bindings show the same. -/
theorem tidy_react (ops : List Op) (x : Option Nat) (h : tidy ops = some x) :
    (react ops).stale = [] ∧ (react ops).raised = false ∧ (react ops).shown = preact ops ∧
    ((react ops).users = [] ∧ preact ops = none ∨ ∃ b, x = some b ∧ (react ops).users = [b]) := by
  have key : ∀ (n : Nat) (ops : List Op), ops.length = n → ∀ x, tidy ops = some x → (react ops).stale = [] ∧
      (react ops).raised = false ∧ (react ops).shown = preact ops ∧
      ((react ops).users = [] ∧ preact ops = none ∨ ∃ b, x = some b ∧ (react ops).users = [b]) := by
    intro n
    induction n with
    | zero =>
      intro ops hl x h
      rw [List.length_eq_zero_iff] at hl
      subst hl
      exact ⟨rfl, rfl, rfl, Or.inl ⟨rfl, rfl⟩⟩
    | succ n ih =>
      intro ops hl x h
      obtain ⟨init, o, rfl⟩ : ∃ init o, ops = init ++ [o] :=
        ⟨ops.dropLast, ops.getLast (by intro e; simp [e] at hl), (List.dropLast_concat_getLast _).symm⟩
      rw [tidy_snoc] at h
      rw [react_snoc, preact_snoc]
      have ih' := ih init (by simpa using hl)
      cases ht : tidy init with
      | none => rw [ht] at h; simp [tidy1] at h
      | some y =>
        obtain ⟨h1, h2, h3, h4⟩ := ih' y ht
        rw [ht] at h
        cases o with
        | bind b =>
          cases y with
          | some c => simp [tidy1] at h
          | none =>
            simp [tidy1] at h
            have h4 : (react init).users = [] ∧ preact init = none := h4.resolve_right (by rintro ⟨b, hb, _⟩; cases hb)
            exact ⟨h1, h2, h3, Or.inl h4⟩
        | render b m =>
          cases y with
          | none => simp [tidy1] at h
          | some c =>
            simp [tidy1] at h
            obtain ⟨rfl, rfl⟩ := h
            have hu : ∀ u ∈ (react init).users, u = c := by
              rcases h4 with h4 | ⟨b, hb, h4⟩
              · simp [h4.1]
              · simp at hb; simp [h4, hb]
            refine ⟨by simp [Op.react, h1], by simp [Op.react, h1, h2], by simp [Op.react, h1, Op.preact], Or.inr ⟨c, rfl, ?_⟩⟩
            simp [Op.react, h1]
            exact hu
        | unmount b =>
          cases y with
          | none => simp [tidy1] at h
          | some c =>
            simp [tidy1] at h
            obtain ⟨rfl, rfl⟩ := h
            rcases h4 with h4 | ⟨b, hb, h4⟩
            · have : (react init).shown = none := by rw [h3, h4.2]
              exact ⟨by simp [Op.react, h1, h4.1], by simp [Op.react, h1, h4.1, h2],
                by simp [Op.react, h1, h4.1, Op.preact, this], Or.inl ⟨by simp [Op.react, h1, h4.1], rfl⟩⟩
            · simp at hb
              subst hb
              exact ⟨by simp [Op.react, h1, h4], by simp [Op.react, h1, h4, h2],
                by simp [Op.react, h1, h4, Op.preact], Or.inl ⟨by simp [Op.react, h1, h4], rfl⟩⟩
  exact key ops.length ops rfl x h

/-! ## The element -/

/-- What always holds, if no module raises while binding. -/
structure Inv (s : State) : Prop where
  tidy : tidy s.ops = some s.binding
  shown : preact s.ops = match s.binding with
    | some _ => s.model.map M.id
    | none => none
  model : s.binding ≠ none ∨ s.cur ≠ none → s.model ≠ none
  cur : ∀ b m, s.binding = some b → s.model = some m → s.cur = some m.src
  cur2 : ∀ c m, s.cur = some c → s.model = some m → c = m.src
  conn : s.conn = false → s.binding = none

theorem drop_eq (s : State) (h : Inv s) : ∃ ops, drop s = { s with binding := none, ops := ops } ∧ tidy ops = some none ∧
    preact ops = none := by
  unfold drop
  cases hb : s.binding with
  | none =>
    refine ⟨s.ops, ?_, ?_, ?_⟩
    · cases s; simp_all
    · rw [h.tidy, hb]
    · rw [h.shown, hb]
  | some b =>
    refine ⟨_, rfl, ?_, ?_⟩
    · rw [tidy_snoc, h.tidy, hb]; simp [tidy1]
    · rw [preact_snoc]; rfl

theorem inv_give (m : M) (s : State) (h : Inv s) : Inv (give m s) := by
  unfold give
  simp only
  cases hb : s.binding with
  | none =>
    refine ⟨?_, ?_, by simp, ?_, by simp, ?_⟩
    · have := h.tidy; rw [hb] at this; exact this
    · have := h.shown; rw [hb] at this; exact this
    · intro b m' hb'; simp at hb'
    · simp
  | some b =>
    simp only
    split
    next hc =>
      refine ⟨?_, ?_, by simp, ?_, by simp [hc], ?_⟩
      · simp [tidy_snoc, h.tidy, hb, tidy1]
      · simp [preact_snoc, Op.preact]
      · intro b' m' _ hm'
        simp at hm'
        subst hm'
        exact hc
      · intro hcn
        have := h.conn hcn
        simp [hb] at this
    next hc =>
      have e : drop { conn := s.conn, model := some m, binding := some b, cur := s.cur, waiting := s.waiting, next := s.next, ops := s.ops } =
          { s with model := some m, binding := none, ops := s.ops ++ [.unmount b] } := by simp [drop]
      rw [e]
      refine ⟨?_, ?_, by simp, ?_, by simp, by simp⟩
      · simp [tidy_snoc, h.tidy, hb, tidy1]
      · simp [preact_snoc, Op.preact]
      · intro b' m' hb'; simp at hb'

theorem inv_loaded (src : Nat) (o : Loaded) (ho : o ≠ .raises) (s : State) (h : Inv s) : Inv (loaded src o s) := by
  unfold loaded
  split
  next hc =>
    obtain ⟨ops, e, ht, hp⟩ := drop_eq s h
    cases o with
    | raises => exact absurd rfl ho
    | failed => exact h
    | improper =>
      simp only [e]
      exact ⟨ht, hp, fun hh => h.model (hh.imp (by simp) id), by intro b m hb; simp at hb, h.cur2, by simp⟩
    | proper =>
      simp only [e]
      cases hm : s.model with
      | none =>
        exact absurd hm (h.model (Or.inr (by simp [hc.2])))
      | some m =>
        have hcs := h.cur2 src m hc.2 hm
        refine ⟨?_, ?_, by simp, ?_, fun c m' h1 h2 => h.cur2 c m' h1 (hm.trans h2), by simp [hc.1]⟩
        · have : ops ++ [.bind s.next, .render s.next m.id] = ops ++ [.bind s.next] ++ [.render s.next m.id] := by simp
          simp only
          rw [this, tidy_snoc, tidy_snoc, ht]
          simp [tidy1]
        · have : ops ++ [.bind s.next, .render s.next m.id] = ops ++ [.bind s.next] ++ [.render s.next m.id] := by simp
          simp only
          rw [this, preact_snoc]
          simp [Op.preact]
        · intro b m' _ hm'
          simp at hm'
          subst hm'
          simp [hc.2, hcs]
  · exact h

theorem inv_step (s : State) (a : Act) (ha : ∀ id, a ≠ .load id .raises) (h : Inv s) : Inv (step s a) := by
  cases a with
  | connect => exact ⟨h.tidy, h.shown, h.model, h.cur, h.cur2, by simp [step]⟩
  | disconnect =>
    unfold step
    simp only
    cases hb : s.binding with
    | none =>
      have h' : Inv { s with conn := false } := ⟨h.tidy, h.shown, h.model, h.cur, h.cur2, fun _ => hb⟩
      rw [hb] at h'
      exact h'
    | some b =>
      refine ⟨?_, ?_, by simp, by simp, by simp, by simp⟩
      · simp [tidy_snoc, h.tidy, hb, tidy1]
      · simp [preact_snoc, Op.preact]
  | give m => exact inv_give m s h
  | load id o =>
    unfold step
    simp only
    split
    · exact inv_loaded _ o (fun e => ha id (by rw [e])) _ ⟨h.tidy, h.shown, h.model, h.cur, h.cur2, h.conn⟩
    · exact h

theorem loaded_keeps (src : Nat) (o : Loaded) (s : State) : (loaded src o s).model = s.model ∧ (loaded src o s).conn = s.conn ∧
    (loaded src o s).cur = s.cur ∧ (loaded src o s).waiting = s.waiting := by
  have hd : (drop s).model = s.model ∧ (drop s).conn = s.conn ∧ (drop s).cur = s.cur ∧ (drop s).waiting = s.waiting := by
    unfold drop
    split <;> simp
  unfold loaded
  split
  · cases o with
    | failed => simp
    | raises => simp only; split <;> simp
    | improper => exact hd
    | proper => simp only; split <;> exact hd
  · simp

theorem step_model (s : State) (a : Act) : (step s a).model = nowGiven s.model a := by
  cases a with
  | connect => rfl
  | disconnect => unfold step; simp only; split <;> rfl
  | give m =>
    unfold step give
    simp only
    split
    · split
      · rfl
      · unfold drop; split <;> rfl
    · rfl
  | load id o =>
    unfold step
    simp only
    split
    · exact (loaded_keeps _ o _).1
    · rfl

theorem inv_run (acts : List Act) (h : NoRaise acts) : Inv (run acts) ∧ (run acts).model = lastGiven acts := by
  have key : ∀ (acts : List Act) (s : State) (o : Option M), NoRaise acts → Inv s → s.model = o →
      Inv (acts.foldl step s) ∧ (acts.foldl step s).model = acts.foldl nowGiven o := by
    intro acts
    induction acts with
    | nil => exact fun s o _ h1 h2 => ⟨h1, h2⟩
    | cons a as ih =>
      intro s o hn h1 h2
      refine ih _ _ (fun id hm => hn id (by simp [hm])) (inv_step s a (fun id e => hn id (by simp [e])) h1) ?_
      rw [step_model, h2]
  exact key acts {} none h ⟨rfl, rfl, by simp, by simp, by simp, by simp⟩ rfl

/-! ## Properties -/

/-- C78, if no module raises while binding: bindings are unmounted before others take their place, and rendered only before
they are unmounted.

Missing: modules that raise (`C78_raises_violated`). -/
theorem C78_orderly_partial (acts : List Act) (h : NoRaise acts) : tidy (run acts).ops ≠ none := by
  simp [(inv_run acts h).1.tidy]

theorem conn_there (acts : List Act) : (run acts).conn = there acts := by
  have key : ∀ (acts : List Act) (s : State) (b : Bool), s.conn = b → (acts.foldl step s).conn = acts.foldl nowThere b := by
    intro acts
    induction acts with
    | nil => intro s b h; exact h
    | cons a as ih =>
      intro s b h
      refine ih _ _ ?_
      cases a with
      | connect => rfl
      | disconnect => simp only [step]; split <;> rfl
      | give m =>
        simp only [step, nowThere, ← h, give, drop]
        repeat' split
        all_goals rfl
      | load id o =>
        simp only [step, nowThere, ← h, loaded, drop]
        repeat' split
        all_goals rfl
  exact key acts {} false rfl

/-- C78, if no module raises while binding: with either kind of bindings, the element shows nothing or the model given last;
nothing while it is not in the document.

Missing: modules that raise. -/
theorem C78_newest_partial (acts : List Act) (h : NoRaise acts) (i : Nat) (hi : (react (run acts).ops).shown = some i ∨
    preact (run acts).ops = some i) :
    (lastGiven acts).map M.id = some i ∧ there acts = true := by
  rw [← conn_there]
  obtain ⟨hv, hm⟩ := inv_run acts h
  have hs := (tidy_react _ _ hv.tidy).2.2.1
  have hi : preact (run acts).ops = some i := hi.elim (fun h => hs ▸ h) id
  rw [hv.shown] at hi
  cases hb : (run acts).binding with
  | none => simp [hb] at hi
  | some b =>
    simp [hb] at hi
    refine ⟨by rw [← hm]; simpa using hi, ?_⟩
    cases hc : (run acts).conn with
    | true => rfl
    | false => simp [hv.conn hc] at hb

/-- Given a model in the document, and until another event: it is shown or a load of its module is being waited for. -/
def Soon (m : M) (s : State) : Prop :=
  s.conn = true ∧ s.model = some m ∧ s.cur = some m.src ∧ (s.binding = none → ∃ id, (id, m.src) ∈ s.waiting)

theorem soon_give (m : M) (s : State) (hc : s.conn = true) : Soon m (give m s) := by
  unfold give Soon
  simp only
  cases hb : s.binding with
  | none => exact ⟨hc, rfl, rfl, fun _ => ⟨s.next, by simp⟩⟩
  | some b =>
    simp only
    split
    next h => exact ⟨hc, rfl, h, by simp⟩
    · refine ⟨by simpa [drop] using hc, by simp [drop], rfl, fun _ => ⟨s.next, by simp⟩⟩

/-- Load numbers are used once. -/
def Uniq (s : State) : Prop := (∀ w ∈ s.waiting, w.1 < s.next) ∧ ∀ w ∈ s.waiting, ∀ v ∈ s.waiting, w.1 = v.1 → w = v

theorem uniq_loaded (src : Nat) (o : Loaded) (s : State) (h : Uniq s) : Uniq (loaded src o s) := by
  have hk := (loaded_keeps src o s).2.2.2
  have hn : s.next ≤ (loaded src o s).next := by
    have hd : (drop s).next = s.next := by unfold drop; split <;> simp
    unfold loaded
    split
    · cases o with
      | failed => simp
      | raises => simp only; split <;> simp
      | improper => simp [hd]
      | proper => simp only; split <;> simp [hd]
    · simp
  unfold Uniq
  rw [hk]
  exact ⟨fun w hw => Nat.lt_of_lt_of_le (h.1 w hw) hn, h.2⟩

theorem uniq_step (s : State) (a : Act) (h : Uniq s) : Uniq (step s a) := by
  cases a with
  | connect => exact h
  | disconnect => unfold step; simp only; split <;> exact h
  | give m =>
    have hnew : ∀ t : State, t.waiting = s.waiting ++ [(s.next, m.src)] → t.next = s.next + 1 → Uniq t := by
      intro t h1 h2
      unfold Uniq
      rw [h1, h2]
      refine ⟨?_, ?_⟩
      · intro w hw
        simp at hw
        rcases hw with hw | rfl
        · have := h.1 w hw; omega
        · simp
      · intro w hw v hv e
        simp at hw hv
        rcases hw with hw | rfl <;> rcases hv with hv | rfl
        · exact h.2 w hw v hv e
        · have := h.1 w hw; simp at e; omega
        · have := h.1 v hv; simp at e; omega
        · rfl
    unfold step give
    simp only
    split
    · split
      · exact h
      · exact hnew _ rfl rfl
    · exact hnew _ rfl rfl
  | load id o =>
    unfold step
    simp only
    split
    · apply uniq_loaded
      exact ⟨fun w hw => h.1 w (List.mem_filter.1 hw).1,
        fun w hw v hv e => h.2 w (List.mem_filter.1 hw).1 v (List.mem_filter.1 hv).1 e⟩
    · exact h

theorem uniq_run (acts : List Act) : Uniq (run acts) := by
  have key : ∀ (acts : List Act) (s : State), Uniq s → Uniq (acts.foldl step s) := by
    intro acts
    induction acts with
    | nil => exact fun _ h => h
    | cons a as ih => exact fun s h => ih _ (uniq_step s a h)
  exact key acts {} ⟨by simp, by simp⟩

theorem soon_load (m : M) (s : State) (id : Nat) (hu : Uniq s) (h : Soon m s) : Soon m (step s (.load id .proper)) := by
  obtain ⟨h1, h2, h3, h4⟩ := h
  unfold step
  simp only
  split
  next w hw =>
    have hk := loaded_keeps w.2 .proper { s with waiting := s.waiting.filter (·.1 ≠ id) }
    refine ⟨by rw [hk.2.1]; exact h1, by rw [hk.1]; exact h2, by rw [hk.2.2.1]; exact h3, ?_⟩
    intro hb
    rw [hk.2.2.2]
    have hwm := List.mem_of_find?_eq_some hw
    have hwi : w.1 = id := by simpa using List.find?_some hw
    by_cases hs : w.2 = m.src
    · exfalso
      unfold loaded at hb
      have hd : (drop { s with waiting := s.waiting.filter (·.1 ≠ id) }).model = some m := by
        unfold drop; split <;> simp [h2]
      rw [if_pos ⟨h1, by rw [h3, hs]⟩] at hb
      simp only [hd] at hb
      cases hb
    · have hb' : s.binding = none := by
        unfold loaded at hb
        have : ¬ (s.conn = true ∧ s.cur = some w.2) := by
          rintro ⟨_, h⟩
          rw [h3] at h
          exact hs (Option.some.inj h).symm
        rw [if_neg this] at hb
        exact hb
      obtain ⟨i, hi⟩ := h4 hb'
      refine ⟨i, ?_⟩
      simp only [List.mem_filter]
      refine ⟨hi, ?_⟩
      simp only [ne_eq, decide_not, Bool.not_eq_true', decide_eq_false_iff_not]
      intro e
      have := hu.2 _ hi w hwm (by simp [hwi, e])
      exact hs (by rw [← this])
  · exact ⟨h1, h2, h3, h4⟩

/-- C78: a model given while the element is in the document is shown as soon as everything that was loading has been loaded,
in whatever order, if the element stays there and no module raised while binding.

Missing: elements moved in the document (`C78_moved_violated`). -/
theorem C78_shown_partial (before : List Act) (m : M) (after : List Act) (hn : NoRaise before)
    (hc : there before = true) (ha : ∀ a ∈ after, ∃ id, a = .load id .proper)
    (hw : (run (before ++ .give m :: after)).waiting = []) :
    preact (run (before ++ .give m :: after)).ops = some m.id ∧
    (react (run (before ++ .give m :: after)).ops).shown = some m.id := by
  have hna : NoRaise (before ++ .give m :: after) := by
    intro id hm
    simp at hm
    rcases hm with hm | hm
    · exact hn id hm
    · obtain ⟨i, e⟩ := ha _ hm
      simp at e
  have key : ∀ (after : List Act) (s : State), (∀ a ∈ after, ∃ id, a = .load id .proper) → Uniq s → Soon m s →
      Soon m (after.foldl step s) := by
    intro after
    induction after with
    | nil => exact fun _ _ _ h => h
    | cons a as ih =>
      intro s ha hu h
      obtain ⟨id, rfl⟩ := ha a (by simp)
      exact ih _ (fun a hm => ha a (by simp [hm])) (uniq_step s _ hu) (soon_load m s id hu h)
  have hs : Soon m (run (before ++ .give m :: after)) := by
    have e : run (before ++ .give m :: after) = after.foldl step (step (run before) (.give m)) := by
      simp [run, List.foldl_append]
    rw [e]
    exact key after _ ha (uniq_step _ _ (uniq_run before)) (soon_give m _ ((conn_there before).trans hc))
  have hv := (inv_run _ hna).1
  have ht := (tidy_react _ _ hv.tidy).2.2.1
  rw [ht]
  generalize run (before ++ .give m :: after) = s at *
  have : preact s.ops = some m.id := by
    rw [hv.shown]
    cases hb : s.binding with
    | none =>
      obtain ⟨i, hi⟩ := hs.2.2.2 hb
      simp [hw] at hi
    | some b => simp [hs.2.1]
  exact ⟨this, this⟩

/-- Two models of different modules in quick succession, whose loads end the other way round. -/
example : NoRaise [.connect, .give ⟨1, 10⟩] ∧ there [.connect, .give ⟨1, 10⟩] = true ∧
    (run ([.connect, .give ⟨1, 10⟩] ++ .give ⟨2, 20⟩ :: [.load 1 .proper, .load 0 .proper])).waiting = [] ∧
    preact (run ([.connect, .give ⟨1, 10⟩] ++ .give ⟨2, 20⟩ :: [.load 1 .proper, .load 0 .proper])).ops = some 20 := by
  refine ⟨?_, by decide, by decide, by decide⟩
  intro id h
  simp at h

/-- C78 is violated for an element that is moved in the document (a component that reorders its children): it is unmounted and
nothing shows it again, though it is in the document, has its model, and nothing is loading. -/
theorem C78_moved_violated (m : M) :
    let acts := [.connect, .give m, .load 0 .proper, .disconnect, .connect]
    let s := run acts
    there acts = true ∧ lastGiven acts = some m ∧ s.waiting = [] ∧ preact s.ops = none ∧ (react s.ops).shown = none := by
  simp [there, nowThere, lastGiven, nowGiven, run, step, give, loaded, drop, preact, react, Op.preact, Op.react]

/-- C78 is violated for an element that is out of the document when its module arrives: nothing shows it later. -/
theorem C78_meanwhile_violated (m : M) :
    let acts := [.connect, .give m, .disconnect, .load 0 .proper, .connect]
    let s := run acts
    there acts = true ∧ lastGiven acts = some m ∧ s.waiting = [] ∧ preact s.ops = none ∧ (react s.ops).shown = none := by
  simp [there, nowThere, lastGiven, nowGiven, run, step, give, loaded, preact, react]

/-- C78 is violated by a module that raises while binding for the second time: the unmounted binding is kept and rendered. -/
theorem C78_raises_violated (m : M) :
    (run [.connect, .give m, .give m, .load 0 .proper, .load 1 .raises, .give m]).ops =
      [.bind 2, .render 2 m.id, .unmount 2, .render 2 m.id] ∧
    tidy (run [.connect, .give m, .give m, .load 0 .proper, .load 1 .raises, .give m]).ops = none := by
  simp [run, step, give, loaded, drop, tidy, tidy1]

/-! ### Cases that meet the hypotheses -/

example := C78_orderly_partial [.connect, .give ⟨1, 10⟩, .give ⟨2, 20⟩, .load 1 .proper, .load 0 .proper] (fun id h => by simp at h)
example := C78_newest_partial [.connect, .give ⟨1, 10⟩, .give ⟨2, 20⟩, .load 1 .proper, .load 0 .proper] (fun id h => by simp at h) 20 (.inr (by decide))

end Verif.Client.Child
