import Verif.Hooks.Lemmas
/-!
# Properties of hook state (C19–C24, C26, C28)
-/
namespace Verif.Hooks
variable {V : Type}

/-! ## C19 — hook state is positional and stable -/

/-- In every history of any number of instances: the object an instance gets at a call position is
always the same one. -/
theorem C19_stable (ops : List (Op V)) (i k r r' : Nat)
    (h : .got i k r ∈ ((({} : World V).run ops).log)) (h' : .got i k r' ∈ ((({} : World V).run ops).log)) : r = r' := by
  have hw := cinv_run ops (cinv_init (V := V))
  have h1 := hw.got i k r h
  rw [hw.got i k r' h'] at h1
  exact (Option.some.inj h1).symm

/-- Two instances, or two call positions of one instance, never get the same object. -/
theorem C19_not_shared (ops : List (Op V)) (i j k l r : Nat)
    (h : .got i k r ∈ ((({} : World V).run ops).log)) (h' : .got j l r ∈ ((({} : World V).run ops).log)) : i = j ∧ k = l := by
  have hw := cinv_run ops (cinv_init (V := V))
  exact hw.inj i j k l r (hw.got i k r h) (hw.got j l r h')

/-- The object at a position was made there, exactly once, and before the end of the first render of
the instance (the log is newest first). -/
theorem C19_made (ops : List (Op V)) (i k r : Nat) (h : .got i k r ∈ ((({} : World V).run ops).log)) :
    ∃ l1 l2 v, (({} : World V).run ops).log = l1 ++ .made i k r v :: l2 ∧ .did i ∉ l2 ∧
      ∀ r' v', .made i k r' v' ∈ (({} : World V).run ops).log → r' = r ∧ v' = v := by
  have hw := cinv_run ops (cinv_init (V := V))
  obtain ⟨v, hv⟩ := hw.has i k r (hw.got i k r h)
  obtain ⟨l1, l2, hl⟩ := List.mem_iff_append.1 hv
  refine ⟨l1, l2, v, hl, hw.first l1 l2 i k r v hl, ?_⟩
  intro r' v' hm
  have h1 := hw.made i k r' v' hm
  rw [hw.got i k r h] at h1
  obtain rfl := Option.some.inj h1
  exact ⟨rfl, hw.val i k _ v' v hm hv⟩

/-- An object holds the value it was made with or, if there was one, the last value written to that
very object (`latest` reads this off the history). -/
theorem C19_contents (ops : List (Op V)) (r : Nat) :
    (({} : World V).run ops).heap[r]? = latest r (({} : World V).run ops).log := by
  exact (latest_run ops {} (by intro r; simp [latest]) r).symm

/-- Every hook call is answered, and by position: the call after `k` answered calls of the render gets the
object at position `k`, made by it with the initial value if this is the first render.  It raises only if
it would have to make its object in a later render, or if computing the initial value raises. -/
theorem C19_answer (ops : List (Op V)) (i : Nat) (init : Except Unit V) :
    let log := (({} : World V).run ops).log
    let new := ((({} : World V).run ops).step (.use i init)).log
    (.did i ∈ log → position i log < madeFor i log → ∃ r, new = .got i (position i log) r :: log) ∧
    (.did i ∈ log → madeFor i log ≤ position i log → new = .raised i (position i log) :: log) ∧
    (.did i ∉ log → match init with
      | .ok v => ∃ r, new = .got i (position i log) r :: .made i (position i log) r v :: log
      | .error _ => new = .raised i (position i log) :: log) := by
  have hp := pinv_run ops (pinv_init (V := V))
  generalize ({} : World V).run ops = w at *
  simp only
  refine ⟨fun hd hlt => ?_, fun hd hlt => ?_, fun hd => ?_⟩
  · have hr : (w.hooks i).rendered = true := (hp.did i).2 hd
    simp only [World.step, hr, Bool.true_eq_false, if_false, ← hp.pos i, ← hp.len i] at hlt ⊢
    rw [List.getElem?_eq_getElem hlt]
    exact ⟨_, rfl⟩
  · have hr : (w.hooks i).rendered = true := (hp.did i).2 hd
    simp only [World.step, hr, Bool.true_eq_false, if_false, ← hp.pos i, ← hp.len i] at hlt ⊢
    rw [List.getElem?_eq_none (by omega)]
  · have hr : (w.hooks i).rendered = false := by
      cases h : (w.hooks i).rendered with
      | false => rfl
      | true => exact absurd ((hp.did i).1 h) hd
    simp only [World.step, hr, if_true, ← hp.pos i]
    cases init with
    | ok v => exact ⟨_, rfl⟩
    | error e => rfl

/-- Two instances with two hooks each, rendered twice with a write in between. -/
def exOps : List (Op Nat) :=
  [.use 0 (.ok 10), .use 1 (.ok 20), .use 0 (.ok 11), .did 0, .use 1 (.ok 21), .did 1, .write 0 99,
   .use 0 (.ok 10), .use 0 (.ok 11), .did 0]
example : .got 0 1 2 ∈ (({} : World Nat).run exOps).log ∧ .got 1 1 3 ∈ (({} : World Nat).run exOps).log ∧
    (({} : World Nat).run exOps).heap = [99, 20, 11, 21] ∧ .made 0 0 0 10 ∈ (({} : World Nat).run exOps).log := by
  simp [exOps, World.run, World.step, World.set]

/-! ## C24 — recovering from a failed first render -/

/-- A render of `i` that makes these hook calls one after the other. -/
def render (i : Nat) (calls : List (Except Unit V)) : List (Op V) := calls.map (.use i) ++ [.did i]

/-- If the first render got through all its hook calls (and possibly raised afterwards), then no hook
call of any later render with at most that many calls raises.
Missing for the full C24: first renders that raise before or between their hook calls. -/
theorem C24_recovers_partial (i : Nat) (first : List V) (later : List (List (Except Unit V)))
    (hl : ∀ c ∈ later, c.length ≤ first.length) (k : Nat) :
    .raised i k ∉ (({} : World V).run (render i (first.map .ok) ++ (later.map (render i)).flatten)).log := by
  rw [run_append]
  have h0 := uses_first i first ({} : World V) rfl
  have hmap : (first.map Except.ok).map (Op.use i) = first.map (fun v => Op.use i (.ok v)) := by
    rw [List.map_map]; rfl
  generalize hw : ({} : World V).run (render i (first.map .ok)) = w
  have hstart : (w.hooks i).rendered = true ∧ (w.hooks i).index = 0 ∧ (w.hooks i).state.length = first.length ∧
      .raised i k ∉ w.log := by
    rw [← hw, render, run_append, hmap]
    obtain ⟨_, h2, h3⟩ := h0
    refine ⟨by simp [World.run, World.step, set_self], by simp [World.run, World.step, set_self], ?_, ?_⟩
    · simp only [World.run, List.foldl_cons, List.foldl_nil, World.step, set_self] at h2 ⊢
      rw [h2]; simp
    · intro hm
      have hm' : .raised i k ∈ (({} : World V).run (first.map (fun v => .use i (.ok v)))).log := by
        simpa [World.run, World.step] using hm
      have := h3 k hm'
      simp at this
  clear hw h0
  induction later generalizing w with
  | nil => simpa [World.run] using hstart.2.2.2
  | cons c later ih =>
    obtain ⟨h1, h2, h3, h4⟩ := hstart
    simp only [List.map_cons, List.flatten_cons, run_append]
    apply ih (fun c hc => hl c (by simp [hc]))
    have := uses_ok i c w h1 (by rw [h2, h3]; have := hl c (by simp); omega)
    obtain ⟨g1, g2, g3, g4⟩ := this
    rw [render, run_append]
    refine ⟨by simp [World.run, World.step, set_self], by simp [World.run, World.step, set_self], ?_, ?_⟩
    · simp only [World.run, List.foldl_cons, List.foldl_nil, World.step, set_self] at g3 ⊢
      rw [g3]; exact h3
    · intro hm
      exact h4 (g4 k (by simpa [World.run, World.step] using hm))

example : ∀ c ∈ ([[.ok 5, .ok 6], [.ok 7, .ok 8]] : List (List (Except Unit Nat))), c.length ≤ ([1, 2] : List Nat).length := by decide

/-- A component that raises in its first render after `k` hook calls and makes more calls later never
recovers: each later render raises at call position `k` (`IndexError`), without exception. -/
theorem C24_recovers_violated (i : Nat) (first : List V) (later : List (List (Except Unit V)))
    (hl : ∀ c ∈ later, c.length = first.length + 1) :
    (({} : World V).run (render i (first.map .ok) ++ (later.map (render i)).flatten)).log.countP
      (fun e => match e with | .raised j k => j == i && k == first.length | _ => false) = later.length := by
  rw [run_append]
  have h0 := uses_first i first ({} : World V) rfl
  have hmap : (first.map Except.ok).map (Op.use i) = first.map (fun v => Op.use i (.ok v)) := by
    rw [List.map_map]; rfl
  have hcnt : ∀ l : List (Ev V), (∀ k, .raised i k ∉ l) → l.countP
      (fun e => match e with | .raised j k => j == i && k == first.length | _ => false) = 0 := by
    intro l h
    rw [List.countP_eq_zero]
    intro e he
    cases e <;> simp
    rename_i j k
    intro hj _
    subst hj
    exact h k he
  generalize hw : ({} : World V).run (render i (first.map .ok)) = w
  have hstart : (w.hooks i).rendered = true ∧ (w.hooks i).index = 0 ∧ (w.hooks i).state.length = first.length ∧
      w.log.countP (fun e => match e with | .raised j k => j == i && k == first.length | _ => false) = 0 := by
    rw [← hw, render, run_append, hmap]
    obtain ⟨_, h2, h3⟩ := h0
    refine ⟨by simp [World.run, World.step, set_self], by simp [World.run, World.step, set_self], ?_, ?_⟩
    · simp only [World.run, List.foldl_cons, List.foldl_nil, World.step, set_self] at h2 ⊢
      rw [h2]; simp
    · apply hcnt
      intro k hm
      have hm' : .raised i k ∈ (({} : World V).run (first.map (fun v => .use i (.ok v)))).log := by
        simpa [World.run, World.step] using hm
      have := h3 k hm'
      simp at this
  clear hw h0
  have key : ∀ (n : Nat) (w : World V), (w.hooks i).rendered = true → (w.hooks i).index = 0 → (w.hooks i).state.length = first.length →
      w.log.countP (fun e => match e with | .raised j k => j == i && k == first.length | _ => false) = n →
      (w.run (later.map (render i)).flatten).log.countP
        (fun e => match e with | .raised j k => j == i && k == first.length | _ => false) = n + later.length := by
    intro n w h1 h2 h3 h4
    clear hstart hcnt hmap
    induction later generalizing n w with
    | nil => simpa [World.run] using h4
    | cons c later ih =>
      simp only [List.map_cons, List.flatten_cons, run_append, List.length_cons]
      have hc := hl c (by simp)
      obtain ⟨c', a, rfl⟩ : ∃ c' a, c = c' ++ [a] := by
        rcases List.eq_nil_or_concat c with rfl | ⟨c', a, rfl⟩
        · simp at hc
        · exact ⟨c', a, by simp⟩
      simp only [List.length_append, List.length_singleton] at hc
      have hc' : c'.length = first.length := by omega
      have main : ∀ (m : Nat) (cs : List (Except Unit V)) (w : World V), (w.hooks i).rendered = true →
          (w.hooks i).index + cs.length = first.length → (w.hooks i).state.length = first.length →
          w.log.countP (fun e => match e with | .raised j k => j == i && k == first.length | _ => false) = m →
          ((w.run (cs.map (.use i))).hooks i).rendered = true ∧ ((w.run (cs.map (.use i))).hooks i).index = first.length ∧
          ((w.run (cs.map (.use i))).hooks i).state.length = first.length ∧
          (w.run (cs.map (.use i))).log.countP (fun e => match e with | .raised j k => j == i && k == first.length | _ => false) = m := by
        intro m cs
        induction cs with
        | nil => intro w a1 a2 a3 a4; exact ⟨a1, by simpa [World.run] using a2, a3, a4⟩
        | cons x cs ihc =>
          intro w a1 a2 a3 a4
          simp only [List.length_cons] at a2
          have hlt : (w.hooks i).index < (w.hooks i).state.length := by omega
          have hstep : w.step (.use i x) = { w with
              hooks := w.set i { (w.hooks i) with index := (w.hooks i).index + 1 }
              log := .got i (w.hooks i).index ((w.hooks i).state[(w.hooks i).index]) :: w.log } := by
            simp only [World.step, a1, Bool.true_eq_false, if_false]
            rw [List.getElem?_eq_getElem hlt]
          exact ihc (w.step (.use i x)) (by rw [hstep]; simp [set_self, a1]) (by rw [hstep]; simp [set_self]; omega)
            (by rw [hstep]; simp [set_self, a3]) (by rw [hstep]; simp [a4])
      have hm := main n c' w h1 (by omega) h3 h4
      rw [render, List.map_append, List.append_assoc, run_append]
      obtain ⟨g1, g2, g3, g4⟩ := hm
      generalize w.run (c'.map (.use i)) = w1 at g1 g2 g3 g4
      have hstep : w1.step (.use i a) = { w1 with log := .raised i first.length :: w1.log } := by
        simp only [World.step, g1, Bool.true_eq_false, if_false]
        rw [List.getElem?_eq_none (by omega), g2]
      have : w1.run ([a].map (.use i) ++ [.did i]) = (w1.step (.use i a)).step (.did i) := rfl
      rw [this, hstep]
      rw [ih (fun c hc => hl c (by simp [hc])) (n + 1)]
      · omega
      · simp [World.step, set_self]
      · simp [World.step, set_self]
      · simpa [World.step, set_self] using g3
      · simp only [World.step]
        rw [List.countP_cons_of_neg (by simp), List.countP_cons_of_pos (by simp), g4]
  have := key 0 w hstart.1 hstart.2.1 hstart.2.2.1 hstart.2.2.2
  rw [this]; omega

/-- For instance: the first render raises after one of its two hooks; three later renders make both. -/
example : ∀ c ∈ ([[.ok 5, .ok 6], [.ok 5, .ok 6], [.ok 5, .ok 6]] : List (List (Except Unit Nat))), c.length = ([1] : List Nat).length + 1 := by decide

/-! ## C20 — state updates -/

/-- What the user expects of a setter call. -/
def plain {S} (s : S) : Upd S → S
  | .val v => v
  | .fn f => match f s with | .ok v => v | .error _ => s

def SOp.upd? {S} : SOp S → Option (Upd S)
  | .set u => some u
  | .render => none

/-- A functional update that cannot tell equal values apart. -/
def Upd.Respects {S} (eq : S → S → Bool) : Upd S → Prop
  | .val _ => True
  | .fn f => ∀ s t, eq s t = true → match f s, f t with
    | .ok a, .ok b => eq a b = true
    | .error _, .error _ => True
    | _, _ => False

theorem dispatch_eq {S} {eq : S → S → Bool} (he : Equiv eq) {u : Upd S} (hu : u.Respects eq) {s t : S}
    (h : eq s t = true) : eq (dispatch eq s u).1 (plain t u) = true := by
  cases u with
  | val v =>
    simp only [dispatch, plain, Upd.next]
    split
    · rename_i hv; exact he.symm _ _ hv
    · exact he.refl v
  | fn f =>
    have hf := hu s t h
    simp only [dispatch, plain, Upd.next]
    cases h1 : f s with
    | error e =>
      cases h2 : f t with
      | error e' => exact h
      | ok b => rw [h1, h2] at hf; exact hf.elim
    | ok a =>
      cases h2 : f t with
      | error e' => rw [h1, h2] at hf; exact hf.elim
      | ok b =>
        rw [h1, h2] at hf
        simp only
        split
        · rename_i ha; exact he.trans _ _ _ (he.symm _ _ ha) hf
        · exact hf

/-- After any history of setter calls and renders the state equals, up to the library's equality, the
left fold of the updates over the initial value. -/
theorem C20_fold {S} {eq : S → S → Bool} (he : Equiv eq) (s : S) (ops : List (SOp S))
    (hu : ∀ u, .set u ∈ ops → u.Respects eq) :
    eq (runState eq s ops).2 ((ops.filterMap SOp.upd?).foldl plain s) = true := by
  have : ∀ t, eq s t = true → eq (runState eq s ops).2 ((ops.filterMap SOp.upd?).foldl plain t) = true := by
    induction ops generalizing s with
    | nil => intro t ht; exact ht
    | cons o ops ih =>
      intro t ht
      cases o with
      | set u =>
        simp only [runState, List.filterMap_cons, SOp.upd?, List.foldl_cons]
        exact ih _ (fun u hm => hu u (by simp [hm])) _ (dispatch_eq he (hu u (by simp)) ht)
      | render =>
        simp only [runState, List.filterMap_cons, SOp.upd?]
        exact ih s (fun u hm => hu u (by simp [hm])) t ht
  exact this s (he.refl s)

/-- Where the library's equality is Python equality of the values themselves, the fold is exact. -/
theorem C20_fold_exact {S} [DecidableEq S] (s : S) (ops : List (SOp S)) :
    (runState (fun a b => decide (a = b)) s ops).2 = (ops.filterMap SOp.upd?).foldl plain s := by
  have := C20_fold (eq := fun a b : S => decide (a = b)) ⟨by simp, by simp, by simp⟩ s ops (by
    intro u _
    cases u with
    | val v => trivial
    | fn f =>
      intro a b hab
      simp at hab; subst hab
      cases f a <;> simp)
  simpa using this

/-- A render reads the value left by all preceding updates. -/
theorem C20_render_reads {S} (eq : S → S → Bool) (s : S) (pre post : List (SOp S)) :
    ∃ rest, (runState eq s (pre ++ .render :: post)).1 = (runState eq s pre).1 ++ (runState eq s pre).2 :: rest := by
  induction pre generalizing s with
  | nil => exact ⟨_, rfl⟩
  | cons o pre ih =>
    cases o with
    | set u => simp only [List.cons_append, runState]; exact ih _
    | render =>
      simp only [List.cons_append, runState]
      obtain ⟨rest, h⟩ := ih s
      exact ⟨rest, by rw [h]⟩

/-- A render is scheduled by a setter call exactly when the new value is not equal to the current one. -/
theorem C20_schedules {S} (eq : S → S → Bool) (s : S) (u : Upd S) :
    (dispatch eq s u).2 = true ↔ ∃ v, (match u with | .val w => v = w | .fn f => f s = .ok v) ∧ eq v s = false := by
  cases u with
  | val v => by_cases hv : eq v s = true <;> simp [dispatch, Upd.next, hv]
  | fn f =>
    cases hf : f s with
    | error e => simp [dispatch, Upd.next, hf]
    | ok v => by_cases hv : eq v s = true <;> simp [dispatch, Upd.next, hf, hv]

example : (runState (fun a b : Nat => decide (a = b)) 0
    [.set (.fn (fun x => .ok (x + 1))), .render, .set (.val 5), .set (.fn (fun x => .ok (x * 2))), .set (.fn (fun _ => .error ())), .render]) = ([1, 10], 10) := by
  decide

/-! ## C21 — `use_reducer` -/

/-- If every render passes the same reducer, the state is the left fold of the dispatched actions.
Missing for the full C21: renders that pass different reducers. -/
theorem C21_fold_partial {S A} [DecidableEq S] (r : S → A → S) (s : S) (ops : List (ROp S A))
    (hr : ∀ r', .render r' ∈ ops → r' = r) :
    runReducer (fun a b => decide (a = b)) s none (.render r :: ops) =
      (ops.filterMap (fun o => match o with | .dispatch a => some a | .render _ => none)).foldl r s := by
  simp only [runReducer, Option.none_or]
  induction ops generalizing s with
  | nil => rfl
  | cons o ops ih =>
    cases o with
    | render r' =>
      simp only [runReducer, Option.some_or, List.filterMap_cons]
      exact ih s (fun r' h => hr r' (by simp [h]))
    | dispatch a =>
      simp only [runReducer, List.filterMap_cons, List.foldl_cons]
      have : (dispatch (fun a b => decide (a = b)) s (.fn (fun x => .ok (r x a)))).1 = r s a := by
        simp only [dispatch, Upd.next]
        split
        · rename_i h; exact (of_decide_eq_true h).symm
        · rfl
      rw [this]
      exact ih _ (fun r' h => hr r' (by simp [h]))

example : runReducer (fun a b : Nat => decide (a = b)) 0 none
    [.render (· + ·), .dispatch 2, .render (· + ·), .dispatch 3] = 5 := by decide

/-- A reducer passed by a later render is never used, whatever it is: the fold always uses the first
render's reducer. -/
theorem C21_fold_violated {S A} [DecidableEq S] (r r' : S → A → S) (s : S) (acts : List A) :
    runReducer (fun a b => decide (a = b)) s none (.render r :: .render r' :: acts.map .dispatch) = acts.foldl r s := by
  have h : runReducer (fun a b => decide (a = b)) s none (.render r :: .render r' :: acts.map .dispatch) =
      runReducer (fun a b => decide (a = b)) s none (.render r :: acts.map .dispatch) := rfl
  rw [h, C21_fold_partial r s _ (by intro r'' hm; simp at hm)]
  congr 1
  induction acts with
  | nil => rfl
  | cons a acts ih => simp only [List.map_cons, List.filterMap_cons, ih (by rfl)]

/-- … so with two different reducers the result is not what the current render's reducer gives. -/
example : runReducer (fun a b : Nat => decide (a = b)) 1 none [.render (· + ·), .render (· * ·), .dispatch 5] = 6
    ∧ (1 * 5 : Nat) ≠ 6 := by decide

/-! ## C22 — `use_memo` -/

/-- If no memoised function ever raised, then in each render there is a most recent render (possibly
this one) that called its function; its value is returned, and all later renders, this one included,
passed dependencies equal to that render's.
Missing for the full C22: functions that raise. -/
theorem C22_value_partial {D} (eq : D → D → Bool) (rs : List (Option (List D) × Except Unit V))
    (hok : ∀ r ∈ rs, ∃ v, r.2 = .ok v) (d : Option (List D)) (v : V) :
    ∃ pre d0 v0 post, rs ++ [(d, .ok v)] = pre ++ (d0, .ok v0) :: post ∧
      ((Memo.run eq rs).use eq d (.ok v)).2.1 = .ok (some v0) ∧
      (∀ q ∈ post, ∃ d', q.1 = some d' ∧ EqualDeps eq (d0.getD []) d') ∧
      (((Memo.run eq rs).use eq d (.ok v)).2.2 = true ↔ post = []) := by
  simp only [← sameDeps_spec]
  have h := holds_run eq rs hok
  rw [use_ok_eq]
  by_cases hc : ((Memo.run eq rs).check eq d).2 = true
  · rw [if_pos hc]
    exact ⟨rs, d, v, [], rfl, rfl, by simp, by simp⟩
  · rw [if_neg hc]
    simp only [Bool.not_eq_true] at hc
    obtain ⟨d', rfl, hd, h1, h2⟩ := check_deps_of_same hc
    rcases h with ⟨_, hm⟩ | ⟨pre, d0, v0, post, h3, hm, hp⟩
    · rw [hm] at h2; simp at h2
    · rw [hm] at hd
      refine ⟨pre, d0, v0, post ++ [(some d', .ok v)], by rw [h3]; simp, by rw [hm], ?_, by simp⟩
      intro q hq
      simp only [List.mem_append, List.mem_singleton] at hq
      rcases hq with hq | rfl
      · exact hp q hq
      · exact ⟨d', rfl, hd⟩

/-- The function is called exactly when this is the first render, the dependencies are `None`, or they
differ from those of the previous render (`None` then counts as the empty sequence), whenever the
comparison is an equivalence and no function raised. -/
theorem C22_called_partial {D} {eq : D → D → Bool} (he : Equiv eq) (rs : List (Option (List D) × Except Unit V))
    (hok : ∀ r ∈ rs, ∃ v, r.2 = .ok v) (d : Option (List D)) (v : V) :
    ((Memo.run eq rs).use eq d (.ok v)).2.2 = true ↔
      rs = [] ∨ d = none ∨ ∃ p d', rs.getLast? = some p ∧ d = some d' ∧ ¬ EqualDeps eq (p.1.getD []) d' := by
  simp only [← sameDeps_spec, Bool.not_eq_true]
  have h := holds_run eq rs hok
  have hcall : ((Memo.run eq rs).use eq d (.ok v)).2.2 = true ↔ ((Memo.run eq rs).check eq d).2 = true := by
    rw [use_ok_eq]
    by_cases hc : ((Memo.run eq rs).check eq d).2 = true
    · rw [if_pos hc]; simp [hc]
    · rw [if_neg hc]; simp [hc]
  rw [hcall, check_snd]
  rcases List.eq_nil_or_concat rs with rfl | ⟨rs', p, rfl⟩
  · simp [Memo.run]
  · rw [List.concat_eq_append] at h ⊢
    have hl := holds_last he h
    have hs : ∀ c, sameDeps eq (Memo.run eq (rs' ++ [p])).deps c = sameDeps eq (p.1.getD []) c :=
      fun c => sameDeps_left he hl.2
    have hv : (Memo.run eq (rs' ++ [p])).value ≠ none := by
      intro hn; rw [hn] at hl; simp at hl
    simp [hs, hv]

example : ∀ r ∈ ([(some [1], .ok 10), (some [1], .ok 11), (some [2], .ok 12)] : List (Option (List Nat) × Except Unit Nat)),
    ∃ v, r.2 = .ok v := by simp
example : (((Memo.run (fun a b : Nat => a == b) [(some [1], .ok 10), (some [1], .ok 11), (some [2], .ok 12)]).use (fun a b => a == b) (some [2]) (.ok (13 : Nat))).2.2) = false := by decide

/-- A render whose function is called and raises, raises; it does not return an old value. -/
theorem C22_raises {D} (eq : D → D → Bool) (m : Memo D V) (d : Option (List D)) (e : Unit)
    (h : (m.use eq d (.error e)).2.2 = true) : (m.use eq d (.error e)).2.1 = .error e := by
  simp only [Memo.use] at h ⊢
  split <;> simp_all

/-- For instance when the dependencies changed. -/
example : ((Memo.run (fun a b : Nat => a == b) [(some [1], .ok 10)]).use (fun a b => a == b) (some [2]) (.error () : Except Unit Nat)).2.2 = true := by
  decide

/-- The full C22 fails: if the function raises in a render with changed dependencies, the next render
with those same dependencies does not call its function and returns the value computed under the old,
different dependencies. -/
theorem C22_value_violated {D} {eq : D → D → Bool} (he : Equiv eq) (d0 d1 : List D) (v0 : V) (out : Except Unit V)
    (hne : ¬ EqualDeps eq d0 d1) :
    (Memo.run eq [(some d0, .ok v0), (some d1, .error ())]).use eq (some d1) out =
      ({ value := some v0, deps := d1 }, .ok (some v0), false) := by
  simp only [← sameDeps_spec, Bool.not_eq_true] at hne
  simp [Memo.run, Memo.use, Memo.check, hne, sameDeps_refl he]

example : ¬ EqualDeps (fun a b : Nat => a == b) [0] [1] := by simp [EqualDeps]

/-! ## C23 — `use_callback` and `use_ref` -/

/-- `use_callback(function, dependencies)`: `use_memo` of a function that returns `function`
(hooks.py 453–457), which does not raise.  `V` are function objects. -/
def useCallback {D} (eq : D → D → Bool) (renders : List (Option (List D) × V)) (d : Option (List D)) (f : V) :
    Except Unit (Option V) :=
  ((Memo.run eq (renders.map (fun r => (r.1, .ok r.2)))).use eq d (.ok f)).2.1

/-- `use_callback` returns a function object passed in some render, and since that render all
dependencies, the current ones included, were equal to that render's. -/
theorem C23_callback {D} (eq : D → D → Bool) (renders : List (Option (List D) × V)) (d : Option (List D)) (f : V) :
    ∃ pre d0 f0 post, renders ++ [(d, f)] = pre ++ (d0, f0) :: post ∧ useCallback eq renders d f = .ok (some f0) ∧
      ∀ q ∈ post, ∃ d', q.1 = some d' ∧ EqualDeps eq (d0.getD []) d' := by
  obtain ⟨pre, d0, v0, post, h1, h2, h3, _⟩ := C22_value_partial eq (renders.map (fun r => (r.1, Except.ok r.2)))
    (by intro r hr; simp only [List.mem_map] at hr; obtain ⟨a, _, rfl⟩ := hr; exact ⟨_, rfl⟩) d f
  have h1' : (renders ++ [(d, f)]).map (fun r => ((r.1, Except.ok r.2) : Option (List D) × Except Unit V)) = pre ++ (d0, .ok v0) :: post := by
    rw [← h1]; simp
  rw [List.map_eq_append_iff] at h1'
  obtain ⟨a, b, hab, ha, hb⟩ := h1'
  rw [List.map_eq_cons_iff] at hb
  obtain ⟨c, b', rfl, hc, hb'⟩ := hb
  obtain ⟨cd, cf⟩ := c
  simp only [Prod.mk.injEq, Except.ok.injEq] at hc
  obtain ⟨rfl, rfl⟩ := hc
  refine ⟨a, cd, cf, b', hab, h2, ?_⟩
  intro q hq
  exact h3 (q.1, .ok q.2) (by rw [← hb']; exact List.mem_map.2 ⟨q, hq, rfl⟩)

/-- With equal dependencies in two consecutive renders the same function object is returned. -/
theorem C23_callback_same {D} {eq : D → D → Bool} (he : Equiv eq) (renders : List (Option (List D) × V)) (d d' : List D) (f f' : V)
    (h : EqualDeps eq d d') :
    useCallback eq (renders ++ [(some d, f)]) (some d') f' = useCallback eq renders (some d) f := by
  have hok : ∀ r ∈ (renders.map (fun r => ((r.1, Except.ok r.2) : Option (List D) × Except Unit V))), ∃ v, r.2 = .ok v := by
    intro r hr; simp only [List.mem_map] at hr; obtain ⟨a, _, rfl⟩ := hr; exact ⟨_, rfl⟩
  simp only [useCallback, List.map_append, List.map_cons, List.map_nil, run_snoc]
  have hh := holds_use eq (holds_run eq _ hok) (some d) f
  have hl := holds_last he hh
  generalize Memo.run eq (renders.map (fun r => ((r.1, Except.ok r.2) : Option (List D) × Except Unit V))) = m at *
  rw [← sameDeps_spec] at h
  have hsame : sameDeps eq (m.use eq (some d) (.ok f)).1.deps d' = true := sameDeps_trans he hl.2 h
  have hnc : ((m.use eq (some d) (.ok f)).1.check eq (some d')).2 = false := by
    rw [Bool.eq_false_iff]
    intro hc
    rw [check_snd] at hc
    rcases hc with hc | hc | ⟨d'', hc, hc'⟩
    · rw [hc] at hl; simp at hl
    · simp at hc
    · cases hc; rw [hsame] at hc'; simp at hc'
  rw [use_ok_eq eq (m.use eq (some d) (.ok f)).1, if_neg (by simp [hnc])]
  rw [use_ok_eq]
  by_cases hc : (m.check eq (some d)).2 = true
  · rw [if_pos hc]
  · rw [if_neg hc]

example : useCallback (fun a b : Nat => a == b) [(some [1], "f1"), (some [1], "f2")] (some [1]) "f3" = .ok (some "f1")
    ∧ useCallback (fun a b : Nat => a == b) [(some [1], "f1"), (some [1], "f2")] (some [2]) "f3" = .ok (some "f3") := by
  constructor <;> rfl

/-- `use_ref` (559–568) is a hook call whose object is the `Ref`: it returns the same object in all
renders of an instance and never one of another instance or call. -/
theorem C23_ref (ops : List (Op V)) (i j k l r r' : Nat)
    (h : .got i k r ∈ ((({} : World V).run ops).log)) (h' : .got j l r' ∈ ((({} : World V).run ops).log)) :
    r = r' ↔ i = j ∧ k = l := by
  constructor
  · rintro rfl; exact C19_not_shared ops i j k l r h h'
  · rintro ⟨rfl, rfl⟩; exact C19_stable ops i k r r' h h'

/-! ## C26 — when effects run -/

theorem startedEffects_spec {D} {eq : D → D → Bool} (he : Equiv eq) (ds : List (Option (List D))) :
    ∀ (rs : List (Option (List D) × Except Unit Unit)) (_ : ∀ r ∈ rs, ∃ v, r.2 = .ok v) (n : Nat),
    n ∈ startedEffects eq (Memo.run eq rs) rs.length ds ↔ ∃ i, n = rs.length + i ∧ i < ds.length ∧
      ((Memo.run eq (rs ++ (ds.take i).map (fun d => (d, .ok ())))).check eq (ds.getD i none)).2 = true := by
  induction ds with
  | nil => intro rs _ n; simp [startedEffects]
  | cons d ds ih =>
    intro rs hok n
    have hrun : ((Memo.run eq rs).use eq d (.ok ())).1 = Memo.run eq (rs ++ [(d, .ok ())]) := by rw [run_snoc]
    have hc : ((Memo.run eq rs).use eq d (.ok ())).2.2 = ((Memo.run eq rs).check eq d).2 := by
      exact use_called eq _ d ()
    simp only [startedEffects, hrun, hc, List.mem_append]
    have hl : rs.length + 1 = (rs ++ [(d, (Except.ok () : Except Unit Unit))]).length := by simp
    rw [hl, ih (rs ++ [(d, (Except.ok () : Except Unit Unit))]) (by
      intro r hr; simp only [List.mem_append, List.mem_singleton] at hr
      rcases hr with hr | rfl
      · exact hok r hr
      · exact ⟨(), rfl⟩) n]
    constructor
    · rintro (h | ⟨i, h1, h2, h3⟩)
      · by_cases hch : ((Memo.run eq rs).check eq d).2 = true
        · simp only [hch, if_true, List.mem_singleton] at h
          exact ⟨0, by omega, by simp, by simpa using hch⟩
        · simp [hch] at h
      · refine ⟨i + 1, by simp at h1; omega, by simp; omega, ?_⟩
        simpa using h3
    · rintro ⟨i, h1, h2, h3⟩
      cases i with
      | zero =>
        left
        simp at h3
        simp [h3, h1]
      | succ i =>
        right
        refine ⟨i, by simp; omega, by simp at h2; omega, ?_⟩
        simpa using h3

theorem started_lt {D} (eq : D → D → Bool) (ds : List (Option (List D))) : ∀ (m : Memo D Unit) (n : Nat),
    (startedEffects eq m n ds).Pairwise (· < ·) ∧ ∀ k ∈ startedEffects eq m n ds, n ≤ k := by
  induction ds with
  | nil => intro m n; simp [startedEffects]
  | cons d ds ih =>
    intro m n
    obtain ⟨h1, h2⟩ := ih (m.use eq d (.ok ())).1 (n + 1)
    simp only [startedEffects]
    split
    · simp only [List.singleton_append, List.pairwise_cons, List.mem_cons]
      refine ⟨⟨fun k hk => ?_, h1⟩, ?_⟩
      · have := h2 k hk; omega
      · rintro k (rfl | hk)
        · omega
        · have := h2 k hk; omega
    · simp only [List.nil_append]
      exact ⟨h1, fun k hk => by have := h2 k hk; omega⟩

/-- The renders after which an effect's body is started: render number `n` is among them if and only if
it is the first, its dependencies are `None`, or they differ from those of render `n - 1`. -/
theorem C26_started {D} {eq : D → D → Bool} (he : Equiv eq) (ds : List (Option (List D))) (n : Nat) :
    n ∈ startedEffects eq {} 0 ds ↔ ∃ d, ds[n]? = some d ∧
      (n = 0 ∨ d = none ∨ ∃ p d', ds[n - 1]? = some p ∧ d = some d' ∧ ¬ EqualDeps eq (p.getD []) d') := by
  have h := startedEffects_spec he ds [] (by simp) n
  simp only [List.length_nil, Nat.zero_add, List.nil_append] at h
  rw [show ({} : Memo D Unit) = Memo.run eq [] from rfl, h]
  have hiff : ∀ i (hi : i < ds.length),
      (((Memo.run eq ((ds.take i).map (fun d => (d, (Except.ok () : Except Unit Unit))))).check eq (ds.getD i none)).2 = true ↔
       (i = 0 ∨ ds[i] = none ∨ ∃ p d', ds[i - 1]? = some p ∧ ds[i] = some d' ∧ ¬ EqualDeps eq (p.getD []) d')) := by
    intro i hi
    have h22 := C22_called_partial he ((ds.take i).map (fun d => (d, (Except.ok () : Except Unit Unit)))) (by
      intro r hr; simp only [List.mem_map] at hr; obtain ⟨a, _, rfl⟩ := hr; exact ⟨_, rfl⟩) (ds.getD i none) ()
    rw [use_called] at h22
    rw [h22]
    have hd : ds.getD i none = ds[i] := by simp [List.getD, hi]
    rw [hd]
    cases i with
    | zero => simp
    | succ i =>
      have hi' : i < ds.length := by omega
      have hlast : ((ds.take (i + 1)).map (fun d => (d, (Except.ok () : Except Unit Unit)))).getLast? = some (ds[i], .ok ()) := by
        rw [List.getLast?_map, List.getLast?_take]
        simp [hi']
      rw [hlast]
      have hne : (ds.take (i + 1)).map (fun d => (d, (Except.ok () : Except Unit Unit))) ≠ [] := by
        intro h
        simp at h
        rw [h] at hi'; simp at hi'
      simp [hi']
      intro h; rw [h] at hi'; simp at hi'
  constructor
  · rintro ⟨i, rfl, hi, hc⟩
    exact ⟨ds[n], List.getElem?_eq_getElem hi, (hiff n hi).1 hc⟩
  · rintro ⟨d, hd, hc⟩
    obtain ⟨hi, rfl⟩ := List.getElem?_eq_some_iff.1 hd
    exact ⟨n, rfl, hi, (hiff n hi).2 hc⟩

/-- … and each is started exactly once. -/
theorem C26_once {D} (eq : D → D → Bool) (ds : List (Option (List D))) : (startedEffects eq {} 0 ds).Nodup := by
  have := (started_lt eq ds {} 0).1
  exact this.imp (fun h => Nat.ne_of_lt h)

example : startedEffects (fun a b : Nat => a == b) {} 0
    [some [], some [], none, some [1], some [1], some [1, 2], none] = [0, 2, 3, 5, 6] := by decide

/-! ## C28 — the change test -/

/-- Values of different types are never equal. -/
theorem C28_types (loc : String → Bool) (pyEq : Obj → Obj → Option Bool) (x y : Obj) (h : x.type ≠ y.type) :
    strictlyEqual loc pyEq x y = false := by
  simp [strictlyEqual, h]

/-- For values that are not both functions defined in a function, "equal" means to have the same type and
to be `==`, or identical where `==` raises.
Missing for the full C28: functions defined in a function (lambdas, closures). -/
theorem C28_sound_partial (pyEq : Obj → Obj → Option Bool) (x y : Obj)
    (hl : ¬ LocalName x.qualname ∨ ¬ LocalName y.qualname ∨ x.code = none ∨ y.code = none) :
    strictlyEqual isLocalName pyEq x y = true ↔
      x.type = y.type ∧ (pyEq x y = some true ∨ (pyEq x y = none ∧ x.identity = y.identity)) := by
  simp only [strictlyEqual]
  by_cases ht : x.type = y.type
  · rw [if_neg (by simpa using ht), if_neg]
    · cases pyEq x y <;> simp [ht]
    · rintro ⟨_, _, h1, h2, h3, h4⟩
      rw [isLocalName_iff] at h1 h2
      rcases hl with hl | hl | hl | hl
      · exact hl h1
      · exact hl h2
      · rw [hl] at h3; simp at h3
      · rw [hl] at h4; simp at h4
  · rw [if_pos ht]; simp [ht]

/-- Two functions defined in functions are compared by their qualified name and their code only. -/
theorem C28_local (pyEq : Obj → Obj → Option Bool) (x y : Obj) (hx : LocalName x.qualname) (hy : LocalName y.qualname)
    (cx : x.code ≠ none) (cy : y.code ≠ none) :
    strictlyEqual isLocalName pyEq x y = true ↔ x.type = y.type ∧ x.qualname = y.qualname ∧ x.code = y.code := by
  have ne : ∀ q, LocalName q → q ≠ "" := by
    intro q hq h; subst h
    rw [← isLocalName_iff] at hq
    exact absurd hq (by decide +kernel)
  simp only [strictlyEqual]
  by_cases ht : x.type = y.type
  · rw [if_neg (by simpa using ht), if_pos]
    · simp [ht]
    · refine ⟨ne _ hx, ne _ hy, isLocalName_iff.2 hx, isLocalName_iff.2 hy, ?_, ?_⟩
      · cases h : x.code <;> simp_all
      · cases h : y.code <;> simp_all
  · rw [if_pos ht]; simp [ht]

example : LocalName "f.<locals>.g" ∧ LocalName "<lambda>" ∧ ¬ LocalName "f" := by
  simp only [← isLocalName_iff]
  decide +kernel

/-- Two integers that are equal (hypotheses are met). -/
example : strictlyEqual isLocalName (fun _ _ => some true) { identity := 1, type := 3 } { identity := 2, type := 3 } = true
    ∧ isLocalName "" = false := by decide +kernel

/-- Two closures of one local function over different values are "equal", although they are different
functions: a state holding one is not replaced by the other, whatever `==` says. -/
theorem C28_sound_violated : ∃ x y : Obj, x.closure ≠ y.closure ∧ x.identity ≠ y.identity ∧
    ∀ pyEq, strictlyEqual isLocalName pyEq x y = true ∧
      dispatch (strictlyEqual isLocalName pyEq) y (.val x) = (y, false) := by
  refine ⟨{ identity := 1, type := 0, qualname := "make.<locals>.f", code := some 7, closure := [1] },
    { identity := 2, type := 0, qualname := "make.<locals>.f", code := some 7, closure := [2] }, by decide, by decide, ?_⟩
  intro pyEq
  have hl : isLocalName "make.<locals>.f" = true := by decide +kernel
  constructor
  · simp [strictlyEqual, hl]
  · simp [dispatch, Upd.next, strictlyEqual, hl]

end Verif.Hooks
