import Verif.Hooks.Infer
import Verif.Hooks.Props
/-!
# C91: hooks without dependencies
-/
namespace Verif.Hooks.Infer

/-! ### Specification -/

/-- The callable is a function of the component, given directly and without dependencies, and all of its variables are assigned. -/
structure Plain {V} (c : Call V) : Prop where
  auto : c.given = .auto
  direct : c.decorator = false
  function : c.fn.isFunction = true
  assigned : ∀ x ∈ c.fn.hooked, x ≠ none

/-- The same variables, with values that the hook takes for equal. -/
def SameVars {V} (eq : V → V → Bool) : List (Option V) → List (Option V) → Prop
  | [], [] => True
  | some a :: as, some b :: bs => eq a b = true ∧ SameVars eq as bs
  | _, _ => False

/-- What the function of this call would return if it were called now. -/
def fresh {V G R} (sem : Sem V G R) (c : Call V) (g : G) : Except Unit R := sem c.fn.code c.fn.hooked c.fn.defaults g

/-! ### Lemmas -/

/-- The values of the variables (auxiliary, no code of /repo). -/
def Call.vals {V} (c : Call V) : List V := c.fn.hooked.filterMap id

theorem contents_ok {V} {l : List (Option V)} (h : ∀ x ∈ l, x ≠ none) :
    contents l = .ok (l.filterMap id) ∧ l = (l.filterMap id).map some := by
  induction l with
  | nil => exact ⟨rfl, rfl⟩
  | cons x r ih =>
    cases x with
    | none => exact absurd rfl (h none List.mem_cons_self)
    | some v =>
      obtain ⟨h1, h2⟩ := ih (fun x hx => h x (List.mem_cons_of_mem _ hx))
      refine ⟨by simp [contents, h1], ?_⟩
      simp only [List.filterMap_cons, id, List.map_cons, ← h2]

theorem plain_deps {V} {c : Call V} (h : Plain c) : c.deps = .ok (some c.vals) ∧ c.fn.hooked = c.vals.map some := by
  obtain ⟨h1, h2⟩ := contents_ok h.assigned
  refine ⟨?_, h2⟩
  unfold Call.deps infer
  simp [h.auto, h.direct, h.function, h1, Call.vals]

theorem sameVars_map {V} (eq : V → V → Bool) (a b : List V) : SameVars eq (a.map some) (b.map some) ↔ EqualDeps eq a b := by
  induction a generalizing b with
  | nil => cases b <;> simp [SameVars, EqualDeps]
  | cons x r ih =>
    cases b with
    | nil => simp [SameVars, EqualDeps]
    | cons y s => simp [SameVars, EqualDeps, ih]

theorem sameVars_iff {V} (eq : V → V → Bool) {c c' : Call V} (h : Plain c) (h' : Plain c') :
    EqualDeps eq c.vals c'.vals ↔ SameVars eq c.fn.hooked c'.fn.hooked := by
  rw [(plain_deps h).2, (plain_deps h').2, sameVars_map]

theorem memoAfter_eq {V G R} (sem : Sem V G R) (eq : V → V → Bool) (cs : List (Call V × G)) (h : ∀ c ∈ cs, Plain c.1) :
    memoAfter sem eq cs = Memo.run eq (cs.map fun c => (some c.1.vals, fresh sem c.1 c.2)) := by
  suffices ∀ (m : Memo V R), cs.foldl (fun m c => (useMemo sem eq m c.1 c.2).1) m =
      (cs.map fun c => ((some c.1.vals, fresh sem c.1 c.2) : Option (List V) × Except Unit R)).foldl (fun m r => (m.use eq r.1 r.2).1) m from
    this {}
  induction cs with
  | nil => intro m; rfl
  | cons c r ih =>
    intro m
    simp only [List.foldl_cons, List.map_cons]
    rw [ih (fun c hc => h c (List.mem_cons_of_mem _ hc))]
    congr 1
    unfold useMemo
    rw [(plain_deps (h c List.mem_cons_self)).1]
    rfl

theorem useMemo_eq {V G R} (sem : Sem V G R) (eq : V → V → Bool) (m : Memo V R) {c : Call V} (g : G) (h : Plain c) :
    useMemo sem eq m c g = m.use eq (some c.vals) (fresh sem c g) := by
  unfold useMemo
  rw [(plain_deps h).1]
  rfl

/-! ### The value is the one that the function would return now -/

/-- **C91**, `use_memo` (partial): a component passes in every render the same function of its source, without dependencies, and the
function does not raise.  If nothing but the function's local variables matters to its result, and variables that the hook takes for equal are the
same, then in every render the hook returns what the function of this very render would return. -/
theorem C91_memo_partial {V G R} (sem : Sem V G R) (eq : V → V → Bool) (k : Nat) (cs : List (Call V × G)) (c : Call V) (g : G)
    (hp : ∀ p ∈ cs ++ [(c, g)], Plain p.1 ∧ p.1.fn.code = k)
    (hok : ∀ p ∈ cs ++ [(c, g)], ∃ v, fresh sem p.1 p.2 = .ok v)
    (hvars : ∀ vars d d' g g', sem k vars d g = sem k vars d' g')
    (hsame : ∀ p ∈ cs ++ [(c, g)], ∀ p' ∈ cs ++ [(c, g)], SameVars eq p.1.fn.hooked p'.1.fn.hooked → p.1.fn.hooked = p'.1.fn.hooked) :
    ∃ v, fresh sem c g = .ok v ∧ (useMemo sem eq (memoAfter sem eq cs) c g).2.1 = .ok (some v) := by
  have hc : (c, g) ∈ cs ++ [(c, g)] := by simp
  obtain ⟨v, hv⟩ := hok _ hc
  refine ⟨v, hv, ?_⟩
  have hv' : fresh sem c g = .ok v := hv
  rw [useMemo_eq sem eq _ g (hp _ hc).1, memoAfter_eq sem eq cs (fun p hp' => (hp p (List.mem_append_left _ hp')).1), hv']
  obtain ⟨pre, d0, v0, post, h1, h2, h3, _⟩ := C22_value_partial eq (cs.map fun c => (some c.1.vals, fresh sem c.1 c.2)) (by
    intro r hr
    obtain ⟨p, hp', rfl⟩ := List.mem_map.1 hr
    exact hok p (List.mem_append_left _ hp')) (some c.vals) v
  rw [h2]
  have hall : (cs ++ [(c, g)]).map (fun c => ((some c.1.vals, fresh sem c.1 c.2) : Option (List V) × Except Unit R)) =
      pre ++ (d0, .ok v0) :: post := by
    rw [← h1, List.map_append]
    simp [hv']
  have hm : ∃ p ∈ cs ++ [(c, g)], some p.1.vals = d0 ∧ fresh sem p.1 p.2 = .ok v0 := by
    have : ((d0, .ok v0) : Option (List V) × Except Unit R) ∈
        (cs ++ [(c, g)]).map (fun c => ((some c.1.vals, fresh sem c.1 c.2) : Option (List V) × Except Unit R)) := by
      rw [hall]; simp
    obtain ⟨p, hp', he⟩ := List.mem_map.1 this
    injection he with e1 e2
    exact ⟨p, hp', e1, e2⟩
  obtain ⟨p, hpm, hd0, hf⟩ := hm
  rcases List.eq_nil_or_concat post with rfl | ⟨post', q, rfl⟩
  · have := List.append_inj' h1 (by simp)
    have e := this.2
    simp only [List.cons.injEq, Prod.mk.injEq, Except.ok.injEq, and_true] at e
    rw [e.2]
  · have e : q = (some c.vals, .ok v) := by
      rw [List.concat_eq_append] at h1
      have h1' : cs.map (fun c => ((some c.1.vals, fresh sem c.1 c.2) : Option (List V) × Except Unit R)) ++ [(some c.vals, .ok v)] =
          (pre ++ (d0, .ok v0) :: post') ++ [q] := by rw [h1]; simp
      have := (List.append_inj' h1' (by simp)).2
      simpa using this.symm
    obtain ⟨d', hd', heq⟩ := h3 q (by simp)
    rw [e] at hd'
    injection hd' with hd'
    subst hd' d0
    have hs := hsame p hpm (c, g) hc ((sameVars_iff eq (hp p hpm).1 (hp _ hc).1).1 heq)
    have : fresh sem p.1 p.2 = fresh sem c g := by
      unfold fresh
      rw [(hp p hpm).2, (hp _ hc).2, hs]
      exact hvars _ _ _ _ _
    rw [hf, hv'] at this
    injection this with this
    rw [this]

/-- Functions with one variable, which is what they return. -/
def one : Sem Nat Unit Nat := fun _ vars _ _ => match vars with
  | [some n] => .ok n
  | _ => .ok 0

example : Plain ({ fn := { code := 0, hooked := [some 3] } } : Call Nat) := ⟨rfl, rfl, rfl, by simp⟩
example : ((useMemo one (· == ·) (memoAfter one (· == ·) [({ fn := { code := 0, hooked := [some 3] } }, ()), ({ fn := { code := 0, hooked := [some 4] } }, ())])
    { fn := { code := 0, hooked := [some 4] } } ()).2.1.toOption, (useMemo one (· == ·) (memoAfter one (· == ·) [({ fn := { code := 0, hooked := [some 3] } }, ())])
    { fn := { code := 0, hooked := [some 4] } } ()).2.1.toOption) = (some (some 4), some (some 4)) := by decide +kernel

/-- **C91**, when `use_memo` calls the function: in the first render, and when a variable changed since the render before. -/
theorem C91_called {V G R} (sem : Sem V G R) {eq : V → V → Bool} (he : Equiv eq) (cs : List (Call V × G)) (c : Call V) (g : G)
    (hp : ∀ p ∈ cs ++ [(c, g)], Plain p.1) (hok : ∀ p ∈ cs ++ [(c, g)], ∃ v, fresh sem p.1 p.2 = .ok v) :
    (useMemo sem eq (memoAfter sem eq cs) c g).2.2 = true ↔
      cs = [] ∨ ∃ p, cs.getLast? = some p ∧ ¬ SameVars eq p.1.fn.hooked c.fn.hooked := by
  have hc : (c, g) ∈ cs ++ [(c, g)] := by simp
  obtain ⟨v, hv⟩ := hok _ hc
  have hv' : fresh sem c g = .ok v := hv
  rw [useMemo_eq sem eq _ g (hp _ hc), memoAfter_eq sem eq cs (fun p hp' => hp p (List.mem_append_left _ hp')), hv']
  rw [C22_called_partial he _ (by
    intro r hr
    obtain ⟨p, hp', rfl⟩ := List.mem_map.1 hr
    exact hok p (List.mem_append_left _ hp'))]
  constructor
  · rintro (h | h | ⟨p, d', h1, h2, h3⟩)
    · exact .inl (by simpa using h)
    · cases h
    · right
      rw [List.getLast?_map] at h1
      cases hl : cs.getLast? with
      | none => rw [hl] at h1; cases h1
      | some q =>
        rw [hl] at h1
        simp only [Option.map_some, Option.some.injEq] at h1
        subst h1
        injection h2 with h2
        subst h2
        refine ⟨q, rfl, fun h => h3 ?_⟩
        have hq : q ∈ cs := List.mem_of_getLast? hl
        exact (sameVars_iff eq (hp q (List.mem_append_left _ hq)) (hp _ hc)).2 h
  · rintro (rfl | ⟨q, hl, h⟩)
    · exact .inl rfl
    · right; right
      have hq : q ∈ cs := List.mem_of_getLast? hl
      refine ⟨(some q.1.vals, fresh sem q.1 q.2), c.vals, by rw [List.getLast?_map, hl]; rfl, rfl, fun h' => h ?_⟩
      exact (sameVars_iff eq (hp q (List.mem_append_left _ hq)) (hp _ hc)).1 h'

/-- **C91**, callables without variables that could be seen (methods, partials, functions given by decorating them): the function is called in
every render, so its result is always that of this render. -/
theorem C91_other {V G R} (sem : Sem V G R) (eq : V → V → Bool) (m : Memo V R) (c : Call V) (g : G) (h : c.given = .auto)
    (ho : c.decorator = true ∨ c.fn.isFunction = false) :
    (useMemo sem eq m c g).2.2 = true ∧
    ∀ v, fresh sem c g = .ok v → (useMemo sem eq m c g).2.1 = .ok (some v) := by
  have hd : c.deps = .ok none := by
    unfold Call.deps infer
    rw [h]
    rcases ho with ho | ho
    · simp [ho]
    · cases c.decorator <;> simp [ho]
  unfold useMemo
  rw [hd]
  have hck : (m.check eq none).2 = true := by
    unfold Memo.check
    cases m.value <;> rfl
  unfold fresh
  cases hm : m.check eq none with
  | mk m' b =>
    rw [hm] at hck
    simp only at hck
    subst hck
    simp only [Memo.use, hm]
    cases hs : sem c.fn.code c.fn.hooked c.fn.defaults g with
    | ok v =>
      refine ⟨rfl, fun v' h' => ?_⟩
      injection h' with h'
      rw [h']
    | error e => exact ⟨rfl, fun v' h' => by cases h'⟩

example : ({ fn := { code := 0, isFunction := false } } : Call Nat).given = .auto := rfl

/-- **C91**, dependencies that are given: what is given decides, and not the function, however it is passed. -/
theorem C91_given {V G R} (sem : Sem V G R) (eq : V → V → Bool) (m : Memo V R) (f : Fn V) (b : Bool) (g : G) :
    (∀ l, useMemo sem eq m { fn := f, given := .list l, decorator := b } g = m.use eq (some l) (sem f.code f.hooked f.defaults g)) ∧
    useMemo sem eq m { fn := f, given := .none, decorator := b } g = m.use eq none (sem f.code f.hooked f.defaults g) :=
  ⟨fun _ => rfl, rfl⟩

/-! ### Callbacks -/

theorem useCallback_eq {V} (eq : V → V → Bool) (m : Memo V (Fn V)) {c : Call V} (h : Plain c) :
    useCallback eq m c = m.use eq (some c.vals) (.ok c.fn) := by
  unfold useCallback
  rw [(plain_deps h).1]

theorem callbackAfter_eq {V} (eq : V → V → Bool) (cs : List (Call V)) (h : ∀ c ∈ cs, Plain c) :
    callbackAfter eq cs = Memo.run eq (cs.map fun c => (some c.vals, .ok c.fn)) := by
  suffices ∀ (m : Memo V (Fn V)), cs.foldl (fun m c => (useCallback eq m c).1) m =
      (cs.map fun c => ((some c.vals, .ok c.fn) : Option (List V) × Except Unit (Fn V))).foldl (fun m r => (m.use eq r.1 r.2).1) m from
    this {}
  induction cs with
  | nil => intro m; rfl
  | cons c r ih =>
    intro m
    simp only [List.foldl_cons, List.map_cons]
    rw [ih (fun c hc => h c (List.mem_cons_of_mem _ hc)), useCallback_eq eq m (h c List.mem_cons_self)]

/-- The same renders for `use_callback` with dependencies that are given (auxiliary, no code of /repo). -/
theorem useCallback_hooks {V} (eq : V → V → Bool) (cs : List (Call V)) (c : Call V) (h : ∀ p ∈ cs ++ [c], Plain p) :
    (useCallback eq (callbackAfter eq cs) c).2.1 =
      Verif.Hooks.useCallback eq (cs.map fun c => (some c.vals, c.fn)) (some c.vals) c.fn := by
  rw [useCallback_eq eq _ (h c (by simp)), callbackAfter_eq eq cs (fun p hp => h p (List.mem_append_left _ hp))]
  unfold Verif.Hooks.useCallback
  rw [List.map_map]
  rfl

/-- **C91**, `use_callback` (partial): a component passes in every render the same function of its source, without dependencies.  If
nothing but the function's local variables matters, variables that the hook takes for equal are the same, and no variable is assigned after
the hook was called, then the callback that is returned does, whenever it is called, what the function of this very render would do. -/
theorem C91_callback_partial {V G R} (sem : Sem V G R) (eq : V → V → Bool) (k : Nat) (cs : List (Call V)) (c : Call V)
    (hp : ∀ p ∈ cs ++ [c], Plain p ∧ p.fn.code = k)
    (hvars : ∀ vars d d' g g', sem k vars d g = sem k vars d' g')
    (hkeep : ∀ p ∈ cs ++ [c], p.fn.later = p.fn.hooked)
    (hsame : ∀ p ∈ cs ++ [c], ∀ p' ∈ cs ++ [c], SameVars eq p.fn.hooked p'.fn.hooked → p.fn.hooked = p'.fn.hooked) :
    ∃ f, (useCallback eq (callbackAfter eq cs) c).2.1 = .ok (some f) ∧
      ∀ g, sem f.code f.later f.defaults g = sem c.fn.code c.fn.later c.fn.defaults g := by
  have hc : c ∈ cs ++ [c] := by simp
  rw [useCallback_hooks eq cs c (fun p h => (hp p h).1)]
  obtain ⟨pre, d0, f0, post, h1, h2, h3⟩ := C23_callback eq (cs.map fun c => (some c.vals, c.fn)) (some c.vals) c.fn
  refine ⟨f0, h2, fun g => ?_⟩
  have hall : (cs ++ [c]).map (fun c => ((some c.vals, c.fn) : Option (List V) × Fn V)) = pre ++ (d0, f0) :: post := by
    rw [← h1]; simp
  obtain ⟨p, hpm, he⟩ := List.mem_map.1 (show (d0, f0) ∈ (cs ++ [c]).map (fun c => ((some c.vals, c.fn) : Option (List V) × Fn V)) by
    rw [hall]; simp)
  injection he with e1 e2
  subst e1 e2
  have hfin : p.fn.hooked = c.fn.hooked := by
    rcases List.eq_nil_or_concat post with rfl | ⟨post', q, rfl⟩
    · have := (List.append_inj' h1 (by simp)).2
      simp only [List.cons.injEq, Prod.mk.injEq, and_true] at this
      rw [this.2]
    · rw [List.concat_eq_append] at h1
      have h1' : cs.map (fun c => ((some c.vals, c.fn) : Option (List V) × Fn V)) ++ [(some c.vals, c.fn)] =
          (pre ++ (some p.vals, p.fn) :: post') ++ [q] := by rw [h1]; simp
      have e : q = (some c.vals, c.fn) := by
        have := (List.append_inj' h1' (by simp)).2
        simpa using this.symm
      obtain ⟨d', hd', heq⟩ := h3 q (by simp)
      rw [e] at hd'
      injection hd' with hd'
      subst hd'
      exact hsame p hpm c hc ((sameVars_iff eq (hp p hpm).1 (hp c hc).1).1 heq)
  rw [hkeep p hpm, hkeep c hc, hfin, (hp p hpm).2, (hp c hc).2]
  exact hvars _ _ _ _ _

example : (useCallback (· == ·) (callbackAfter (· == ·) [{ fn := { code := 0, hooked := [some 3], later := [some 3] } }])
    { fn := { code := 0, hooked := [some 3], later := [some 3] } } : Memo Nat (Fn Nat) × _).2.1.toOption =
    some (some { code := 0, hooked := [some 3], later := [some 3] }) := by decide +kernel

/-- **C91**, identity of callbacks: while the variables keep their values, `use_callback` returns the same function. -/
theorem C91_callback_same {V} {eq : V → V → Bool} (he : Equiv eq) (cs : List (Call V)) (c c' : Call V)
    (hp : ∀ p ∈ cs ++ [c, c'], Plain p) (h : SameVars eq c.fn.hooked c'.fn.hooked) :
    (useCallback eq (callbackAfter eq (cs ++ [c])) c').2.1 = (useCallback eq (callbackAfter eq cs) c).2.1 := by
  rw [useCallback_hooks eq (cs ++ [c]) c' (fun p h => hp p (by simpa using h)),
    useCallback_hooks eq cs c (fun p h => hp p (by
      rcases List.mem_append.1 h with h | h
      · exact List.mem_append_left _ h
      · simp only [List.mem_singleton] at h; subst h; simp))]
  rw [List.map_append]
  exact C23_callback_same he _ _ _ _ _ ((sameVars_iff eq (hp c (by simp)) (hp c' (by simp))).2 h)

example : Equiv (fun a b : Nat => a == b) := ⟨by simp, by simp, by simp⟩

/-! ### Effects -/

theorem effectAfter_eq {V} (eq : V → V → Bool) (cs : List (Call V)) (h : ∀ c ∈ cs, Plain c) :
    effectAfter eq cs = Memo.run eq (cs.map fun c => (some c.vals, .ok ())) := by
  suffices ∀ (m : Memo V Unit), cs.foldl (fun m c => (useEffect eq m c).1) m =
      (cs.map fun c => ((some c.vals, .ok ()) : Option (List V) × Except Unit Unit)).foldl (fun m r => (m.use eq r.1 r.2).1) m from
    this {}
  induction cs with
  | nil => intro m; rfl
  | cons c r ih =>
    intro m
    simp only [List.foldl_cons, List.map_cons]
    rw [ih (fun c hc => h c (List.mem_cons_of_mem _ hc))]
    congr 1
    unfold useEffect
    rw [(plain_deps (h c List.mem_cons_self)).1]

/-- **C91**, effects: without dependencies an effect is run after a render if this is the first one or one of the effect's variables changed
since the render before, and not otherwise. -/
theorem C91_effect {V} {eq : V → V → Bool} (he : Equiv eq) (cs : List (Call V)) (c : Call V) (hp : ∀ p ∈ cs ++ [c], Plain p) :
    ∃ b, (useEffect eq (effectAfter eq cs) c).2 = .ok b ∧
      (b = true ↔ cs = [] ∨ ∃ p, cs.getLast? = some p ∧ ¬ SameVars eq p.fn.hooked c.fn.hooked) := by
  have hc : c ∈ cs ++ [c] := by simp
  rw [effectAfter_eq eq cs (fun p h => hp p (List.mem_append_left _ h))]
  unfold useEffect
  rw [(plain_deps (hp c hc)).1]
  refine ⟨_, rfl, ?_⟩
  rw [C22_called_partial he _ (by
    intro r hr
    obtain ⟨p, _, rfl⟩ := List.mem_map.1 hr
    exact ⟨(), rfl⟩)]
  constructor
  · rintro (h | h | ⟨p, d', h1, h2, h3⟩)
    · exact .inl (by simpa using h)
    · cases h
    · right
      rw [List.getLast?_map] at h1
      cases hl : cs.getLast? with
      | none => rw [hl] at h1; cases h1
      | some q =>
        rw [hl] at h1
        simp only [Option.map_some, Option.some.injEq] at h1
        subst h1
        injection h2 with h2
        subst h2
        refine ⟨q, rfl, fun h => h3 ?_⟩
        exact (sameVars_iff eq (hp q (List.mem_append_left _ (List.mem_of_getLast? hl))) (hp _ hc)).2 h
  · rintro (rfl | ⟨q, hl, h⟩)
    · exact .inl rfl
    · right; right
      refine ⟨(some q.vals, .ok ()), c.vals, by rw [List.getLast?_map, hl]; rfl, rfl, fun h' => h ?_⟩
      exact (sameVars_iff eq (hp q (List.mem_append_left _ (List.mem_of_getLast? hl))) (hp _ hc)).1 h'

example : ((useEffect (· == ·) (effectAfter (· == ·) [{ fn := { code := 0, hooked := [some 3] } }]) ({ fn := { code := 0, hooked := [some 3] } } : Call Nat)).2.toOption,
    (useEffect (· == ·) (effectAfter (· == ·) [{ fn := { code := 0, hooked := [some 3] } }]) ({ fn := { code := 0, hooked := [some 4] } } : Call Nat)).2.toOption) =
    (some false, some true) := by decide +kernel

/-! ### Where it fails -/

/-- C91 is violated: values that a function takes as defaults of its parameters (`lambda x=x: ...`) are not seen: `use_memo` goes on returning the
result for the values of the first render. -/
theorem C91_default_violated {V R} (sem : Sem V Unit R) (eq : V → V → Bool) (a b : V) (r : R) (h : sem 0 [] [a] () = .ok r) :
    (useMemo sem eq (memoAfter sem eq [({ fn := { code := 0, defaults := [a] } }, ())]) { fn := { code := 0, defaults := [b] } } ()).2 =
      (.ok (some r), false) := by
  simp [memoAfter, useMemo, Call.deps, infer, contents, Memo.use, Memo.check, h, sameDeps]

example : (fun _ _ d _ => .ok (d.headD 0) : Sem Nat Unit Nat) 0 [] [1] () = .ok 1 := rfl

/-- C91 is violated: a component that passes another function with equal variables (`use_memo(f if condition else g)`) gets the result of the
function that it passed before. -/
theorem C91_function_violated {V R} (sem : Sem V Unit R) {eq : V → V → Bool} (he : Equiv eq) (x : V) (r : R) (h : sem 0 [some x] [] () = .ok r) :
    (useMemo sem eq (memoAfter sem eq [({ fn := { code := 0, hooked := [some x] } }, ())]) { fn := { code := 1, hooked := [some x] } } ()).2 =
      (.ok (some r), false) := by
  simp [memoAfter, useMemo, Call.deps, infer, contents, Memo.use, Memo.check, h, sameDeps, he.refl]

/-- C91 is violated: a variable that is assigned after `use_callback` was called is compared by the value it had before; the callback of an
earlier render is returned, and uses the value that the variable had at the end of that render. -/
theorem C91_assigned_later_violated {V} {eq : V → V → Bool} (he : Equiv eq) (x a b : V) :
    ∃ f, (useCallback eq (callbackAfter eq [{ fn := { code := 0, hooked := [some x], later := [some a] } }])
        { fn := { code := 0, hooked := [some x], later := [some b] } }).2.1 = .ok (some f) ∧ f.later = [some a] := by
  refine ⟨{ code := 0, hooked := [some x], later := [some a] }, ?_, rfl⟩
  simp [callbackAfter, useCallback, Call.deps, infer, contents, Memo.use, Memo.check, sameDeps, he.refl]

/-- C91 is violated: a function over a local function of the component is not seen to change, although the local function uses other values now:
`use_callback` returns the old one. -/
theorem C91_local_function_violated : ∃ x y : Obj, x.closure ≠ y.closure ∧ ∀ pyEq,
    (useCallback (strictlyEqual isLocalName pyEq) (callbackAfter (strictlyEqual isLocalName pyEq)
      [{ fn := { code := 0, hooked := [some x], later := [some x] } }]) { fn := { code := 0, hooked := [some y], later := [some y] } }).2.1 =
      .ok (some { code := 0, hooked := [some x], later := [some x] }) := by
  refine ⟨{ identity := 1, type := 0, qualname := "page.<locals>.f", code := some 7, closure := [1] },
    { identity := 2, type := 0, qualname := "page.<locals>.f", code := some 7, closure := [2] }, by decide, ?_⟩
  intro pyEq
  have hl : isLocalName "page.<locals>.f" = true := by decide +kernel
  simp [callbackAfter, useCallback, Call.deps, infer, contents, Memo.use, Memo.check, sameDeps, strictlyEqual, hl]

theorem contents_none {V} {l : List (Option V)} (h : none ∈ l) : contents l = .error () := by
  induction l with
  | nil => cases h
  | cons x r ih =>
    cases x with
    | none => rfl
    | some v =>
      have hr : none ∈ r := by simpa using h
      simp [contents, ih hr]

/-- C91 is violated: a function that mentions a variable which is assigned further down in the component (as in two functions that call each other) makes
every hook raise, whatever the hook has seen before. -/
theorem C91_unassigned_violated {V G R} (sem : Sem V G R) (eq : V → V → Bool) (m : Memo V R) (m' : Memo V (Fn V)) (m'' : Memo V Unit) (c : Call V) (g : G)
    (h : c.given = .auto) (hd : c.decorator = false) (hf : c.fn.isFunction = true) (hn : none ∈ c.fn.hooked) :
    (useMemo sem eq m c g).2.1 = .error () ∧ (useCallback eq m' c).2.1 = .error () ∧ (useEffect eq m'' c).2 = .error () := by
  have hc : c.deps = .error () := by
    unfold Call.deps infer
    simp [h, hd, hf, contents_none hn]
  simp [useMemo, useCallback, useEffect, hc]

example : (none : Option Nat) ∈ ({ fn := { code := 0, hooked := [some 1, none], later := [some 1, some 2] } } : Call Nat).fn.hooked := by simp

/-- C91 is violated: given by decorating it (`@use_callback()`), or as a method, a callback is a new one in every render, although nothing changed. -/
theorem C91_decorated_violated {V} (eq : V → V → Bool) (m : Memo V (Fn V)) (c : Call V) (h : c.given = .auto)
    (ho : c.decorator = true ∨ c.fn.isFunction = false) :
    (useCallback eq m c).2 = (.ok (some c.fn), true) := by
  have hd : c.deps = .ok none := by
    unfold Call.deps infer
    rw [h]
    rcases ho with ho | ho
    · simp [ho]
    · cases c.decorator <;> simp [ho]
  unfold useCallback
  rw [hd]
  have hck : (m.check eq none).2 = true := by
    unfold Memo.check
    cases m.value <;> rfl
  cases hm : m.check eq none with
  | mk m' b =>
    rw [hm] at hck
    simp only at hck
    subst hck
    simp [Memo.use, hm]

end Verif.Hooks.Infer
