import Verif.Hooks.Debug
import Verif.Hooks.InferProps
/-! # C101: `use_debug_value` logs the message when it has changed -/
namespace Verif.Hooks.Infer

/-! ### Specification -/

/-- What is to be logged when the message is `v` in each render: in debug mode the messages that differ from the one logged last. -/
def changesLogged {G R} (ne : G → R → R → Bool) (text : G → R → String) : Option R → List (Bool × R × G) → List (Option String)
  | _, [] => []
  | last, (debug, v, g) :: rs =>
    if debug = true ∧ (∀ o, last = some o → ne g o v = true) then some (text g v) :: changesLogged ne text (some v) rs
    else none :: changesLogged ne text last rs

/-- The call of `use_memo` in a render. -/
def DebugRender.call {V G} (const : Nat) (r : DebugRender V G) : Call V × G := ({ fn := r.message.fn const, given := r.dependencies }, r.world)

/-! ### Lemmas -/

theorem changesLogged_cons {G R} (ne : G → R → R → Bool) (text : G → R → String) (last : Option R) (debug : Bool) (v : R) (g : G)
    (rs : List (Bool × R × G)) : changesLogged ne text last ((debug, v, g) :: rs) =
      if (debug && differs ne g last v) = true then some (text g v) :: changesLogged ne text (some v) rs
      else none :: changesLogged ne text last rs := by
  rw [changesLogged]
  congr 1
  cases last <;> simp [differs]

theorem debugLog_eq {V G R} (sem : Sem V G R) (eq : V → V → Bool) (ne : G → R → R → Bool) (text : G → R → String) (const k : Nat)
    (before rs : List (DebugRender V G × R)) (s : Debug V R) (hs : s.memo = memoAfter sem eq (before.map (fun r => r.1.call const)))
    (hp : ∀ r ∈ before ++ rs, Plain (r.1.call const).1 ∧ (r.1.call const).1.fn.code = k)
    (hok : ∀ r ∈ before ++ rs, fresh sem (r.1.call const).1 r.1.world = .ok r.2)
    (hvars : ∀ vars d d' g g', sem k vars d g = sem k vars d' g')
    (hsame : ∀ p ∈ before ++ rs, ∀ p' ∈ before ++ rs, SameVars eq (p.1.call const).1.fn.hooked (p'.1.call const).1.fn.hooked →
      (p.1.call const).1.fn.hooked = (p'.1.call const).1.fn.hooked) :
    debugLog sem eq ne text const s (rs.map (·.1)) =
      (changesLogged ne text s.old (rs.map fun r => (r.1.debug, r.2, r.1.world))).map .ok := by
  induction rs generalizing before s with
  | nil => rfl
  | cons rv rs ih =>
    obtain ⟨r, val⟩ := rv
    have hr : (r, val) ∈ before ++ (r, val) :: rs := by simp
    have hmem : ∀ p ∈ before.map (fun r => r.1.call const) ++ [r.call const], ∃ q ∈ before ++ (r, val) :: rs, q.1.call const = p := by
      intro p hp'
      rcases List.mem_append.1 hp' with h | h
      · obtain ⟨q, hq, rfl⟩ := List.mem_map.1 h
        exact ⟨q, by simp [hq], rfl⟩
      · simp only [List.mem_singleton] at h
        exact ⟨(r, val), hr, h.symm⟩
    obtain ⟨v, hv, hm⟩ := C91_memo_partial sem eq k (before.map (fun r => r.1.call const)) (r.call const).1 r.world (by
        intro p hp'
        obtain ⟨q, hq, rfl⟩ := hmem p hp'
        exact hp q hq) (by
        intro p hp'
        obtain ⟨q, hq, rfl⟩ := hmem p hp'
        exact ⟨_, hok q hq⟩) hvars (by
        intro p hp1 p' hp2
        obtain ⟨q, hq, rfl⟩ := hmem p hp1
        obtain ⟨q', hq', rfl⟩ := hmem p' hp2
        exact hsame q hq q' hq')
    have hval : v = val := by
      have := hok _ hr
      rw [hv] at this
      simpa using this
    subst hval
    rw [← hs] at hm
    have hnext : (useMemo sem eq s.memo (r.call const).1 r.world).1 =
        memoAfter sem eq ((before ++ [(r, v)]).map (fun r => r.1.call const)) := by
      rw [hs, List.map_append, memoAfter, memoAfter, List.foldl_append]
      rfl
    rw [List.map_cons, debugLog, List.map_cons, changesLogged_cons]
    have happ : before ++ (r, v) :: rs = (before ++ [(r, v)]) ++ rs := by simp
    rw [happ] at hp hok hsame
    have hu : useDebugValue sem eq ne text const r.debug s r.message r.dependencies r.world =
        if (r.debug && differs ne r.world s.old v) = true then
          (⟨some v, memoAfter sem eq ((before ++ [(r, v)]).map (fun r => r.1.call const))⟩, .ok (some (text r.world v)))
        else (⟨s.old, memoAfter sem eq ((before ++ [(r, v)]).map (fun r => r.1.call const))⟩, .ok none) := by
      rw [← hnext]
      unfold useDebugValue
      have hm' : (useMemo sem eq s.memo { fn := r.message.fn const, given := r.dependencies } r.world).2.1 = .ok (some v) := hm
      show _ = if _ then (Debug.mk _ (useMemo sem eq s.memo { fn := r.message.fn const, given := r.dependencies } r.world).1, _) else
        (Debug.mk _ (useMemo sem eq s.memo { fn := r.message.fn const, given := r.dependencies } r.world).1, _)
      generalize useMemo sem eq s.memo { fn := r.message.fn const, given := r.dependencies } r.world = u at hm' ⊢
      obtain ⟨m, o, b⟩ := u
      have hm' : o = .ok (some v) := hm'
      subst hm'
      rfl
    simp only [hu]
    cases r.debug && differs ne r.world s.old v
    · simp only [Bool.false_eq_true, if_false]
      rw [ih (before ++ [(r, v)]) _ rfl hp hok hsame]; rfl
    · simp only [if_true]
      rw [ih (before ++ [(r, v)]) _ rfl hp hok hsame]; rfl

/-! ### C101 -/

/-- **C101** (partial): a component passes in every render the same function of its source, without dependencies, whose result depends only on its
local variables; `rs` has the renders, and with each the result that the function has in it.  Then each render in debug mode logs this result exactly
if it differs from the one logged last, and other renders log nothing. -/
theorem C101_functions_partial {V G R} (sem : Sem V G R) (eq : V → V → Bool) (ne : G → R → R → Bool) (text : G → R → String) (const k : Nat)
    (rs : List (DebugRender V G × R))
    (hp : ∀ r ∈ rs, Plain (r.1.call const).1 ∧ (r.1.call const).1.fn.code = k)
    (hok : ∀ r ∈ rs, fresh sem (r.1.call const).1 r.1.world = .ok r.2)
    (hvars : ∀ vars d d' g g', sem k vars d g = sem k vars d' g')
    (hsame : ∀ p ∈ rs, ∀ p' ∈ rs, SameVars eq (p.1.call const).1.fn.hooked (p'.1.call const).1.fn.hooked →
      (p.1.call const).1.fn.hooked = (p'.1.call const).1.fn.hooked) :
    debugLog sem eq ne text const {} (rs.map (·.1)) =
      (changesLogged ne text none (rs.map fun r => (r.1.debug, r.2, r.1.world))).map .ok :=
  debugLog_eq sem eq ne text const k [] rs {} rfl hp hok hvars hsame

/-- **C101** (partial): the same for messages that are not functions, such as numbers and text: values that the hook takes for equal are the same. -/
theorem C101_values_partial {V G} (eq : V → V → Bool) (ne : G → V → V → Bool) (text : G → V → String) (const : Nat)
    (rs : List (Bool × V × G)) (hsame : ∀ p ∈ rs, ∀ p' ∈ rs, eq p.2.1 p'.2.1 = true → p.2.1 = p'.2.1) :
    debugLog constant eq ne text const {} (rs.map fun p => { debug := p.1, message := .value p.2.1, world := p.2.2 }) =
      (changesLogged ne text none rs).map .ok := by
  have h := C101_functions_partial (constant (V := V) (G := G)) eq ne text const const
    (rs.map fun p => ({ debug := p.1, message := .value p.2.1, world := p.2.2 }, p.2.1)) (by
      intro r hr
      obtain ⟨p, _, rfl⟩ := List.mem_map.1 hr
      exact ⟨⟨rfl, rfl, rfl, by simp [DebugRender.call, Message.fn]⟩, rfl⟩) (by
      intro r hr
      obtain ⟨p, _, rfl⟩ := List.mem_map.1 hr
      rfl) (fun _ _ _ _ _ => rfl) (by
      intro r hr r' hr' h
      obtain ⟨p, hp, rfl⟩ := List.mem_map.1 hr
      obtain ⟨p', hp', rfl⟩ := List.mem_map.1 hr'
      simp only [DebugRender.call, Message.fn, SameVars, and_true] at h
      simp only [DebugRender.call, Message.fn, hsame p hp p' hp' h])
  simpa [List.map_map, Function.comp_def] using h

/-- C101: outside debug mode nothing is ever logged. -/
theorem C101_off {V G R} (sem : Sem V G R) (eq : V → V → Bool) (ne : G → R → R → Bool) (text : G → R → String) (const : Nat)
    (s : Debug V R) (rs : List (DebugRender V G)) (h : ∀ r ∈ rs, r.debug = false) :
    ∀ o ∈ debugLog sem eq ne text const s rs, ∀ line, o ≠ .ok (some line) := by
  induction rs generalizing s with
  | nil => simp [debugLog]
  | cons r rs ih =>
    intro o ho
    rw [debugLog] at ho
    rcases List.mem_cons.1 ho with rfl | ho
    · intro line
      unfold useDebugValue
      rw [h r (by simp)]
      split <;> simp
    · exact ih _ (fun r hr => h r (by simp [hr])) o ho

/-! ### Examples -/

/-- Six renders, the last three in debug mode as well as the first two; the message is a number. -/
example : (debugLog constant (fun a b => a == b) (fun (_ : Unit) a b => a != b) (fun _ n => toString n) 0 {}
    ([(true, 1, ()), (true, 1, ()), (false, 2, ()), (true, 2, ()), (true, 2, ()), (true, 1, ())].map
      fun p => { debug := p.1, message := .value p.2.1, world := p.2.2 })).map Except.toOption =
    [some (some "1"), some none, some none, some (some "2"), some none, some (some "1")] := by decide +kernel

/-- A function of one variable; renders with values 3, 3 and 4. -/
example : (debugLog one (fun a b => a == b) (fun (_ : Unit) a b => a != b) (fun _ n => toString n) 0 {}
    ([3, 3, 4].map fun n => { debug := true, message := .func { code := 7, hooked := [some n] }, world := () })).map Except.toOption =
    [some (some "3"), some none, some (some "4")] := by decide +kernel

/-! ### Violations -/

/-- C101 is violated: the message is a list that the component changes between renders (`world` is its content, the message the list itself); the
second content is not logged, because the old message is the same list. -/
theorem C101_mutated_violated : (debugLog constant (fun a b => a == b) (fun (content : List Nat) (_ _ : Unit) => content != content)
    (fun content _ => toString content) 0 {}
    ([[1], [1, 2]].map fun content => { debug := true, message := .value (), world := content })).map Except.toOption =
      [some (some "[1]"), some none] := by decide +kernel

/-- C101 is violated: the message is `lambda: ref.current`; the function has the same variable `ref` in every render, so that it is never called
again, and changes of `ref.current` (`world`) are not logged. -/
theorem C101_ref_violated : (debugLog (fun _ _ _ (current : Nat) => Except.ok current) (fun (a b : Unit) => a == b)
    (fun _ a b => a != b) (fun _ n => toString n) 0 {}
    ([1, 2].map fun current => { debug := true, message := .func { code := 7, hooked := [some ()] }, world := current })).map Except.toOption =
      [some (some "1"), some none] := by decide +kernel

end Verif.Hooks.Infer
