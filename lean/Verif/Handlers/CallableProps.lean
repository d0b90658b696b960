import Verif.Handlers.Callable
import Verif.Handlers.Props
/-!
# C87: any callable can handle events

"Whatever callable is given as an event handler — a function, a coroutine function, a decorated function, a partial, a method or any other
callable — an event runs the user's function exactly once with the data of the event, and the handler has the options that the function
asks for."
-/
namespace Verif.Handlers

/-! ### Specification -/

/-- The function of the user that a callable stands for. -/
def Py.target : Py → Nat
  | .fn id _ _ => id
  | .deco _ _ i => i.target
  | .part _ i => i.target
  | .bound _ i => i.target
  | .codeless id => id

/-- The arguments that it is given before those of the call. -/
def Py.given : Py → List Arg
  | .fn _ _ _ => []
  | .deco _ _ i => i.given
  | .part b i => i.given ++ b
  | .bound s i => i.given ++ [s]
  | .codeless _ => []

/-- What a call returns is a coroutine: that of a coroutine function, also through an ordinary decorator. -/
def Py.gives : Py → Bool
  | .fn _ b _ => b
  | .deco b _ i => b || i.gives
  | .part _ i => i.gives
  | .bound _ i => i.gives
  | .codeless _ => false

/-- Decorators around a function, or around a partial of a function that binds no positional arguments. -/
inductive Around (id : Nat) (b : Bool) (f : Fn) : Py → Prop
  | fn : Around id b f (.fn id b f)
  | part : Around id b f (.part [] (.fn id b f))
  | deco {c : Py} (ba : Bool) (own : Fn) : Around id b f c → Around id b f (.deco ba own c)

/-- The body of a callable itself: that of a function, of a decorator, or of the function of a method. -/
inductive Body : Py → Fn → Prop
  | fn {id : Nat} {b : Bool} {f : Fn} : Body (.fn id b f) f
  | deco {b : Bool} {own : Fn} {i : Py} : Body (.deco b own i) own
  | method {self : Arg} {i : Py} {f : Fn} : Body i f → Body (.bound self i) f

/-- The body in which the options of a handler are looked for: inside decorators, which methods may have, and inside one partial. -/
inductive LooksIn : Py → Fn → Prop
  | fn {id : Nat} {b : Bool} {f : Fn} : LooksIn (.fn id b f) f
  | deco {b : Bool} {own f : Fn} {i : Py} : LooksIn i f → LooksIn (.deco b own i) f
  | method {self : Arg} {i : Py} {f : Fn} : (∀ b own j, i ≠ .deco b own j) → Body i f → LooksIn (.bound self i) f
  | decoratedMethod {self : Arg} {b : Bool} {own f : Fn} {i : Py} : LooksIn i f → LooksIn (.bound self (.deco b own i)) f
  | part {args : List Arg} {i : Py} {f : Fn} : Body i f → LooksIn (.part args i) f

/-! ### Lemmas -/

theorem code_iff (c : Py) (f : Fn) : c.code = some f ↔ Body c f := by
  induction c with
  | fn id b g => exact ⟨fun h => by cases h; exact .fn, fun h => by cases h; rfl⟩
  | deco b own i => exact ⟨fun h => by cases h; exact .deco, fun h => by cases h; rfl⟩
  | part b i => exact ⟨(fun h => by cases h), (fun h => by cases h)⟩
  | bound s i ih => exact ⟨fun h => .method (ih.1 h), fun h => by cases h with | method h => exact ih.2 h⟩
  | codeless id => exact ⟨(fun h => by cases h), (fun h => by cases h)⟩

theorem strip_iff : ∀ (c : Py) (f : Fn), c.strip.unpart.code = some f ↔ LooksIn c f
  | .fn id b g, f => ⟨fun h => by cases h; exact .fn, fun h => by cases h; rfl⟩
  | .deco b own i, f => ⟨fun h => .deco ((strip_iff i f).1 h), fun h => by cases h with | deco h => exact (strip_iff i f).2 h⟩
  | .part b i, f => ⟨fun h => .part ((code_iff i f).1 h), fun h => by cases h with | part h => exact (code_iff i f).2 h⟩
  | .codeless id, f => ⟨(fun h => by cases h), (fun h => by cases h)⟩
  | .bound s (.deco b own i), f => ⟨fun h => .decoratedMethod ((strip_iff i f).1 h), fun h => by
      cases h with
      | method h' _ => exact absurd rfl (h' _ _ _)
      | decoratedMethod h => exact (strip_iff i f).2 h⟩
  | .bound s (.fn id b g), f => ⟨fun h => .method (by simp) ((code_iff (.fn id b g) f).1 h), fun h => by
      cases h with | method _ h => exact (code_iff (.fn id b g) f).2 h⟩
  | .bound s (.part b i), f => ⟨fun h => .method (by simp) ((code_iff (.part b i) f).1 h), fun h => by
      cases h with | method _ h => exact (code_iff (.part b i) f).2 h⟩
  | .bound s (.bound t i), f => ⟨fun h => .method (by simp) ((code_iff (.bound t i) f).1 h), fun h => by
      cases h with | method _ h => exact (code_iff (.bound t i) f).2 h⟩
  | .bound s (.codeless id), f => ⟨(fun h => by cases h), fun h => by
      cases h with | method _ h => cases h⟩

theorem call_eq (c : Py) (a : List Arg) : c.call a =
    if c.gives then { now := [], coro := some [(c.target, c.given ++ a)] } else { now := [(c.target, c.given ++ a)] } := by
  induction c generalizing a with
  | fn id b f => cases b <;> rfl
  | deco b f i ih =>
    cases b
    · simp only [Py.call, ih, Py.gives, Bool.false_or, Py.target, Py.given]
    · simp only [Py.call, ih, Py.gives, Bool.true_or, if_true, Py.target, Py.given]
      cases i.gives <;> rfl
  | part b i ih => simp only [Py.call, ih, Py.gives, Py.target, Py.given, List.append_assoc]
  | bound s i ih => simp only [Py.call, ih, Py.gives, Py.target, Py.given, List.append_assoc, List.cons_append, List.nil_append]
  | codeless id => rfl

theorem isCoro_gives (c : Py) (h : c.isCoro = true) : c.gives = true := by
  induction c with
  | fn id b f => exact h
  | deco b f i ih => simp only [Py.isCoro] at h; simp [Py.gives, h]
  | part b i ih => exact ih h
  | bound s i ih => exact ih h
  | codeless id => cases h

/-! ### Properties -/

/-- **C87, exact.**  An event runs the user's function, once, with the data of the event after the arguments it was given before — unless
calling it returns a coroutine although it is not a coroutine function: then nothing runs. -/
theorem C87_called (positional : Bool) (c : Py) (data : List Nat) :
    runs positional c data = if c.gives = true ∧ c.isCoro = false then [] else
      [(c.target, c.given ++ (if positional then data.map .val else [.list data]))] := by
  unfold runs
  rw [call_eq]
  cases hg : c.gives
  · have hc : c.isCoro = false := by
      cases h : c.isCoro
      · rfl
      · rw [isCoro_gives c h] at hg; cases hg
    simp [hc]
  · cases hc : c.isCoro <;> simp

/-- **C87, partial.**  Functions and coroutine functions, with partials and methods of them, and with decorators that are coroutine
functions exactly when what they wrap is: an event runs the user's function exactly once. Missing: ordinary decorators of coroutine functions
(`C87_decorated_coroutine_violated`). -/
theorem C87_called_once_partial (c : Py) (data : List Nat) (h : c.gives = c.isCoro) :
    runs true c data = [(c.target, c.given ++ data.map .val)] := by
  rw [C87_called, h, if_neg (by simp)]
  rfl

example : let c : Py := .part [.val 7] (.deco true exFn (.fn 3 true exFn))
    c.gives = c.isCoro ∧ runs true c [1, 2] = [(3, [.val 7, .val 1, .val 2])] := by decide +kernel

/-- **C87 is violated** by a coroutine function in an ordinary decorator (`functools.wraps`): its coroutine is never awaited, the
user's function does not run. -/
theorem C87_decorated_coroutine_violated : ∃ c : Py, c = .deco false exFn (.fn 3 true exFn) ∧ ∀ data, runs true c data = [] :=
  ⟨_, rfl, fun data => by rw [C87_called]; rfl⟩

/-- **C87, exact.**  A handler can be made exactly if, after removing decorators and then one partial, there is a function, a decorated
function or a method: then it is made from this callable with the settings given, and with what the inspection reports. -/
theorem C87_made (positional : Bool) (c : Py) (s : Settings) (h : Made) :
    makeHandler positional c s = some h ↔ ∃ f, LooksIn c f ∧
      h = { positional, callable := c, settings := (mkHandler (.user 0) s (inspect f)).settings } := by
  simp only [← strip_iff]
  unfold makeHandler
  split
  · rename_i hn; simp [hn]
  · rename_i f hf
    simp only [hf, Option.some.injEq, exists_eq_left']
    exact eq_comm

/-- The method of an object, decorated, and a partial of a method. -/
example : LooksIn (.bound (.val 1) (.deco false exFn (.fn 3 true exFn))) exFn ∧ LooksIn (.part [] (.bound (.val 1) (.fn 3 true exFn))) exFn :=
  ⟨.decoratedMethod .fn, .part (.method .fn)⟩

/-- **C87 is violated** by callables without byte code: giving `print`, `items.append`, a class or an object with `__call__` as a handler
raises `AttributeError`; so does giving a partial or a decorated one of them. -/
theorem C87_builtin_violated (id : Nat) (positional ba : Bool) (own : Fn) (args : List Arg) (s : Settings) :
    makeHandler positional (.codeless id) s = none ∧ makeHandler positional (.part args (.codeless id)) s = none ∧
    makeHandler positional (.deco ba own (.codeless id)) s = none := ⟨rfl, rfl, rfl⟩

theorem around_code {id : Nat} {b : Bool} {f : Fn} {c : Py} (h : Around id b f c) : c.strip.unpart.code = some f := by
  induction h with
  | fn => rfl
  | part => rfl
  | deco ba own _ ih => exact ih

/-- **C87, partial.**  A function in any number of decorators, or a partial of it that binds no positional arguments: the handler is made
and has the options that were given, with `preventDefault` (`stopPropagation`) also set if the source of the function contains
`event.preventDefault` (`event.stopPropagation`); its debounce is the one assigned in the source, if that is reported, else the one given.
Missing: the partials of `C87_partial_violated` and `C87_decorated_partial_violated`, and methods (`C33_method_violated`). -/
theorem C87_options_partial (id : Nat) (b : Bool) (f : Fn) (c : Py) (ha : Around id b f c) (ev : String) (src : Stmt)
    (hc : Compiled f ev src) (hp : src.Plain) (positional : Bool) (s : Settings) :
    ∃ h, makeHandler positional c s = some h ∧ h.callable = c ∧ h.positional = positional ∧
      (h.settings.prevent = true ↔ s.prevent = true ∨ src.Accesses ev "preventDefault") ∧
      (h.settings.stop = true ↔ s.stop = true ∨ src.Accesses ev "stopPropagation") ∧
      h.settings.target = s.target ∧ h.settings.throttle = s.throttle ∧
      (src.assignments ev = [] → h.settings.debounce = s.debounce) ∧
      (∀ d, (inspect f).debounce = some d → h.settings.debounce = some d) ∧
      ((inspect f).debounce = none → h.settings.debounce = s.debounce) := by
  obtain ⟨-, h2, h3, h4, h5, h6, h7, h8⟩ := C33_handler_partial f ev src hc hp (.user 0) s _ rfl
  exact ⟨_, (C87_made positional c s _).2 ⟨f, (strip_iff _ _).1 (around_code ha), rfl⟩, rfl, rfl, h2, h3, h4, h5, h6, h7, h8⟩

/-- A function in two decorators, one of a partial. -/
example : Around 3 true exFn (.deco true exFn (.deco true exFn (.part [] (.fn 3 true exFn)))) ∧
    ∃ h, makeHandler true (.deco true exFn (.deco true exFn (.part [] (.fn 3 true exFn)))) plainSettings = some h ∧
      h.settings.prevent = true ∧ h.settings.debounce = some 200 :=
  ⟨.deco _ _ (.deco _ _ .part), _, rfl, by decide +kernel, by decide +kernel⟩

/-- **C87, partial.**  The same for an attribute of an element, which gives no options: the handler is called with the data of the event as
its arguments, it stops propagation or prevents the default action exactly if the source says so, it has no target and no throttle of its
own, and no debounce unless the source assigns one. -/
theorem C87_attribute_partial (id : Nat) (b : Bool) (f : Fn) (c : Py) (ha : Around id b f c) (ev : String) (src : Stmt)
    (hc : Compiled f ev src) (hp : src.Plain) :
    ∃ h, makeHandler true c plainSettings = some h ∧ h.callable = c ∧ h.positional = true ∧
      (h.settings.prevent = true ↔ src.Accesses ev "preventDefault") ∧
      (h.settings.stop = true ↔ src.Accesses ev "stopPropagation") ∧
      h.settings.target = none ∧ h.settings.throttle = none ∧
      (src.assignments ev = [] → h.settings.debounce = none) ∧ h.settings.debounce = (inspect f).debounce := by
  obtain ⟨h, h1, h2, h3, h4, h5, h6, h7, h8, h9, h10⟩ := C87_options_partial id b f c ha ev src hc hp true plainSettings
  refine ⟨h, h1, h2, h3, h4.trans (by simp [plainSettings]), h5.trans (by simp [plainSettings]), h6, h7, h8, ?_⟩
  cases hd : (inspect f).debounce with
  | none => exact h10 hd
  | some d => exact h9 d hd

/-- The handler of the first example, as an attribute. -/
example : Around 3 true exFn (.fn 3 true exFn) ∧ ∃ h, makeHandler true (.fn 3 true exFn) plainSettings = some h ∧
    h.settings.prevent = true ∧ h.settings.stop = false := ⟨.fn, _, rfl, by decide +kernel, by decide +kernel⟩

/-- `def h(item, event): event.preventDefault()`. -/
def itemSrc : Stmt := .expr (.call (.attr (.var "event") "preventDefault"))
def itemFn : Fn := { argcount := 2, names := ["preventDefault"], varnames := ["item", "event"], instrs := itemSrc.code }

/-- **C87 is violated** by partials that bind a positional argument: `partial(h, item)` for `def h(item, event): event.preventDefault()`
is called with the event as second argument, but the inspection looks at the first; the default action is not prevented. -/
theorem C87_partial_violated (x : Nat) (data : List Nat) :
    runs true (.part [.val x] (.fn 3 false itemFn)) data = [(3, .val x :: data.map .val)] ∧
    itemSrc.Accesses "event" "preventDefault" ∧
    ∃ h, makeHandler true (.part [.val x] (.fn 3 false itemFn)) plainSettings = some h ∧ h.settings.prevent = false :=
  ⟨by rw [C87_called]; rfl, .inl ⟨rfl, rfl⟩, _, rfl,
    show (mkHandler (.user 0) plainSettings (inspect itemFn)).settings.prevent = false by decide +kernel⟩

/-- The code of a decorator `def wrapper(*args): return inner(*args)`. -/
def wrapperFn : Fn := { argcount := 0, names := [], varnames := ["args"], instrs := [.loadDeref "inner", .loadFast "args", .other 0] }

/-- **C87 is violated** by partials of decorated functions: below a partial, decorators are not removed, and the code of the decorator is
inspected. -/
theorem C87_decorated_partial_violated (data : List Nat) :
    runs true (.part [] (.deco false wrapperFn (.fn 3 false exFn))) data = [(3, data.map .val)] ∧ exSrc.Accesses "event" "preventDefault" ∧
    ∃ h, makeHandler true (.part [] (.deco false wrapperFn (.fn 3 false exFn))) plainSettings = some h ∧ h.settings.prevent = false :=
  ⟨by rw [C87_called]; rfl, .inl (.inl ⟨rfl, rfl⟩), _, rfl, by decide +kernel⟩

end Verif.Handlers
