/-! # Which component a hook call belongs to

Models `/repo/src/reactpy/core/_life_cycle_hook.py` 26–57 (`_HookStack`), 151–278 (`use_state`, context providers, begin and end of a
component's render, `set_current`, `unset_current`) and their use by `/repo/src/reactpy/core/layout.py` 229–272 (`_create_layout_update`)
and 330–352 (`_render_component`), under every interleaving of tasks.

The current component is not passed to a hook: it is looked up in a list that a context variable of the running task refers to.  A task
starts with a copy of the variables of the task that created it, so that several tasks can refer to one and the same list.  Lists are
therefore objects here, named by numbers.  Hook values, contexts and their values are numbers.  Simplified: a hook call of a component
body is a step of its own (in the code the whole body runs without interruption), and a component may make hook calls between and after
the renders of its children; both only add interleavings.  A body that raises, and a render that is cancelled, go on with the `leave` and
`finish` steps (`finally` of layout.py 349–350 and 271–272).  Not modelled: the thread-local variant (`_thread_local.py`), which nothing in
the package installs. -/
namespace Verif.Hooks.Stack

/-- `f` with another value at one place (auxiliary to the attribute assignments of _life_cycle_hook.py 155–164). -/
def put {α : Type} (f : Nat → α) (a : Nat) (b : α) : Nat → α := fun x => if x = a then b else f x

/-- What the model keeps of a `LifeCycleHook` (_life_cycle_hook.py 151–164). -/
structure Hook where
  /-- `_rendered_atleast_once`. -/
  rendered : Bool
  /-- `_current_state_index`. -/
  index : Nat
  /-- `_state`. -/
  state : List Nat
  /-- `_context_providers`. -/
  providers : Nat → Option Nat

/-- A run of `_create_layout_update` in some task (layout.py 229–272). -/
structure Update where
  /-- The list made by `HOOK_STACK.initialize()` (layout.py 232). -/
  list : Nat
  /-- The token: the list that the variable referred to before (layout.py 232, 272). -/
  token : Option Nat
  /-- The local variables `life_cycle_hook` of the calls of `_render_component` that are between `affect_component_will_render` and
  `affect_component_did_render`, innermost first (layout.py 330–350). -/
  frames : List Nat
  /-- The component of the update has begun to render: an update renders one component (layout.py 241–248). -/
  opened : Bool

/-- The state of the program (_life_cycle_hook.py 30, 151–164; layout.py 229–272). -/
structure St where
  /-- Contents of the list objects, last element first (_life_cycle_hook.py 39). -/
  lists : Nat → List Nat
  /-- List objects from here on do not exist yet (_life_cycle_hook.py 39). -/
  fresh : Nat
  /-- The task's value of the variable `hook_state` (_life_cycle_hook.py 30). -/
  var : Nat → Option Nat
  /-- The task has been created (layout.py 592; _life_cycle_hook.py 239). -/
  alive : Nat → Bool
  /-- What the task is updating (layout.py 229). -/
  upd : Nat → Option Update
  /-- `_render_access` is taken (_life_cycle_hook.py 164). -/
  held : Nat → Bool
  /-- The life cycle hooks (_life_cycle_hook.py 151). -/
  hook : Nat → Hook

/-- Nothing rendered yet; one task, the variable not set (_life_cycle_hook.py 30, 151–164). -/
def init : St :=
  { lists := fun _ => [], fresh := 0, var := fun _ => none, alive := fun t => t = 0, upd := fun _ => none, held := fun _ => false,
    hook := fun _ => { rendered := false, index := 0, state := [], providers := fun _ => none } }

/-- What tasks do. -/
inductive Op where
  /-- `t` creates the task `u` (layout.py 592 a render, _life_cycle_hook.py 239 an effect, layout.py 142 the events of a target, or user
  code). -/
  | spawn (t u : Nat)
  /-- `HOOK_STACK.initialize()` (layout.py 232). -/
  | start (t : Nat)
  /-- `affect_component_will_render` (layout.py 330). -/
  | enter (t h : Nat)
  /-- A hook with a state, with the value for its first time (hooks.py 571–572 `_use_const`, _life_cycle_hook.py 177). -/
  | use (t v : Nat)
  /-- The body of a context provider (types.py 1078–1082). -/
  | provide (t c v : Nat)
  /-- `use_context` (hooks.py 345). -/
  | read (t c : Nat)
  /-- `affect_component_did_render` (layout.py 350). -/
  | leave (t : Nat)
  /-- `HOOK_STACK.reset(token)` (layout.py 272). -/
  | finish (t : Nat)
deriving DecidableEq, Repr

/-- What comes out of a step. -/
inductive Out where
  /-- Nothing to see. -/
  | done
  /-- `RuntimeError("No life cycle hook is active. …")` (_life_cycle_hook.py 52–53). -/
  | noHook
  /-- The two errors of `unset_current` (_life_cycle_hook.py 269–278). -/
  | broken
  /-- The value of the hook (_life_cycle_hook.py 192). -/
  | value (v : Nat)
  /-- `IndexError` (_life_cycle_hook.py 190). -/
  | indexError
  /-- The value of a context; `none` for its default (hooks.py 350–363). -/
  | context (v : Option Nat)
deriving DecidableEq, Repr

/-- `HOOK_STACK.get()` (_life_cycle_hook.py 32–36): a new list if the variable is not set. -/
def stack (s : St) (t : Nat) : List Nat :=
  match s.var t with
  | none => []
  | some l => s.lists l

/-- `current_hook` (_life_cycle_hook.py 49–54). -/
def current (s : St) (t : Nat) : Option Nat := (stack s t).head?

/-- The list of the variable, changed (_life_cycle_hook.py 264 `append`, 274 `pop`); a list made for a variable that is not set is
lost. -/
def setStack (s : St) (t : Nat) (l : List Nat) : Nat → List Nat :=
  match s.var t with
  | none => s.lists
  | some i => put s.lists i l

/-- `dict.update` (_life_cycle_hook.py 263). -/
def overlay (own parent : Nat → Option Nat) : Nat → Option Nat := fun c => (parent c).or (own c)

/-- `LifeCycleHook.use_state` (_life_cycle_hook.py 177–192). -/
def useState (k : Hook) (v : Nat) : Hook × Out :=
  if k.rendered = false then ({ k with state := k.state ++ [v], index := k.index + 1 }, .value v)
  else match k.state[k.index]? with
    | some w => ({ k with index := k.index + 1 }, .value w)
    | none => (k, .indexError)

/-- The task may create another one: it is not between the beginning of an update and the beginning of its component, where the code only
waits for `_render_access` (layout.py 232–330). -/
def mayCreate (s : St) (t : Nat) : Bool :=
  match s.upd t with
  | none => true
  | some U => U.opened

/-- `create_task` (layout.py 592, _life_cycle_hook.py 239): the new task has a copy of the variables. -/
def spawn (s : St) (t u : Nat) : Option (St × Out) :=
  if s.alive t && !s.alive u && mayCreate s t then
    some ({ s with alive := put s.alive u true, var := put s.var u (s.var t) }, .done)
  else none

/-- `HOOK_STACK.initialize()` (_life_cycle_hook.py 38–39, layout.py 232). -/
def start (s : St) (t : Nat) : Option (St × Out) :=
  match s.upd t with
  | some _ => none
  | none =>
    if s.alive t then
      some ({ s with lists := put s.lists s.fresh [], fresh := s.fresh + 1, var := put s.var t (some s.fresh),
                     upd := put s.upd t (some { list := s.fresh, token := s.var t, frames := [], opened := false }) }, .done)
    else none

/-- `set_current` on the hook itself (_life_cycle_hook.py 260–263): the providers of the component above. -/
def inherited (s : St) (t h : Nat) : Hook :=
  match current s t with
  | none => s.hook h
  | some p => { s.hook h with providers := overlay (s.hook h).providers (s.hook p).providers }

/-- `affect_component_will_render` (_life_cycle_hook.py 220–225, 254–264); `none` as long as `_render_access` is taken, or if the task has
nothing to render. -/
def enter (s : St) (t h : Nat) : Option (St × Out) :=
  match s.upd t with
  | none => none
  | some U =>
    if (U.frames.isEmpty && U.opened) || s.held h then none
    else some ({ s with held := put s.held h true, hook := put s.hook h (inherited s t h),
                        lists := setStack s t (h :: stack s t),
                        upd := put s.upd t (some { U with frames := h :: U.frames, opened := true }) }, .done)

/-- The hooks that have a state: `current_hook().use_state(…)` (hooks.py 571–572, _life_cycle_hook.py 177–192). -/
def use (s : St) (t v : Nat) : St × Out :=
  match current s t with
  | none => (s, .noHook)
  | some h => ({ s with hook := put s.hook h (useState (s.hook h) v).1 }, (useState (s.hook h) v).2)

/-- `ContextProvider.render` (types.py 1078–1082, _life_cycle_hook.py 204–210). -/
def provide (s : St) (t c v : Nat) : St × Out :=
  match current s t with
  | none => (s, .noHook)
  | some h => ({ s with hook := put s.hook h { s.hook h with providers := put (s.hook h).providers c (some v) } }, .done)

/-- `use_context` (hooks.py 345–363, _life_cycle_hook.py 212–218). -/
def read (s : St) (t c : Nat) : Out :=
  match current s t with
  | none => .noHook
  | some h => .context ((s.hook h).providers c)

/-- `affect_component_did_render` (_life_cycle_hook.py 227–233, 266–278) of the innermost component of the task.  An error of
`unset_current` leaves the rest undone. -/
def leave (s : St) (t : Nat) : Option (St × Out) :=
  match s.upd t with
  | none => none
  | some U =>
    match U.frames with
    | [] => none
    | h :: rest =>
      let upd := put s.upd t (some { U with frames := rest })
      match stack s t with
      | [] => some ({ s with upd := upd }, .broken)
      | g :: below =>
        if g = h then
          some ({ s with upd := upd, lists := setStack s t below, held := put s.held h false,
                         hook := put s.hook h { s.hook h with rendered := true, index := 0 } }, .done)
        else some ({ s with upd := upd, lists := setStack s t below }, .broken)

/-- `HOOK_STACK.reset(token)` (_life_cycle_hook.py 41–47, layout.py 271–272). -/
def finish (s : St) (t : Nat) : Option (St × Out) :=
  match s.upd t with
  | none => none
  | some U =>
    if U.frames.isEmpty then some ({ s with var := put s.var t U.token, upd := put s.upd t none }, .done) else none

/-- One step of one task; `none` if it cannot happen now (layout.py 229–272, 330–352). -/
def step (s : St) : Op → Option (St × Out)
  | .spawn t u => spawn s t u
  | .start t => start s t
  | .enter t h => enter s t h
  | .use t v => some (use s t v)
  | .provide t c v => some (provide s t c v)
  | .read t c => some (s, read s t c)
  | .leave t => leave s t
  | .finish t => finish s t

/-- A whole run, and what came out (layout.py 229–272). -/
def exec (s : St) : List Op → Option (St × List Out)
  | [] => some (s, [])
  | o :: l =>
    match step s o with
    | none => none
    | some (s', r) =>
      match exec s' l with
      | none => none
      | some (s'', rs) => some (s'', r :: rs)

end Verif.Hooks.Stack
