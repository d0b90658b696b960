import Verif.Testing.Logs
/-!
# `BackendFixture`

`/repo/src/reactpy/testing/backend.py` 114–161: what starting, stopping and restarting the fixture does to the server and the logger.  The server is
uvicorn's; whether it starts within ten seconds is a parameter.  Ports and `reactpy_config` are left out.
-/
namespace Verif.Testing

/-- Test code with fixtures: `fixture up p` is `async with BackendFixture(): p` (backend.py 114–156), `restart up` is `await server.restart()` of the
innermost fixture (158–161); `up` says whether the server starts. -/
inductive FProg (C : Type) where
  | test (p : Prog C)
  | seq (p q : FProg C)
  | capture (p : FProg C)
  | fixture (up : Bool) (p : FProg C)
  | restart (up : Bool)

/-- The logger, the number of servers running, and for each fixture, innermost first, what its exit stack restores, if it has not been closed
(backend.py 115–116, 148). -/
structure FState (C : Type) where
  logger : Logger C
  running : Nat
  stacks : List (Option (Logger C))

/-- `__aenter__` (backend.py 114–140); it raises if the server does not start. -/
def FState.start {C : Type} (s : FState C) (up : Bool) : FState C × Out :=
  ({ logger := s.logger.enter, running := s.running + 1, stacks := some s.logger :: s.stacks }, if up then .ok else .other)

/-- `self._exit_stack.aclose()` (backend.py 148); a closed stack does nothing. -/
def FState.close {C : Type} (s : FState C) : FState C :=
  match s.stacks with
  | some l :: r => { s with logger := l.leave s.logger, stacks := none :: r }
  | _ => s

/-- `__aexit__` (backend.py 142–156); `exc` gives the exception of a record that is an error carrying one, as `list_logged_exceptions` finds them
(90–112).  The fixture keeps its place in `stacks`. -/
def FState.stop {C E : Type} (exc : Rec C → Option E) (s : FState C) : FState C × Out :=
  let s := s.close
  match listLoggedExceptions exc false s.logger.records with
  | (recs, []) => ({ s with logger := { s.logger with records := recs }, running := s.running - 1 }, .ok)
  | (recs, _ :: _) => ({ s with logger := { s.logger with records := recs } }, .logAssertion)

/-- Running test code; Python's `async with` does not call `__aexit__` if `__aenter__` raises. (backend.py 114–161) -/
def execF {C E : Type} (exc : Rec C → Option E) : FProg C → FState C → FState C × Out
  | .test p, s => ({ s with logger := (exec p s.logger).1 }, (exec p s.logger).2)
  | .seq p q, s => match execF exc p s with
    | (s, .ok) => execF exc q s
    | (s, o) => (s, o)
  | .capture p, s => match execF exc p { s with logger := s.logger.enter } with
    | (s', o) => ({ s' with logger := s.logger.leave s'.logger }, o)
  | .fixture up p, s => match s.start up with
    | (s, .ok) => match execF exc p s with
      | (s, o) => match s.stop exc with
        | (s, .ok) => ({ s with stacks := s.stacks.tail }, o)
        | (s, o') => ({ s with stacks := s.stacks.tail }, o')
    | (s, o) => ({ s with stacks := s.stacks.tail }, o)
  -- 158–161
  | .restart up, s => match s.stop exc with
    | (s, .ok) => match ({ s with stacks := s.stacks.tail } : FState C).start up with
      | (s, o) => (s, o)
    | (s, o) => (s, o)

end Verif.Testing
