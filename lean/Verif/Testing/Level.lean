import Verif.Testing.Logs
/-!
# The level of ReactPy's logger

`/repo/src/reactpy/logging.py` 26–36 with `capture_reactpy_logs` (testing/logs.py 122–149).  The option `REACTPY_DEBUG` is a boolean that tells its subscriber
of every change (C34).
-/
namespace Verif.Testing

/-- Code that turns debug mode on and off, logs, raises, and captures logs in blocks. -/
inductive DProg (C : Type) where
  | debug (on : Bool)
  | log (r : Rec C)
  | fail
  | seq (p q : DProg C)
  | capture (p : DProg C)

/-- The logger and the option. (logging.py 26–30) -/
structure DState (C : Type) where
  logger : Logger C
  debug : Bool

/-- `_set_debug_level` (logging.py 30–36); `note` is the message "ReactPy is in debug mode". -/
def setDebugLevel {C : Type} (note : C) (on : Bool) (l : Logger C) : Logger C :=
  if on then ({ l with level := 10 } : Logger C).emit ⟨10, note⟩
  else { l with level := 20 }

/-- `REACTPY_DEBUG.current = on` (_option.py 88–110): the subscriber is told of a change. -/
def assignDebug {C : Type} (note : C) (on : Bool) (s : DState C) : DState C :=
  if on = s.debug then s else { debug := on, logger := setDebugLevel note on s.logger }

/-- Running code; the second component tells whether it raised. (testing/logs.py 122–149, logging.py 30–36) -/
def execD {C : Type} (note : C) : DProg C → DState C → DState C × Bool
  | .debug on, s => (assignDebug note on s, false)
  | .log r, s => ({ s with logger := s.logger.emit r }, false)
  | .fail, s => (s, true)
  | .seq p q, s => match execD note p s with
    | (s, false) => execD note q s
    | (s, true) => (s, true)
  | .capture p, s => match execD note p { s with logger := s.logger.enter } with
    | (t, r) => ({ t with logger := s.logger.leave t.logger }, r)

/-- Importing `reactpy.logging`: `subscribe` calls the subscriber with the current value (logging.py 30, _option.py 70–77). -/
def importLogging {C : Type} (note : C) (debug : Bool) : DState C :=
  { debug, logger := setDebugLevel note debug { level := 0, on := false, records := [] } }

end Verif.Testing
