/-!
# Log assertions of the testing tools

`/repo/src/reactpy/testing/logs.py`.  A record is its level, what a pattern and an error type look at (abstract), and the
exception it carries.  Regular expressions, `issubclass` and `format_exception` are parameters: a query is a predicate on
records.
-/
namespace Verif.Testing

/-! ## `list_logged_exceptions` -/

/-- The loop of `list_logged_exceptions` (logs.py 108–118).  `exc r` is the exception of the record, if the record has the
level and carries an exception of the wanted types whose text matches (109–115).  The list is iterated while it is deleted
from: `i` is the position of the iterator and also the number `enumerate` gives; `fuel` bounds the rounds (`i` grows, the list
does not). -/
def excLoop {R E : Type} (exc : R → Option E) (del : Bool) : Nat → Nat → List R → List E → List R × List E
  | 0, _, recs, found => (recs, found)
  | fuel + 1, i, recs, found =>
    match recs[i]? with
    | none => (recs, found)
    | some r =>
      match exc r with
      | none => excLoop exc del fuel (i + 1) recs found
      | some e => excLoop exc del fuel (i + 1) (if del then recs.eraseIdx (i - found.length) else recs) (found ++ [e])

/-- `list_logged_exceptions` (logs.py 92–119): the records that remain, and the exceptions found. -/
def listLoggedExceptions {R E : Type} (exc : R → Option E) (del : Bool) (recs : List R) : List R × List E :=
  excLoop exc del recs.length 0 recs []

/-! ## Capturing -/

/-- A log record (logs.py 108–118; of the logger "reactpy" or one below it, which have no level of their own): its level and the rest. -/
structure Rec (C : Type) where
  level : Nat
  content : C

/-- How a block of code ends: normally, with a `LogAssertionError` (logs.py 11–12), or with another exception. -/
inductive Out where
  | ok
  | logAssertion
  | other
deriving DecidableEq, Repr

/-- Test code: logging, raising, and the context managers of logs.py 15–68 (`did`), 71–89 (`didNot`), 122–149 (`capture`)
around further test code. -/
inductive Prog (C : Type) where
  | skip
  | log (r : Rec C)
  | fail (o : Out)
  | seq (p q : Prog C)
  | capture (p : Prog C)
  | did (want : C → Bool) (p : Prog C)
  | didNot (want : C → Bool) (p : Prog C)

/-- The logger: its level, whether the captor is among its handlers, and the captor's records (logs.py 122–162). -/
structure Logger (C : Type) where
  level : Nat
  on : Bool
  records : List (Rec C)

/-- A record is logged (`Logger.handle`, and logs.py 157–159). -/
def Logger.emit {C : Type} (l : Logger C) (r : Rec C) : Logger C :=
  if l.on && decide (l.level ≤ r.level) then { l with records := l.records ++ [r] } else l

/-- Entering `capture_reactpy_logs` (logs.py 130–133, 142). -/
def Logger.enter {C : Type} (l : Logger C) : Logger C := { l with level := 10, on := true }

/-- Leaving it, entered at `l0` (logs.py 137–140, 145–149). -/
def Logger.leave {C : Type} (l0 l : Logger C) : Logger C :=
  { level := l0.level
    on := l0.on
    records := if l0.on then l.records.take l0.records.length else [] }

/-- Running test code: the three context managers (logs.py 15–149), the rest is Python's. -/
def exec {C : Type} : Prog C → Logger C → Logger C × Out
  | .skip, l => (l, .ok)
  | .log r, l => (l.emit r, .ok)
  | .fail o, l => (l, o)
  | .seq p q, l =>
    match exec p l with
    | (l, .ok) => exec q l
    | (l, o) => (l, o)
  -- 122–149
  | .capture p, l =>
    let (l', o) := exec p l.enter
    (l.leave l', o)
  -- 15–68
  | .did want p, l =>
    let (l', o) := exec p l.enter
    match o with
    | .ok => (l.leave l', if l'.records.any (fun r => want r.content) then .ok else .logAssertion)
    | o => (l.leave l', o)
  -- 71–89
  | .didNot want p, l =>
    let (l', o) := exec p l.enter
    match o with
    | .ok => (l.leave l', if l'.records.any (fun r => want r.content) then .logAssertion else .ok)
    | .logAssertion => (l.leave l', .ok)
    | .other => (l.leave l', .other)

/-! ## Polling -/

/-- How `poll.until` goes (testing/common.py 68–76): it returned after check `k`, raised `TimeoutError` after check `k`, or goes
on. -/
inductive Poll where
  | returned (k : Nat)
  | timedOut (k : Nat)
  | polling
deriving DecidableEq, Repr

/-- The loop of `poll.until` (testing/common.py 69–76): `ok k` tells whether the condition holds of the `k`-th result, `late k`
whether the clock, read after it, is beyond the timeout.  `fuel` bounds the number of checks looked at. -/
def poll (ok late : Nat → Bool) : Nat → Nat → Poll
  | 0, _ => .polling
  | fuel + 1, k => if ok k then .returned k else if late k then .timedOut k else poll ok late fuel (k + 1)

/-- `poll.until` (testing/common.py 55–76): `result k` is what the `k`-th call of the function returned, `now k` the clock read
after it (74), `start` the clock at the beginning (68).  A call that raises ends polling (not modelled). -/
def «until» {R : Type} (cond : R → Bool) (result : Nat → R) (now : Nat → Int) (start timeout : Int) (fuel : Nat) : Poll :=
  poll (fun k => cond (result k)) (fun k => decide (now k - start > timeout)) fuel 0

end Verif.Testing
