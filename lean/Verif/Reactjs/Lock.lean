/-! # The lock of module files (src/reactpy/reactjs/utils.py): `file_lock`

Processes and threads alike are "processes" here.  Time enters only through the answer to "has the timeout passed?". -/
namespace Verif.Reactjs.Lock

/-- Where a process is in `file_lock` (utils.py 202–218). -/
inductive Phase where
  | out
  | waiting
  | inside
  | failed
  | crashed
  deriving DecidableEq, Repr

/-- The lock file, the directory it lies in, and the processes. utils.py 202–218. -/
structure St where
  file : Bool := false
  dir : Bool
  phase : Nat → Phase := fun _ => .out

/-- A process comes to another phase (auxiliary, no code of /repo). -/
def St.set (s : St) (p : Nat) (ph : Phase) : St := { s with phase := fun q => if q = p then ph else s.phase q }

inductive Op where
  /-- `file_lock` is called -/
  | enter (p : Nat)
  /-- one iteration of the loop (utils.py 205–213): `os.open` with `O_CREAT | O_EXCL` succeeds exactly if the directory is
  there and the file is not; otherwise `timedOut` is the test `time.time() - start_time > timeout` -/
  | attempt (p : Nat) (timedOut : Bool)
  /-- the end of the `with` block, normal or not (utils.py 216–218); `removed` is false when `os.unlink` fails, which is
  suppressed -/
  | leave (p : Nat) (removed : Bool)
  /-- the process is killed -/
  | crash (p : Nat)
  /-- the directory is created -/
  | mkdir
  deriving DecidableEq, Repr

/-- utils.py 202–218: the loop is entered (204), one round of it (205–213), the end (214–218); a process may end at any point, and another may make the directory (161). -/
def step (s : St) : Op → St
  | .enter p => match s.phase p with
    | .out | .failed => s.set p .waiting
    | _ => s
  | .attempt p timedOut => match s.phase p with
    | .waiting => if s.dir && !s.file then { s.set p .inside with file := true } else if timedOut then s.set p .failed else s
    | _ => s
  | .leave p removed => match s.phase p with
    | .inside => { s.set p .out with file := if removed then false else s.file }
    | _ => s
  | .crash p => s.set p .crashed
  | .mkdir => { s with dir := true }

/-- Any schedule of utils.py 202–218 by several processes. -/
def run (s : St) (ops : List Op) : St := ops.foldl step s

end Verif.Reactjs.Lock
