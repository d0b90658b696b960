/-! # Writing module files (src/reactpy/reactjs/utils.py `copy_file`, src/reactpy/reactjs/module.py `file_to_module`,
`string_to_module`)

Any number of processes, each with the contents it wants to install as the one module file; the atomic steps are the system
calls, writing may stop after any byte.  Simplified: a symbolic or hard link has the contents of the source, the sources do
not change, and the directory exists. -/
namespace Verif.Reactjs.Copy

/-- How a process installs the file: `file_to_module` (module.py 43–82) without and with `symlink`, `string_to_module`
(module.py 85–118). -/
inductive Kind where
  | copy
  | symlink
  | string
  deriving DecidableEq, Repr

/-- Where a process is. -/
inductive Pc where
  | start
  /-- module.py 57: `with file_lock(...)` -/
  | locked
  /-- utils.py 174: about to open the temporary file -/
  | opening
  /-- utils.py 174: so many bytes of the temporary file are written -/
  | writing (n : Nat)
  /-- utils.py 176: the temporary file is complete -/
  | copied
  /-- utils.py 180: after the first `replace` failed -/
  | retry
  /-- utils.py 186: after the second `replace` failed -/
  | fallback
  /-- utils.py 188: after `unlink` -/
  | moving
  /-- utils.py 163: about to remove the target, before a link is made -/
  | unlinking
  /-- utils.py 165–171 -/
  | linking
  /-- the end of the lock; whether the file was installed -/
  | unlocking (ok : Bool)
  /-- module.py 97–102: `target_file.unlink()` is next -/
  | removing
  /-- module.py 105: `write_text` opens the target itself -/
  | truncating
  | writingTarget (n : Nat)
  | done (ok : Bool)
  | crashed
  deriving DecidableEq, Repr

/-- The files that module.py 57–69 and utils.py 160–188 write: the lock, the target and the temporary file; `pc`: where each process is. -/
structure St (B : Type) where
  lock : Bool := false
  target : Option (List B)
  temp : Option (List B) := none
  pc : Nat → Pc := fun _ => .start

/-- A process comes to another place (auxiliary, no code of /repo). -/
def St.set {B : Type} (s : St B) (p : Nat) (pc : Pc) : St B := { s with pc := fun q => if q = p then pc else s.pc q }

/-- One system call of module.py 57–69 and utils.py 160–188, 202–218, or the end of a process at any point. -/
inductive Op where
  /-- the next system call of a process; `ok` says whether it succeeds -/
  | next (p : Nat) (ok : Bool)
  | crash (p : Nat)
  deriving DecidableEq, Repr

section
variable {B : Type} [DecidableEq B] (kind : Nat → Kind) (src : Nat → List B)

/-- One system call of a process. -/
def next (s : St B) (p : Nat) (ok : Bool) : St B :=
  match s.pc p with
  | .start => match kind p with
    | .string =>
      -- module.py 97: `exists`, `read_text`
      if s.target ≠ none ∧ s.target ≠ some (src p) then s.set p .removing else s.set p .truncating
    | _ =>
      -- utils.py 207: `os.open`
      if s.lock then s else { s.set p .locked with lock := true }
  | .locked =>
    -- module.py 58–70: nothing to do when the contents are the same; a missing source raises
    if ok = false then s.set p (.unlocking false)
    else if s.target = some (src p) then s.set p (.unlocking true)
    else match kind p with
      | .symlink => if s.target = none then s.set p .linking else s.set p .unlinking
      | _ => s.set p .opening
  | .opening => if ok then { s.set p (.writing 0) with temp := some [] } else s.set p (.unlocking false)
  | .writing n =>
    if ok = false then s.set p (.unlocking false)
    else if n < (src p).length then { s.set p (.writing (n + 1)) with temp := some ((src p).take (n + 1)) }
    else s.set p .copied
  | .copied => if ok then { s.set p (.unlocking true) with target := s.temp, temp := none } else s.set p .retry
  | .retry => if ok then { s.set p (.unlocking true) with target := s.temp, temp := none } else s.set p .fallback
  | .fallback => if ok then { s.set p .moving with target := none } else s.set p (.unlocking false)
  | .moving => if ok then { s.set p (.unlocking true) with target := s.temp, temp := none } else s.set p (.unlocking false)
  | .unlinking => if ok then { s.set p .linking with target := none } else s.set p (.unlocking false)
  | .linking => if ok then { s.set p (.unlocking true) with target := some (src p) } else s.set p (.unlocking false)
  | .unlocking r => { s.set p (.done r) with lock := if ok then false else s.lock }
  | .removing => if ok then { s.set p .truncating with target := none } else s.set p (.done false)
  | .truncating => if ok then { s.set p (.writingTarget 0) with target := some [] } else s.set p (.done false)
  | .writingTarget n =>
    if ok = false then s.set p (.done false)
    else if n < (src p).length then { s.set p (.writingTarget (n + 1)) with target := some ((src p).take (n + 1)) }
    else s.set p (.done true)
  | .done _ => s.set p .start
  | .crashed => s

/-- module.py 57–69 and utils.py 160–188, 202–218, one system call of one process. -/
def step (s : St B) : Op → St B
  | .next p ok => next kind src s p ok
  | .crash p => s.set p .crashed

/-- Any schedule of module.py 57–69 by several processes. -/
def run (s : St B) (ops : List Op) : St B := ops.foldl (step kind src) s
end

end Verif.Reactjs.Copy
