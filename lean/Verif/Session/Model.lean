import Verif.Client.Conn
/-!
# A browser over several connections

Each connection that opens is a session of its own: the server makes a new layout for it (executors/asgi/middleware.py 167, 203–256), and the
browser goes on showing what it last received until the new session has sent its first update (components.tsx 139–161).

`E` are the events, apart from the session that displayed the element.
-/
namespace Verif.Session
open Verif.Client
variable {E : Type}

/-- What the page does with the connection, see `Client.Act` (websocket.ts 27–73). -/
inductive Net where
  | ready
  | open
  | closing
  | close
  | timer
deriving DecidableEq, Repr

/-- websocket.ts 27–73. -/
def Net.act {M : Type} : Net → Act M
  | .ready => .ready
  | .open => .open
  | .closing => .closing
  | .close => .close
  | .timer => .timer

/-- What can happen: something with the connection, an update arrives, the user acts on an element (components.tsx 145–150,
vdom.tsx 232–252). -/
inductive Op (E : Type) where
  | net (n : Net)
  | update
  | user (e : E)
deriving DecidableEq, Repr

/-- A message: the event, with the session whose element the user acted on.  The browser does not send the latter.
(vdom.tsx 232–252) -/
abbrev Msg (E : Type) := Nat × E

/-- The page: its connection, and the session that sent what is displayed. (client.ts 55–96, components.tsx 140) -/
structure Page (E : Type) where
  conn : Conn (Msg E)
  shown : Option Nat := none

/-- The number of the session that a connection belongs to: the connections opened so far (middleware.py 167, 203–256). -/
def sessions {M : Type} : List (Obs M) → Nat
  | [] => 0
  | .opened :: l => sessions l + 1
  | _ :: l => sessions l

/-- * `net`: see `Client.step`;
* `update`: a message arrives, which a connection does until it is closed (websocket.ts 42–46, client.ts 78, components.tsx 145–152);
* `user`: the handler of vdom.tsx 232–252 sends a message; without an update there is no element to act on. -/
def step (c : Config) (s : Page E) : Op E → Page E
  | .net n => { s with conn := Client.step c s.conn n.act }
  | .update => if s.conn.sock = .open ∨ s.conn.sock = .closing then { s with shown := some (sessions s.conn.log) } else s
  | .user e => match s.shown with
    | some k => { s with conn := sendMessage s.conn (k, e) }
    | none => s

/-- Any sequence of these (websocket.ts 27–73, client.ts 73–91). -/
def run (c : Config) (ops : List (Op E)) : Page E := ops.foldl (step c) { conn := initConn c }

/-! ## Specification -/

/-- The messages handed to connections, each with the session of the connection; `n` sessions before. Specification, not code of /repo. -/
def deliveries {M : Type} : Nat → List (Obs M) → List (Nat × M)
  | _, [] => []
  | n, .opened :: l => deliveries (n + 1) l
  | n, .sent m :: l => (n, m) :: deliveries n l
  | n, _ :: l => deliveries n l

/-- The events of the user, with the session displayed at the time; an event needs an element.
Specification, not code of /repo. -/
def made (c : Config) : Page E → List (Op E) → List (Msg E)
  | _, [] => []
  | s, .user e :: r => match s.shown with
    | some k => (k, e) :: made c (step c s (.user e)) r
    | none => made c (step c s (.user e)) r
  | s, op :: r => made c (step c s op) r

end Verif.Session
