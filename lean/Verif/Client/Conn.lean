/-!
# Model of the client connection (client/src/websocket.ts 17–89, client.ts 55–96, mount.tsx 21–37)

Numbers are rationals: JavaScript's rounding is left out.  Logging, the `path`/`qs` parameters of the
URL and incoming messages are left out.  The browser, as assumed here: a `WebSocket` fires `open` at most
once, while it is connecting, with `readyState` `OPEN`; it fires `close` once, while connecting or open;
`readyState` is `OPEN` between the two.  (A `CLOSING` socket is one that has not fired `close` and is no
longer `OPEN`: `closing`.)
-/
namespace Verif.Client

/-- The options of `createReconnectingWebSocket`. (websocket.ts 20, set at mount.tsx 26–31) -/
structure Config where
  interval : Rat
  maxInterval : Rat
  maxRetries : Nat
  multiplier : Rat
deriving DecidableEq, Repr

/-- `socket.current` (websocket.ts 25, 32) and its `readyState`, which client.ts 84–85 reads. -/
inductive Sock where
  | none
  | connecting
  | open
  | closing
  | closed
deriving DecidableEq, Repr

/-- What an observer sees: a connection attempt begins, the connection opens, closes, a reconnection is
scheduled after a delay, the client gives up, a message is handed to the socket.
(websocket.ts 32, 33, 47, 63, 56–58, client.ts 87) -/
inductive Obs (M : Type) where
  | attempt
  | opened
  | lost
  | delay (d : Rat)
  | gaveUp
  | sent (m : M)
deriving DecidableEq, Repr

/-- The variables of websocket.ts 21–25 and client.ts 62. -/
structure Conn (M : Type) where
  retries : Nat := 0
  current : Rat
  everConnected : Bool := false
  sock : Sock := .none
  /-- a `setTimeout(connect, …)` is pending -/
  timer : Bool := false
  /-- the `readyPromise` has been resolved -/
  started : Bool := false
  queue : List M := []
  log : List (Obs M) := []

/-- What can happen to the client: the promise of websocket.ts 73 is resolved, the browser runs `onopen` (33) or `onclose` (47), the socket starts to close, the timer of line 63 runs, `sendMessage` (client.ts 82) is called. -/
inductive Act (M : Type) where
  | ready
  | open
  | closing
  | close
  | timer
  | send (m : M)
deriving DecidableEq, Repr

variable {M : Type}

/-- websocket.ts 21–25. -/
def initConn (c : Config) : Conn M := { current := c.interval }

/-- `nextInterval` (websocket.ts 78–89). -/
def nextInterval (cur mult max : Rat) : Rat := min (cur * mult) max

/-- `sendMessage` (client.ts 82–91). -/
def sendMessage (s : Conn M) (m : M) : Conn M :=
  if s.sock = .open then { s with log := s.log ++ [.sent m] } else { s with queue := s.queue ++ [m] }

/-- The loop of `onOpen` (client.ts 73–77), with the number of turns it can take. -/
def flush : Nat → Conn M → Conn M
  | 0, s => s
  | n + 1, s => match s.queue with
    | [] => s
    | m :: r => flush n (sendMessage { s with queue := r } m)

/-- * `ready`: 73, `connect` 27–32;
* `open`: `onopen` 33–41 with `onOpen` of client.ts;
* `close`: `onclose` 47–70;
* `timer`: `connect`;
* `send`: `sendMessage`. -/
def step (c : Config) (s : Conn M) : Act M → Conn M
  | .ready => if s.started then s else { s with started := true, sock := .connecting, log := s.log ++ [.attempt] }
  | .open =>
    if s.sock = .connecting then
      let s : Conn M := { s with sock := .open, everConnected := true, current := c.interval, retries := 0, log := s.log ++ [.opened] }
      flush s.queue.length s
    else s
  | .closing => if s.sock = .open then { s with sock := .closing } else s
  | .close =>
    if s.sock = .connecting ∨ s.sock = .open ∨ s.sock = .closing then
      let s : Conn M := { s with sock := .closed, log := s.log ++ [.lost] }
      if !s.everConnected then { s with log := s.log ++ [.gaveUp] }
      else if s.retries ≥ c.maxRetries then { s with log := s.log ++ [.gaveUp] }
      else { s with timer := true, current := nextInterval s.current c.multiplier c.maxInterval, retries := s.retries + 1,
                    log := s.log ++ [.delay s.current] }
    else s
  | .timer => if s.timer then { s with timer := false, sock := .connecting, log := s.log ++ [.attempt] } else s
  | .send m => sendMessage s m

/-- Any sequence of events (websocket.ts 27–73, client.ts 73–91). -/
def run (c : Config) (acts : List (Act M)) : Conn M := acts.foldl (step c) (initConn c)

/-- JavaScript's `x || d` for numbers: `0`, like a missing value, gives the default. -/
def orDefault (x : Option Rat) (d : Rat) : Rat := match x with
  | some v => if v = 0 then d else v
  | none => d

/-- The options given to `mountReactPy` (mount.tsx 26–31). -/
structure MountProps where
  interval : Option Rat := none
  maxInterval : Option Rat := none
  maxRetries : Option Nat := none
  multiplier : Option Rat := none

/-- mount.tsx 26–31. -/
def mountConfig (p : MountProps) : Config :=
  { interval := orDefault p.interval 750
    maxInterval := orDefault p.maxInterval 60000
    maxRetries := match p.maxRetries with
      | some v => if v = 0 then 150 else v
      | none => 150
    multiplier := orDefault p.multiplier (5 / 4) }

/-! ## Specification -/

/-- The delay before the `k`-th reconnection attempt after a successful connection.
Specification; compare `nextInterval`, websocket.ts 78–89. -/
def expected (c : Config) : Nat → Rat
  | 0 => c.interval
  | k + 1 => min (expected c k * c.multiplier) c.maxInterval

/-- `k` reconnection attempts have been scheduled since the connection was last open (`none`: it has
never been).  Each delay is the expected one, there are at most `maxRetries` of them, and they are
scheduled only after a connection has been open. Specification, not code of /repo. -/
def schedule (c : Config) : Option Nat → List (Obs M) → Option (Option Nat)
  | k, [] => some k
  | _, .opened :: l => schedule c (some 0) l
  | some k, .delay d :: l => if d = expected c k ∧ k < c.maxRetries then schedule c (some (k + 1)) l else none
  | none, .delay _ :: _ => none
  | k, .attempt :: l => schedule c k l
  | k, .lost :: l => schedule c k l
  | k, .gaveUp :: l => schedule c k l
  | k, .sent _ :: l => schedule c k l

/-- The life of a connection. Specification, not code of /repo. -/
inductive Phase where
  | before
  | trying
  | up
  | down
  | waiting
  | over
deriving DecidableEq, Repr

/-- One step of that life; the second component counts as in `schedule`.  The client tries; the connection opens, or
is lost; a loss is answered by scheduling another attempt, as long as fewer than `maxRetries` have been made since
the connection was last open, and by giving up otherwise, or if it was never open; messages are handed over only
while the connection is up. Specification, not code of /repo. -/
def life (c : Config) : Phase × Option Nat → Obs M → Option (Phase × Option Nat)
  | (.before, k), .attempt => some (.trying, k)
  | (.trying, _), .opened => some (.up, some 0)
  | (.trying, k), .lost => some (.down, k)
  | (.up, k), .lost => some (.down, k)
  | (.up, k), .sent _ => some (.up, k)
  | (.down, none), .gaveUp => some (.over, none)
  | (.down, some k), .gaveUp => if c.maxRetries ≤ k then some (.over, some k) else none
  | (.down, some k), .delay _ => if k < c.maxRetries then some (.waiting, some (k + 1)) else none
  | (.waiting, k), .attempt => some (.trying, k)
  | _, _ => none

/-- The messages handed to the socket, in order. Specification, not code of /repo. -/
def sentMsgs (l : List (Obs M)) : List M := l.filterMap fun o => match o with
  | .sent m => some m
  | _ => none

/-- The messages passed to `sendMessage`, in order. Specification, not code of /repo. -/
def passed (acts : List (Act M)) : List M := acts.filterMap fun a => match a with
  | .send m => some m
  | _ => none

/-- Messages are handed to the socket only between `opened` and `lost`. Specification, not code of /repo. -/
def sentOnlyOpen : Bool → List (Obs M) → Bool
  | _, [] => true
  | _, .opened :: l => sentOnlyOpen true l
  | _, .lost :: l => sentOnlyOpen false l
  | o, .sent _ :: l => o && sentOnlyOpen o l
  | o, _ :: l => sentOnlyOpen o l

end Verif.Client
