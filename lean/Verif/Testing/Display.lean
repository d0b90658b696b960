/-!
# `DisplayFixture`

`/repo/src/reactpy/testing/display.py` 21–113: what a fixture opens and closes, and what its page shows.  Playwright and the
backend are external: each of their calls may fail (`Fails`), and asking a closed browser for a page, or loading a page that is
closed or whose backend is not running, fails.  `AsyncExitStack.aclose()` closes everything entered, newest first, also when
closing something raises (Python).  Backends are `BackendFixture`s with the default application; their `mount` is the one function of the module testing/backend.py
(`mount_to_hotswap`, 56, 164), so that what is mounted is one value for all of them.  Timeouts and the listeners for the browser's messages are left out.
-/
namespace Verif.Testing.Display

/-- What a fixture uses: Playwright, a browser, a page, a backend; numbered to tell them apart. (display.py 59–79) -/
inductive Thing where
  | playwright (n : Nat)
  | browser (n : Nat)
  | page (n : Nat)
  | backend (n : Nat)
deriving DecidableEq, Repr

/-- Something was opened or closed, a browser was started with or without a window, a page was loaded from a backend.
A record of display.py 57, 63–66, 74, 79–80, 104, for the statements. -/
inductive Ev where
  | opened (t : Thing)
  | closed (t : Thing)
  | launched (headless : Bool)
  | loaded (page backend : Thing) (path : Nat)
deriving DecidableEq, Repr

/-- What is open, what is mounted (testing/backend.py 164), the next number, and what happened, newest first. -/
structure World where
  isOpen : List Thing
  mounted : Option Nat
  next : Nat
  log : List Ev
deriving DecidableEq, Repr

/-- The attributes of a fixture (display.py 24–46): `browser`, `backend` and `page` are `none` as long as the attribute does not exist;
`stack` is what the exit stack will close, newest first. -/
structure Fixture where
  browser : Option Thing := none
  backend : Option Thing := none
  page : Option Thing := none
  headless : Bool := false
  stack : List Thing := []
deriving DecidableEq, Repr

/-- Which calls of Playwright and of the backend fail: starting it, launching the browser, making the page, starting the backend, loading. (display.py 57–79) -/
structure Fails where
  start : Bool := false
  launch : Bool := false
  newPage : Bool := false
  backend : Bool := false
  load : Bool := false
deriving DecidableEq, Repr

/-- display.py 28–46 -/
def create (backend browser : Option Thing) (headless : Bool) : Fixture :=
  { backend := backend, browser := browser, headless := headless }

/-- `exit_stack.enter_async_context` of something that opens. (display.py 63–66, 74, 79–80) -/
def openIt (t : Thing) (s : Fixture × World) : Fixture × World :=
  ({ s.1 with stack := t :: s.1.stack },
    { s.2 with isOpen := t :: s.2.isOpen, next := s.2.next + 1, log := .opened t :: s.2.log })

/-- `configure_page` (77–95); the result tells whether it raised. -/
def configurePage (f : Fails) (s : Fixture × World) : (Fixture × World) × Bool :=
  match s.1.page with
  | some _ => (s, true)
  | none =>
    match s.1.browser with
    | none => (s, false)
    | some b =>
      if f.newPage || !(s.2.isOpen.contains b) then (s, false)
      else
        let p := Thing.page s.2.next
        let s := openIt p s
        (({ s.1 with page := some p }, s.2), true)

/-- Lines 62–66: the browser, unless there is one. `visible` is `_playwright_visible()` (107–113). -/
def startBrowser (f : Fails) (visible : Bool) (s : Fixture × World) : (Fixture × World) × Bool :=
  match s.1.browser with
  | some _ => (s, true)
  | none =>
    if f.start then (s, false)
    else
      let s := openIt (.playwright s.2.next) s
      if f.launch then (s, false)
      else
        let b := Thing.browser s.2.next
        let s := openIt b s
        (({ s.1 with browser := some b }, { s.2 with log := .launched (!visible) :: s.2.log }), true)

/-- Lines 71–73: the backend, unless there is one; the attribute is set before the backend is started. -/
def startBackend (f : Fails) (s : Fixture × World) : (Fixture × World) × Bool :=
  match s.1.backend with
  | some _ => (s, true)
  | none =>
    let b := Thing.backend s.2.next
    if f.backend then (({ s.1 with backend := some b }, { s.2 with next := s.2.next + 1 }), false)
    else
      let s := openIt b s
      (({ s.1 with backend := some b }, s.2), true)

/-- `__aenter__` (59–75) -/
def enter (f : Fails) (visible : Bool) (s : Fixture × World) : (Fixture × World) × Bool :=
  match startBrowser f visible ({ s.1 with stack := [] }, s.2) with
  | (s, false) => (s, false)
  | (s, true) => match configurePage f s with
    | (s, false) => (s, false)
    | (s, true) => startBackend f s

/-- `goto` (55–57) -/
def goto (f : Fails) (path : Nat) (s : Fixture × World) : (Fixture × World) × Bool :=
  match configurePage f s with
  | (s, false) => (s, false)
  | (s, true) => match s.1.page, s.1.backend with
    | some p, some b =>
      if f.load || !(s.2.isOpen.contains p) || !(s.2.isOpen.contains b) then (s, false)
      else ((s.1, { s.2 with log := .loaded p b path :: s.2.log }), true)
    | _, _ => (s, false)

/-- `show` (48–53): `"/"` is path 0. -/
def showIt (f : Fails) (component : Nat) (s : Fixture × World) : (Fixture × World) × Bool :=
  goto f 0 (s.1, { s.2 with mounted := some component })

/-- `aclose()` of the exit stack. (display.py 104) -/
def closeAll : List Thing → World → World
  | [], w => w
  | t :: ts, w => closeAll ts { w with isOpen := w.isOpen.erase t, log := .closed t :: w.log }

/-- `__aexit__` (97–104) -/
def leave (s : Fixture × World) : Fixture × World :=
  ({ s.1 with stack := [] }, closeAll s.1.stack { s.2 with mounted := none })

/-- What test code does with a fixture: `show`, `goto` (display.py 48–57), or mount something elsewhere (another fixture, or the backend's `mount`). -/
inductive Act where
  | show (f : Fails) (component : Nat)
  | goto (f : Fails) (path : Nat)
  | mount (component : Option Nat)

/-- One of them (display.py 48–57). -/
def act : Act → Fixture × World → (Fixture × World) × Bool
  | .show f c, s => showIt f c s
  | .goto f p, s => goto f p s
  | .mount c, s => ((s.1, { s.2 with mounted := c }), true)

/-- The body of a block: the rest is not run after an exception. (Python) -/
def body : List Act → Fixture × World → (Fixture × World) × Bool
  | [], s => (s, true)
  | a :: as, s => match act a s with
    | (s, false) => (s, false)
    | (s, true) => body as s

/-- `async with fixture: body`: without `__aexit__` if `__aenter__` raises. (Python; display.py 59–104) -/
def block (f : Fails) (visible : Bool) (as : List Act) (s : Fixture × World) : (Fixture × World) × Bool :=
  match enter f visible s with
  | (s, false) => (s, false)
  | (s, true) => match body as s with
    | (s, ok) => (leave s, ok)

end Verif.Testing.Display
