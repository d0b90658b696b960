import Verif.Pyscript.Executor
/-! # Pages with components that run in the browser

Models how the page of a standalone application is put together: `executors/asgi/standalone.py` 45–92 (`ReactPy.__init__`) and 241–258
(`render_index_html`), `executors/asgi/pyscript.py` 26–90 (`ReactPyCsr.__init__`) and 106–136 (`render_index_html`), and
`vdom_head_to_html` of `executors/utils.py` 42–46; and the component `_pyscript_component` of `executors/pyscript/components.py` 15–37.

Text is what `reactpy_to_string` writes (modelled in `Verif.Markup`): a head is its start tag and the text of its children, and the
set-up of PyScript (`pyscript_setup_html`, modelled in `Verif.Pyscript.Executor`) is the text that it becomes. -/
namespace Verif.Pyscript.Page
open Verif.Pyscript.Exec (Str replaceAll)

/-- A dictionary made with `html.head(...)` (or another element, `isHead = false`): attributes as written and the text of the
children; `none`: there is no entry `children` (core/vdom.py 156–170). -/
structure Head where
  isHead : Bool := true
  attrs : Str := []
  children : Option (List Str) := none
deriving DecidableEq, Repr

/-- The end tag of the head (pyscript.py 123). -/
def endTag : Str := "</head>".toList

/-- executors/utils.py 42–46 `vdom_head_to_html`; `none`: `ValueError`. -/
def headHtml (h : Head) : Option Str :=
  if h.isHead then some ("<head".toList ++ h.attrs ++ ">".toList ++ (h.children.getD []).flatten ++ endTag) else none

/-- `html_head.setdefault("children", [])`, then `append` (standalone.py 82–92). -/
def addSetup (h : Head) (setup : Str) : Head := { h with children := some (h.children.getD [] ++ [setup]) }

/-- What kind of application is made: one rendered by the server, with PyScript set up or not (`pyscript_setup`), whose mounting code
is `mount`; or one rendered by the browser (`ReactPyCsr`) from that many files, with its set-up and its program (`none`:
`pyscript_component_html` raises). standalone.py 50–54, pyscript.py 26–38. -/
inductive Kind where
  | server (setup : Option Str) (mount : Str)
  | browser (files : Nat) (setup : Str) (program : Option Str)
deriving DecidableEq, Repr

/-- The arguments: which of the user's heads is given, if any; `prepend_body`: not given, `None` or an element (its text); `html_lang`.
standalone.py 46–56, pyscript.py 26–38. -/
structure Opts where
  head : Option Nat := none
  prepend : Option (Option Str) := none
  lang : Str := "en".toList
  kind : Kind
deriving DecidableEq, Repr

/-- An application: its arguments, the head that it made itself when none was given, and its page once it was made
(standalone.py 72–92, 189). -/
structure App where
  opts : Opts
  own : Head := {}
  page : Option Str := none
deriving DecidableEq, Repr

/-- The heads made by the user, and the applications (all of them share the heads given; standalone.py 75). -/
structure Site where
  heads : List Head := []
  apps : List App := []
deriving DecidableEq, Repr

/-- What happens: the user makes a head; an application is made; its page is requested. (standalone.py 45, 193) -/
inductive Op where
  | head (h : Head)
  | new (o : Opts)
  | get (i : Nat)
deriving DecidableEq, Repr

/-- Nothing to see; a page; an exception. (standalone.py 193–239) -/
inductive Out where
  | none
  | page (s : Str)
  | raised
deriving DecidableEq, Repr

/-- The text that `prepend_body` becomes: standalone.py 76–79 and 243–246. -/
def prependText (o : Opts) : Str :=
  match o.prepend with
  | Option.none => "<noscript>Enable JavaScript to view this site.</noscript>".toList
  | some Option.none => []
  | some (some t) => t

/-- The set-up that is added to the head by the constructor: standalone.py 82–92. -/
def Kind.added : Kind → Option Str
  | .server setup _ => setup
  | .browser _ _ _ => none

/-- `ReactPy.__init__` standalone.py 71–92 and `ReactPyCsr.__init__` pyscript.py 72–90: without files `ValueError`. -/
def newApp (s : Site) (o : Opts) : Site × Out :=
  match o.kind with
  | .browser 0 _ _ => (s, .raised)
  | _ =>
    match o.kind.added with
    | none => ({ s with apps := s.apps ++ [{ opts := o }] }, .none)
    | some setup =>
      match o.head with
      | none => ({ s with apps := s.apps ++ [{ opts := o, own := addSetup {} setup }] }, .none)
      | some j => ({ heads := s.heads.modify j (addSetup · setup), apps := s.apps ++ [{ opts := o }] }, .none)

/-- `self.html_head` of an application: standalone.py 75, pyscript.py 85. -/
def headOf (s : Site) (a : App) : Head :=
  match a.opts.head with
  | none => a.own
  | some j => s.heads[j]?.getD {}

/-- standalone.py 241–258 and pyscript.py 106–136 `render_index_html`; `none`: `ValueError`. -/
def indexHtml (s : Site) (a : App) : Option Str :=
  match headHtml (headOf s a) with
  | none => none
  | some head =>
    match a.opts.kind with
    | .server _ mount =>
      some ("<!doctype html><html lang=\"".toList ++ a.opts.lang ++ "\">".toList ++ head ++ "<body>".toList ++ prependText a.opts ++ mount ++
        "</body></html>".toList)
    | .browser _ setup program =>
      match program with
      | none => none
      | some program =>
        let head := replaceAll endTag (setup ++ endTag) 0 head
        some ("<!doctype html><html lang=\"".toList ++ a.opts.lang ++ "\">".toList ++ head ++ "<body>".toList ++ prependText a.opts ++
          program ++ "</body></html>".toList)

/-- A request for the page of application `i`: standalone.py 208–209, 238; the page is kept. -/
def getPage (s : Site) (i : Nat) : Site × Out :=
  match s.apps[i]? with
  | none => (s, .none)
  | some a =>
    match a.page with
    | some p => (s, .page p)
    | none =>
      match indexHtml s a with
      | none => (s, .raised)
      | some p => ({ s with apps := s.apps.set i { a with page := some p } }, .page p)

/-- One operation (standalone.py 45, 193). -/
def step (s : Site) : Op → Site × Out
  | .head h => ({ s with heads := s.heads ++ [h] }, .none)
  | .new o => newApp s o
  | .get i => getPage s i

/-- A history of operations (standalone.py 45–92, 193–239). -/
def run (s : Site) (ops : List Op) : Site := ops.foldl (fun s o => (step s o).1) s

/-! ## A page component in a tree that the server renders -/

/-- What the body of `_pyscript_component` returns: `None`, or the container with this id, the initial content and the program
(components.py 33–37); or it raises (components.py 21–22 and utils.py 83–86). -/
inductive Shown where
  | nothing
  | program (uuid : Nat) (initial root : Str)
  | failed
deriving DecidableEq, Repr

/-- The arguments of `pyscript_component` (components.py 40–45), with what is found: the number of files, and whether the root component
is in them. -/
structure Call where
  files : Nat
  initial : Str
  root : Str
  found : Bool
deriving DecidableEq, Repr

/-- The state `rendered` of an instance, and whether a render of it was asked for and has not begun
(components.py 24; `_life_cycle_hook.py` 155–164). -/
structure Inst where
  rendered : Bool := false
  asked : Bool := false
deriving DecidableEq, Repr

/-- components.py 15–37: one run of the body, which gets a new id. The request for a render is cleared when a run begins
(`_life_cycle_hook.py` 216–221). -/
def runBody (i : Inst) (c : Call) (uuid : Nat) : Inst × Shown :=
  if c.files = 0 then ({ i with asked := false }, .failed)
  else if !i.rendered then ({ rendered := true, asked := true }, .nothing)
  else if c.found then ({ i with asked := false }, .program uuid c.initial c.root)
  else ({ i with asked := false }, .failed)

/-- Several runs of the body of one instance, with their arguments and ids (components.py 15–37). -/
def runBodies (i : Inst) : List (Call × Nat) → Inst × List Shown
  | [] => (i, [])
  | (c, u) :: l =>
    let (i, o) := runBody i c u
    let (i, os) := runBodies i l
    (i, o :: os)

end Verif.Pyscript.Page
