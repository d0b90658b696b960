import Verif.Console.Model
/-! # The files that `reactpy rewrite-keys` and `reactpy rewrite-props` read and write

Models the bodies of the two commands: `/repo/src/reactpy/_console/rewrite_keys.py` 16–18, 48–52 and
`/repo/src/reactpy/_console/rewrite_props.py` 18–27 (they are the same), for any function `generate_rewrite`.  No other process
changes files meanwhile; permissions and symbolic links are left out.  -/
namespace Verif.Console

/-- A path: the names from the root. (rewrite_keys.py 48 `Path`) -/
abbrev Path := List Str

/-- What is at a path; `β` is the type of file contents. (rewrite_keys.py 49 `is_file`) -/
inductive FsEntry (β : Type) where
  | file (b : β)
  | dir
deriving DecidableEq

/-- The files and directories there are. (rewrite_keys.py 48–52) -/
abbrev Files (β : Type) := Path → Option (FsEntry β)

/-- What Python and the machine do with text: `decode` is UTF-8, which the commands ask for when they read (rewrite_keys.py 50);
`encode` is the encoding of the locale and `linesep` the line separator of the system, which are used when they write (52); `empty`
is the content of a file just opened for writing. -/
structure Machine (β : Type) where
  decode : β → Option Str
  encode : Str → Option β
  linesep : Str
  empty : β

/-- Newlines as `read_text` translates them. (rewrite_keys.py 50) -/
def universal : Str → Str
  | [] => []
  | '\r' :: '\n' :: l => '\n' :: universal l
  | '\r' :: l => '\n' :: universal l
  | c :: l => c :: universal l

/-- Newlines as `write_text` translates them. (rewrite_keys.py 52) -/
def native (sep : Str) (s : Str) : Str := s.flatMap fun c => if c = '\n' then sep else [c]

variable {β : Type}

/-- `f.read_text(encoding="utf-8")` (rewrite_keys.py 50); fails for a directory, and for a file that is not UTF-8. -/
def readText (m : Machine β) (fs : Files β) (f : Path) : Option Str :=
  match fs f with
  | some (.file b) => (m.decode b).map universal
  | _ => none

/-- An entry replaced (rewrite_keys.py 52). -/
def Files.set (fs : Files β) (f : Path) (b : β) : Files β := fun q => if q = f then some (.file b) else fs q

/-- `f.write_text(s)` (rewrite_keys.py 52): the file is opened, which empties it, then the text is encoded and written. -/
def writeText (m : Machine β) (fs : Files β) (f : Path) (s : Str) : Files β × Bool :=
  match m.encode (native m.linesep s) with
  | some b => (fs.set f b, true)
  | none => (fs.set f m.empty, false)

/-- One file (rewrite_keys.py 50–52).  `gen` is `generate_rewrite`: `none` if it raises, `some none` if there is nothing to change.  The
result is false if the command ends with an exception. -/
def rewriteFile (m : Machine β) (gen : Str → Option (Option Str)) (fs : Files β) (f : Path) : Files β × Bool :=
  match readText m fs f with
  | none => (fs, false)
  | some s =>
    match gen s with
    | none => (fs, false)
    | some none => (fs, true)
    | some (some new) => writeText m fs f new

/-- The inner loop (rewrite_keys.py 49–52). -/
def rewriteFiles (m : Machine β) (gen : Str → Option (Option Str)) : Files β → List Path → Files β × Bool
  | fs, [] => (fs, true)
  | fs, f :: l => match rewriteFile m gen fs f with
    | (fs, true) => rewriteFiles m gen fs l
    | (fs, false) => (fs, false)

/-- `[p] if p.is_file() else p.rglob("*.py")` (rewrite_keys.py 49); `glob` gives the result of `rglob`, in whatever order. -/
def filesAt (glob : Path → List Path) (fs : Files β) (p : Path) : List Path :=
  match fs p with
  | some (.file _) => [p]
  | _ => glob p

/-- The outer loop (rewrite_keys.py 48). -/
def rewritePaths (m : Machine β) (gen : Str → Option (Option Str)) (glob : Path → List Path) : Files β → List Path → Files β × Bool
  | fs, [] => (fs, true)
  | fs, p :: ps => match rewriteFiles m gen fs (filesAt glob fs p) with
    | (fs, true) => rewritePaths m gen glob fs ps
    | (fs, false) => (fs, false)

/-- The command (rewrite_keys.py 16–18, 48–52): `click.Path(exists=True)` refuses paths that do not exist before anything is done. -/
def command (m : Machine β) (gen : Str → Option (Option Str)) (glob : Path → List Path) (fs : Files β) (paths : List Path) : Files β × Bool :=
  if paths.all (fun p => (fs p).isSome) then rewritePaths m gen glob fs paths else (fs, false)

end Verif.Console
