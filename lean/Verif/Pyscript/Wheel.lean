import Verif.Markup.Names
/-! # ReactPy's own package for the page

Models `/repo/src/reactpy/executors/pyscript/utils.py` 163–453: which wheel (package file) the page loads ReactPy from, how it is put
into the directory that is served, and how it is rebuilt from the installed files.  The directory is a list of names and files; the
running of Hatch (256–312) is a parameter that gives what is in `dist` afterwards; so are the text of a zip file, the hash
(`sha256`, base64) and what is white space.  File contents are texts of single-byte characters; paths are normal already
(`a//b` and `./a` do not occur). -/
namespace Verif.Pyscript.Wheel
open Verif.Markup (splitOn)

/-- Text, and contents of files (utils.py 380). -/
abbrev Str := List Char

/-- A file: contents and time of the last change (utils.py 235, 250). -/
structure File where
  data : Str
  mtime : Nat
deriving DecidableEq, Repr

/-- A directory without sub-directories (utils.py 209). -/
abbrev Dir := List (Str × File)

/-- Look-up of a name (auxiliary to utils.py 212–216). -/
def get (d : Dir) (n : Str) : Option File := (d.find? fun p => p.1 = n).map (·.2)

/-- `path.unlink()` (utils.py 322). -/
def erase (d : Dir) (n : Str) : Dir := d.filter fun p => p.1 ≠ n

/-- A file put under a name (auxiliary to utils.py 328–329, 361, 386). -/
def put (d : Dir) (n : Str) (f : File) : Dir := (n, f) :: erase d n

/-! ## Which wheel -/

/-- `glob("reactpy-*.whl")` (utils.py 214, 320). -/
def globbed (n : Str) : Bool :=
  "reactpy-".toList.isPrefixOf n && ".whl".toList.isSuffixOf n && decide (12 ≤ n.length)

/-- `re.sub(r"[-_.]+", "-", value).lower()` (utils.py 230–231); the flag tells that the character before was one of the three. -/
def normalizePart : Bool → Str → Str
  | _, [] => []
  | was, c :: l =>
    if c = '-' ∨ c = '_' ∨ c = '.' then (if was then normalizePart true l else '-' :: normalizePart true l)
    else c.toLower :: normalizePart false l

/-- `name.removesuffix(".whl")` (utils.py 221). -/
def removeWhl (n : Str) : Str := if ".whl".toList.isSuffixOf n then n.take (n.length - 4) else n

/-- utils.py 220–227 `_wheel_matches_local_version`. -/
def matchesVersion (version n : Str) : Bool :=
  let parts := splitOn '-' (removeWhl n)
  decide (5 ≤ parts.length) &&
  decide ((((parts.getD 0 []).map fun c => if c = '_' then '-' else c).map Char.toLower) = "reactpy".toList) &&
  decide (normalizePart false (parts.getD 1 []) = normalizePart false version)

/-- The order of texts (by characters; utils.py 212 `sorted`). -/
def before : Str → Str → Bool
  | [], _ => true
  | _ :: _, [] => false
  | a :: l, b :: r => if a = b then before l r else decide (a.toNat < b.toNat)

/-- The first in order (utils.py 212, 217). -/
def least : List Str → Option Str
  | [] => none
  | n :: l => match least l with
    | none => some n
    | some m => if before n m then some n else some m

/-- utils.py 208–217 `_find_current_reactpy_wheel`; a directory that isn't there is empty. -/
def find (version : Str) (d : Dir) : Option Str :=
  least ((d.map (·.1)).filter fun n => globbed n && matchesVersion version n)

/-- utils.py 234–253 `_wheel_is_stale_for_source`, from the times of `pyproject.toml` and the files below `src/reactpy` that are not
byte code and not in the wheels' directory. -/
def stale (watched : List Nat) (f : File) : Bool := watched.any fun t => decide (f.mtime < t)

/-! ## Into the served directory -/

/-- What is done with the file system, one act at a time (utils.py 320–330, 361–386). -/
inductive Op where
  | unlink (n : Str)
  | create (n : Str)
  | append (n : Str) (chunk : Str)
  | stamp (n : Str) (t : Nat)
  | rename (a b : Str)

/-- An act (utils.py 320–330, 361–386). `create` empties the file if it is there; new files get time 0 here. -/
def act (d : Dir) : Op → Dir
  | .unlink n => erase d n
  | .create n => put d n ⟨[], 0⟩
  | .append n c => match get d n with
    | some f => put d n { f with data := f.data ++ c }
    | none => d
  | .stamp n t => match get d n with
    | some f => put d n { f with mtime := t }
    | none => d
  | .rename a b => match get d a with
    | some f => put (erase d a) b f
    | none => d

/-- Several acts (auxiliary). -/
def acts (d : Dir) (l : List Op) : Dir := l.foldl act d

/-- The temporary name of utils.py 327: `with_suffix(suffix + ".tmp")`. -/
def tmpOf (n : Str) : Str := n ++ ".tmp".toList

/-- utils.py 315–330 `_copy_reactpy_wheel_to_static_dir`: the acts. `same`: `dist` is the served directory itself (324). The copy is
written in any number of chunks; `copy2` sets the time of the original. -/
def copyOps (d : Dir) (name : Str) (same : Bool) (chunks : List Str) (mtime : Nat) : List Op :=
  (((d.map (·.1)).filter fun n => globbed n && decide (n ≠ name)).map Op.unlink) ++
  (if same then [] else
    Op.create (tmpOf name) :: chunks.map (Op.append (tmpOf name)) ++ [Op.stamp (tmpOf name) mtime, Op.rename (tmpOf name) name])

/-- The temporary name of utils.py 356: `with_suffix(".tmp")`. -/
def tmpRebuild (n : Str) : Str := removeWhl n ++ ".tmp".toList

/-- utils.py 361–386: the acts of rebuilding. -/
def rebuildOps (name : Str) (chunks : List Str) : List Op :=
  Op.create (tmpRebuild name) :: chunks.map (Op.append (tmpRebuild name)) ++ [Op.rename (tmpRebuild name) name]

/-! ## Rebuilding -/

/-- utils.py 333–337 `_wheel_archive_name`. -/
def archiveName (path : Str) : Option Str :=
  if "/".toList.isPrefixOf path || (splitOn '/' path).contains "..".toList then none else some path

/-- `Path(...).name` (utils.py 407, 428, 437). -/
def baseName (path : Str) : Str := (splitOn '/' path).getLastD []

/-- `Path(...).parent.as_posix()` (utils.py 435). -/
def parentOf (path : Str) : Str :=
  if (splitOn '/' path).length ≤ 1 then ".".toList else path.take (path.length - (baseName path).length - 1)

/-- `text.strip()` (utils.py 418). -/
def strip (sp : Char → Bool) (s : Str) : Str := ((s.dropWhile sp).reverse.dropWhile sp).reverse

/-- utils.py 402–423 `_installed_wheel_tag`; a file without contents is not there (`FileNotFoundError`: `none`). -/
def wheelTag (sp : Char → Bool) (files : List (Str × Option Str)) : Option Str :=
  match files.find? fun p => baseName p.1 = "WHEEL".toList with
  | none => some "py3-none-any".toList
  | some (_, none) => none
  | some (_, some text) =>
    match (splitOn '\n' text).find? fun l => "Tag: ".toList.isPrefixOf l with
    | none => some "py3-none-any".toList
    | some l => some (strip sp (l.drop 5))

/-- utils.py 393–399 `_installed_wheel_name`. -/
def wheelName (version tag : Str) : Str := "reactpy-".toList ++ version ++ "-".toList ++ tag ++ ".whl".toList

/-- utils.py 426–441 `_installed_wheel_record_name`. -/
def recordName (version : Str) (files : List (Str × Option Str)) : Str :=
  match files.find? fun p => baseName p.1 = "RECORD".toList with
  | some p => p.1
  | none =>
    (match files.find? fun p => baseName p.1 = "WHEEL".toList with
      | some p => parentOf p.1
      | none => "reactpy-".toList ++ version ++ ".dist-info".toList) ++ "/RECORD".toList

/-- utils.py 444–446 `_record_row`. -/
def recordRow (digest : Str → Str) (path data : Str) : List Str :=
  [path, "sha256=".toList ++ digest data, (Nat.repr data.length).toList]

/-- The loop of utils.py 362–381: what goes into the archive. -/
def entries (record : Str) : List (Str × Option Str) → List (Str × Str)
  | [] => []
  | (path, data) :: l =>
    match archiveName path with
    | none => entries record l
    | some name =>
      if name = record then entries record l
      else match data with
        | none => entries record l
        | some data => (name, data) :: entries record l

/-- A field as `csv.writer` writes it (utils.py 449–453): in quotes if it has a comma, a quote or the line terminator. -/
def csvField (f : Str) : Str :=
  if f.any fun c => c = ',' || c = '"' || c = '\n' then
    '"' :: (f.flatMap fun c => if c = '"' then ['"', '"'] else [c]) ++ ['"']
  else f

/-- A row (utils.py 449–453). -/
def csvRow : List Str → Str
  | [] => ['\n']
  | [f] => csvField f ++ ['\n']
  | f :: fs => csvField f ++ ',' :: csvRow fs

/-- utils.py 449–453 `_record_text`. -/
def recordText (rows : List (List Str)) : Str := rows.flatMap csvRow

/-- utils.py 358–384: the archive's files, with the record last. -/
def archive (digest : Str → Str) (version : Str) (files : List (Str × Option Str)) : List (Str × Str) :=
  let record := recordName version files
  let es := entries record files
  es ++ [(record, recordText (es.map (fun e => recordRow digest e.1 e.2) ++ [[record, [], []]]))]

/-! ## All together -/

/-- What is around: ReactPy's version, whether there is a source checkout (196–197), the times of its files, `dist` after Hatch has run
or `none` if that failed (256–295), whether `dist` is the served directory, the installed files or `none` if there are none (341–350). -/
structure World where
  version : Str
  source : Bool
  watched : List Nat
  dist : Option Dir
  same : Bool
  installed : Option (List (Str × Option Str))
  space : Char → Bool
  digest : Str → Str
  zip : List (Str × Str) → Str
  cut : Str → List Str

/-- utils.py 177–178: build with Hatch (256–295) and copy the wheel into the served directory. -/
def build (w : World) (d : Dir) : Option (Dir × Str) :=
  match w.dist with
  | none => none
  | some dist =>
    match find w.version dist with
    | none => none
    | some name =>
      match get dist name with
      | none => none
      | some f =>
        let d := if w.same then dist else d
        some (acts d (copyOps d name w.same (w.cut f.data) f.mtime), name)

/-- utils.py 340–390 `_rebuild_installed_reactpy_wheel`. -/
def rebuild (w : World) (d : Dir) : Option (Dir × Str) :=
  match w.installed with
  | none => none
  | some files =>
    match wheelTag w.space files with
    | none => none
    | some tag =>
      let name := wheelName w.version tag
      some (acts d (rebuildOps name (w.cut (w.zip (archive w.digest w.version files)))), name)

/-- utils.py 170–193 `_ensure_local_reactpy_wheel`: the directory afterwards and the wheel's name; `none`: an error is raised. -/
def ensure (w : World) (d : Dir) : Option (Dir × Str) :=
  let packaged := find w.version d
  if w.source then
    match packaged with
    | some n =>
      match get d n with
      | none => none
      | some f => if stale w.watched f then build w d else some (d, n)
    | none => build w d
  else match packaged with
    | some n => some (d, n)
    | none => rebuild w d

end Verif.Pyscript.Wheel
