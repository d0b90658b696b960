import Verif.Markup.Names
/-! # References between JavaScript modules (src/reactpy/reactjs/utils.py): `normalize_url_path` -/
namespace Verif.Reactjs

/-- URLs (utils.py 132). -/
abbrev Str := List Char

/-- `s.rsplit("/", 1)[0]` (utils.py 140, 146): the text before the last slash; all of it when there is none. -/
def beforeLast (s : Str) : Str := if '/' ∈ s then (s.reverse.dropWhile (· != '/')).tail.reverse else s

/-- utils.py 145–149: each `../` removes one part of the base; then the rest is appended. -/
def climb (base : Str) : Str → Str
  | '.' :: '.' :: '/' :: rel => climb (beforeLast base) rel
  | rel => base ++ '/' :: rel

/-- The parts of a URL given by `urllib.parse.urlparse`.  Simplified: the parameters after `;` stay in the path, control
characters are not removed. (utils.py 33, 136) -/
structure Url where
  scheme : Str
  netloc : Str
  path : Str
  query : Str
  fragment : Str
  deriving Repr, DecidableEq

/-- The characters of schemes (`urllib.parse.scheme_chars`). (called at utils.py 33, 136) -/
def schemeChar (c : Char) : Bool := c.isAlphanum || c == '+' || c == '-' || c == '.'

/-- The text before the first `c` and the text after it (empty when there is none).
(inside `urlparse`, called at utils.py 33, 136) -/
def cut (c : Char) (s : Str) : Str × Str := (s.takeWhile (· != c), (s.dropWhile (· != c)).tail)

/-- The scheme of a URL and the rest (`urllib.parse.urlsplit`). (called at utils.py 33, 136) -/
def splitScheme (s : Str) : Str × Str :=
  let pre := s.takeWhile (· != ':')
  match s.dropWhile (· != ':'), pre with
  | ':' :: rest, c :: _ => if c.isAlpha && pre.all schemeChar then (pre.map Char.toLower, rest) else ([], s)
  | _, _ => ([], s)

/-- Where the host ends. (inside `urlparse`, called at utils.py 33, 136) -/
def endsHost (c : Char) : Bool := c == '/' || c == '?' || c == '#'

/-- The host of the rest of a URL and what follows (`urllib.parse._splitnetloc`). (called at utils.py 33, 136) -/
def splitHost : Str → Str × Str
  | '/' :: '/' :: s => (s.takeWhile (!endsHost ·), s.dropWhile (!endsHost ·))
  | s => ([], s)

/-- `urllib.parse.urlparse`. (called at utils.py 33, 136) -/
def urlparse (s : Str) : Url :=
  let (scheme, rest) := splitScheme s
  let (netloc, rest) := splitHost rest
  let (rest, fragment) := cut '#' rest
  let (path, query) := cut '?' rest
  ⟨scheme, netloc, path, query, fragment⟩

/-- `urllib.parse.urlunparse`; `usesNetloc` says for which schemes an empty host is written. (called at utils.py 136) -/
def urlunparse (usesNetloc : Str → Bool) (u : Url) : Str :=
  let url := u.path
  let url := if u.netloc ≠ [] ∨ (u.scheme ≠ [] ∧ usesNetloc u.scheme = true ∧ url.take 2 ≠ ['/', '/'])
    then ['/', '/'] ++ u.netloc ++ (if url ≠ [] ∧ url.head? ≠ some '/' then '/' :: url else url) else url
  let url := if u.scheme ≠ [] then u.scheme ++ ':' :: url else url
  let url := if u.query ≠ [] then url ++ '?' :: u.query else url
  if u.fragment ≠ [] then url ++ '#' :: u.fragment else url

/-- utils.py 132–149 `normalize_url_path`. -/
def normalize (usesNetloc : Str → Bool) (base rel : Str) : Str :=
  match rel with
  | '.' :: '/' :: r => beforeLast base ++ '/' :: r
  | '.' :: r => climb (beforeLast base) ('.' :: r)
  | '/' :: r =>
    let b := urlparse base
    let u := urlparse ('/' :: r)
    urlunparse usesNetloc { u with scheme := b.scheme, netloc := b.netloc }
  | r => r

end Verif.Reactjs
