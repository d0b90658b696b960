import Verif.Markup.Names
/-! # Names exported by JavaScript modules (src/reactpy/reactjs/utils.py): `resolve_names_from_source`

The three regular expressions are written out as the scans they stand for.  Simplified: white space is space, tab, line feed
and carriage return. -/
namespace Verif.Reactjs.Exports
open Verif.Markup (splitOn)

/-- The text of a module (utils.py 72). -/
abbrev Str := List Char

/-- `\s` of utils.py 191–199, and the characters that `strip` of 92, 123 removes, on ASCII. -/
def isSpace (c : Char) : Bool := c == ' ' || c == '\t' || c == '\n' || c == '\r'

/-- `str.strip` for the characters given. (Python; utils.py 92, 99, 105, 114, 118, 123) -/
def stripBy (p : Char → Bool) (s : Str) : Str := ((s.dropWhile p).reverse.dropWhile p).reverse

/-- `str.strip()`, utils.py 92, 123, 124. -/
def strip (s : Str) : Str := stripBy isSpace s

/-- `s.split(sep, 1)`: the text before the first `sep` and the text after it, if there is one. -/
def splitFirst (sep : Str) : Str → Option (Str × Str)
  | [] => none
  | c :: s => if sep.isPrefixOf (c :: s) then some ([], (c :: s).drop sep.length)
    else (splitFirst sep s).map fun r => (c :: r.1, r.2)

/-- `s.split(sep, 1)[0]`. -/
def before (sep s : Str) : Str := ((splitFirst sep s).map (·.1)).getD s

/-- `s.split(sep, 1)[-1]`. -/
def after (sep s : Str) : Str := ((splitFirst sep s).map (·.2)).getD s

/-- The word in the patterns of utils.py 191–199. -/
def kwExport : Str := ['e', 'x', 'p', 'o', 'r', 't']

/-- utils.py 197–199: `\s*export(?=\s+|{)(.*?)(?=;|$)`; the text of the group and the text that follows. -/
def exportAt (s : Str) : Option (Str × Str) :=
  let s := s.dropWhile isSpace
  if kwExport.isPrefixOf s then
    let s := s.drop 6
    match s with
    | [] => none
    | c :: _ => if isSpace c || c == '{' then some (s.takeWhile (fun c => c != ';' && c != '\n'), s.dropWhile (fun c => c != ';' && c != '\n')) else none
  else none

/-- utils.py 197–199 with `findall`: a match starts at the start of a line or with `;` or `}`. -/
def scan : Nat → Bool → Str → List Str
  | 0, _, _ => []
  | _, _, [] => []
  | n + 1, lineStart, c :: s =>
    match (if lineStart then exportAt (c :: s) else none).or (if c == ';' || c == '}' then exportAt s else none) with
    | some (group, rest) => group :: scan n false rest
    | none => scan n (c == '\n') s

/-- The names and references of an `export` statement. utils.py 82–83. -/
structure Found where
  names : List Str := []
  refs : List Str := []
  deriving DecidableEq, Repr

/-- `strip("{}")`, utils.py 99, 105, 118. -/
def isBrace (c : Char) : Bool := c == '{' || c == '}'
/-- `strip("'\"")`, utils.py 114. -/
def isQuote (c : Char) : Bool := c == '\'' || c == '"'

/-- utils.py 98–100, 116–119. -/
def items (s : Str) : List Str := (splitOn ',' (stripBy isBrace s)).map (after [' ', 'a', 's', ' '])

/-- utils.py 92–119: the body of the loop, on the stripped text after `export`. -/
def classify (name : Str) : Found :=
  if ['l', 'e', 't', ' '].isPrefixOf name then { names := (splitOn ',' (name.drop 4)).map (before ['=']) }
  else if name.head? = some '{' ∧ name.getLast? = some '}' then { names := items name }
  else if ['c', 'o', 'n', 's', 't', ' '].isPrefixOf name then
    { names := (splitOn ',' (stripBy isBrace (before ['='] (name.drop 6)))).map (before [':']) }
  else if ['d', 'e', 'f', 'a', 'u', 'l', 't', ' '].isPrefixOf name then { names := [['d', 'e', 'f', 'a', 'u', 'l', 't']] }
  else if ['*', ' ', 'a', 's', ' '].isPrefixOf name then { names := [before [' ', 'f', 'r', 'o', 'm', ' '] (name.drop 5)] }
  else if ['*', ' '].isPrefixOf name then { refs := [stripBy isQuote (after ['f', 'r', 'o', 'm', ' '] (name.drop 2))] }
  else if name.head? = some '{' ∧ (splitFirst [' ', 'f', 'r', 'o', 'm', ' '] name).isSome then
    { names := items (before [' ', 'f', 'r', 'o', 'm', ' '] name) }
  else {}

/-- utils.py 92: `name.rstrip(";").strip()`; the text has no `;`. -/
def statement (group : Str) : Found := classify (strip group)

/-- Characters of identifiers after the first (utils.py 195). -/
def isIdent (c : Char) : Bool := c.isAlphanum || c == '_' || c == '$'

/-- One keyword and the white space after it. `export\s+default\s` and `export\s+(?:function|class)\s+`, utils.py 191–196. -/
def keyword (kw s : Str) : Option Str :=
  if kw.isPrefixOf s then
    match s.drop kw.length with
    | c :: r => if isSpace c then some (r.dropWhile isSpace) else none
    | [] => none
  else none

/-- utils.py 191–193: `export\s+default\s` somewhere in the text. -/
def hasDefault : Str → Bool
  | [] => false
  | c :: s => ((keyword kwExport (c :: s)).bind (keyword ['d', 'e', 'f', 'a', 'u', 'l', 't'])).isSome || hasDefault s

/-- utils.py 194–196: `export\s+(?:function|class)\s+([a-zA-Z_$][0-9a-zA-Z_$]*)` somewhere in the text.
Simplified: matches that overlap (`export class export class A`) are all found; `findall` goes on after the end of a match. -/
def functions : Str → List Str
  | [] => []
  | c :: s =>
    (match (keyword kwExport (c :: s)).bind fun r => (keyword ['f', 'u', 'n', 'c', 't', 'i', 'o', 'n'] r).or (keyword ['c', 'l', 'a', 's', 's'] r) with
    | some (d :: r) => if isIdent d && !d.isDigit then [(d :: r).takeWhile isIdent] else []
    | _ => []) ++ functions s

/-- utils.py 71–129 `resolve_names_from_source`. -/
def resolveSource (content : Str) (excludeDefault : Bool) : Found :=
  let found := (scan (content.length + 1) true content).map statement
  let names := (if hasDefault content then [['d', 'e', 'f', 'a', 'u', 'l', 't']] else []) ++ functions content ++ found.flatMap (·.names)
  let names := names.map strip
  { names := if excludeDefault then names.filter (· ≠ ['d', 'e', 'f', 'a', 'u', 'l', 't']) else names,
    refs := (found.flatMap (·.refs)).map strip }

end Verif.Reactjs.Exports
