/-!
# The location of a connection

`/repo/src/js/packages/@reactpy/client/src/mount.tsx` 8–19 and `websocket.ts` 4–15, 28–34 (the browser puts the location of the
page into the query string of the websocket URL, anew for every connection) and `/repo/src/reactpy/executors/asgi/middleware.py` 45–50, 233–240 (the server reads it).

Query strings are characters; the strings inside them are their UTF-8 bytes, so that Python's decoding (`errors="replace"`)
and JavaScript's encoding are the identity on what is sent.  External code modelled here, because the round trip depends on
it: the serialiser of `URLSearchParams` (URL standard, application/x-www-form-urlencoded) and `urllib.parse.parse_qs`.
-/
namespace Verif.Location

/-- ASCII text: the query string of the websocket URL (middleware.py 45, 235). -/
abbrev Str := List Char
/-- Bytes of the UTF-8 form of the values (websocket.ts 6–10). -/
abbrev Byte := Fin 256
/-- Values of parameters in UTF-8 (websocket.ts 6–10). -/
abbrev Bytes := List Byte

/-- The byte of an ASCII character. (auxiliary, no code of /repo) -/
def byteOf (c : Char) : Byte := Fin.ofNat 256 c.toNat
/-- The bytes of an ASCII literal such as "path" (websocket.ts 6, middleware.py 47). -/
def bytes (s : String) : Bytes := s.toList.map byteOf

/-! ## The browser -/

/-- The digits of percent-encoding. (URL standard; used by the browser at websocket.ts 6–13) -/
def hexDigit (n : Fin 16) : Char := "0123456789ABCDEF".toList.getD n.val '0'

/-- Bytes that stand for themselves: `*`, `-`, `.`, `_`, digits and letters.
(URL standard; used by the browser at websocket.ts 32) -/
def isSafe (b : Byte) : Bool :=
  b.val == 0x2A || b.val == 0x2D || b.val == 0x2E || b.val == 0x5F || (0x30 ≤ b.val && b.val ≤ 0x39) ||
    (0x41 ≤ b.val && b.val ≤ 0x5A) || (0x61 ≤ b.val && b.val ≤ 0x7A)

/-- URL standard, "application/x-www-form-urlencoded percent-encode" of one byte. (used by the browser at websocket.ts 32) -/
def encodeByte (b : Byte) : Str :=
  if b.val = 0x20 then ['+']
  else if isSafe b then [Char.ofNat b.val]
  else ['%', hexDigit ⟨b.val / 16, by omega⟩, hexDigit ⟨b.val % 16, by omega⟩]

/-- URL standard, the same for all bytes of a text (websocket.ts 32). -/
def encode (s : Bytes) : Str := s.flatMap encodeByte

/-- URL standard, the serialiser: `name=value` joined by `&`. (used by the browser at websocket.ts 32) -/
def serialise : List (Bytes × Bytes) → Str
  | [] => []
  | [p] => encode p.1 ++ '=' :: encode p.2
  | p :: q :: l => encode p.1 ++ '=' :: encode p.2 ++ '&' :: serialise (q :: l)

/-- The parameters of a URL (`URLSearchParams`). `url.searchParams`, websocket.ts 6–13, mount.tsx 15–18. -/
abbrev Params := List (Bytes × Bytes)

/-- URL standard, `URLSearchParams.delete(name)`. (called at websocket.ts 13) -/
def Params.delete (ps : Params) (name : Bytes) : Params := ps.filter (fun p => !(p.1 == name))

/-- URL standard, `URLSearchParams.set(name, value)`: the first parameter of that name gets the value and the others are
removed; without one it is added at the end. (called at websocket.ts 6, 10) -/
def Params.set (name value : Bytes) : Params → Params
  | [] => [(name, value)]
  | p :: ps => if p.1 = name then (name, value) :: Params.delete ps name else p :: Params.set name value ps

/-- `window.location`: `pathname` and `search`. (read at websocket.ts 6–10, mount.tsx 15–17) -/
structure Page where
  pathname : Bytes
  search : Bytes
deriving DecidableEq, Repr

/-- mount.tsx 15–19: the parameters of the websocket URL. -/
def mountParams (page : Page) : Params :=
  (bytes "path", page.pathname) :: if page.search = [] then [] else [(bytes "qs", page.search)]

/-- websocket.ts 4–15 `syncBrowserLocation` -/
def sync (page : Page) (ps : Params) : Params :=
  let ps := Params.set (bytes "path") page.pathname ps
  if page.search = [] then Params.delete ps (bytes "qs") else Params.set (bytes "qs") page.search ps

/-- The parameters of the URL (one object, changed for each connection) after mounting on `page` and connecting when the
page was each of `visits` (oldest first). mount.tsx 15–18, then websocket.ts 31 for each connection. -/
def paramsAfter (page : Page) (visits : List Page) : Params := visits.foldl (fun ps p => sync p ps) (mountParams page)

/-! ## The server -/

/-- Python's `s.split(sep)`. (inside `urllib.parse.parse_qs`, called in middleware.py 45–50) -/
def splitAll (sep : Char) : Str → List Str
  | [] => [[]]
  | c :: s =>
    if c = sep then [] :: splitAll sep s
    else match splitAll sep s with
      | [] => [[c]]
      | w :: ws => (c :: w) :: ws

/-- `s.split('=', 1)`, `none` if there is no `=`. -/
def splitEq : Str → Option (Str × Str)
  | [] => none
  | c :: s => if c = '=' then some ([], s) else (splitEq s).map (fun p => (c :: p.1, p.2))

/-- The value of a hexadecimal digit. (inside `urllib.parse.unquote`) -/
def hexValue (c : Char) : Option (Fin 16) :=
  if h : 0x30 ≤ c.toNat ∧ c.toNat ≤ 0x39 then some ⟨c.toNat - 0x30, by omega⟩
  else if h : 0x41 ≤ c.toNat ∧ c.toNat ≤ 0x46 then some ⟨c.toNat - 0x41 + 10, by omega⟩
  else if h : 0x61 ≤ c.toNat ∧ c.toNat ≤ 0x66 then some ⟨c.toNat - 0x61 + 10, by omega⟩
  else none

/-- `urllib.parse.unquote` on ASCII text after `replace('+', ' ')`: `%` and two hexadecimal digits are a byte, every other
character stands for itself. (inside `urllib.parse.parse_qs`, called in middleware.py 45–50) -/
def unquote : Str → Bytes
  | [] => []
  | '%' :: a :: b :: s =>
    match hexValue a, hexValue b with
    | some x, some y => ⟨16 * x.val + y.val, by omega⟩ :: unquote s
    | _, _ => byteOf '%' :: unquote (a :: b :: s)
  | c :: s => byteOf (if c = '+' then ' ' else c) :: unquote s

/-- `urllib.parse.parse_qsl(qs, strict_parsing=True)`: `none` for the `ValueError`; fields with an empty value are left out.
(called in middleware.py 45–50) -/
def parseFields : List Str → Option (List (Bytes × Bytes))
  | [] => some []
  | f :: fs =>
    match splitEq f with
    | none => none
    | some (n, v) =>
      match parseFields fs with
      | none => none
      | some l => some (if v = [] then l else (unquote n, unquote v) :: l)

/-- `urllib.parse.parse_qs`, called in middleware.py 45–50. -/
def parseQs (qs : Str) : Option (List (Bytes × Bytes)) := parseFields (splitAll '&' qs)

/-- `.get(name, [""])[0]` of the dict of lists that `parse_qs` makes: the first value. -/
def first (name : Bytes) (fields : List (Bytes × Bytes)) : Bytes :=
  ((fields.find? (fun p => p.1 == name)).map (·.2)).getD []

/-- types.py `Location`, made at middleware.py 47–50. -/
structure Location where
  path : Bytes
  queryString : Bytes
deriving DecidableEq, Repr

/-- middleware.py 45–50 `_location_from_websocket_query_string` -/
def locationOf (qs : Str) : Option Location :=
  match parseQs qs with
  | none => none
  | some l => some ⟨first (bytes "path") l, first (bytes "qs") l⟩

end Verif.Location
