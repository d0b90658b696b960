import Verif.Location.Model
/-! # The location of a connection: property C71 -/
namespace Verif.Location

theorem hexValue_hexDigit : ∀ n : Fin 16, hexValue (hexDigit n) = some n := by decide +kernel

/-- What the encoding of a byte looks like. -/
theorem encodeByte_cases (b : Byte) :
    (encodeByte b = ['+'] ∧ b = byteOf ' ') ∨
    (∃ c, encodeByte b = [c] ∧ c ≠ '%' ∧ c ≠ '+' ∧ c ≠ '&' ∧ c ≠ '=' ∧ byteOf c = b) ∨
    (∃ x y : Fin 16, encodeByte b = ['%', hexDigit x, hexDigit y] ∧ 16 * x.val + y.val = b.val) := by
  by_cases h : b.val = 0x20
  · left
    exact ⟨by simp [encodeByte, h], Fin.ext (by rw [h]; rfl)⟩
  · by_cases hs : isSafe b = true
    · right; left
      refine ⟨Char.ofNat b.val, by simp [encodeByte, h, hs], ?_⟩
      revert h hs
      revert b
      decide +kernel
    · right; right
      refine ⟨⟨b.val / 16, by omega⟩, ⟨b.val % 16, by omega⟩, ?_, by simp only; omega⟩
      simp [encodeByte, h, hs]

/-- No hexadecimal digit is a separator. -/
theorem hexDigit_plain : ∀ n : Fin 16, hexDigit n ≠ '&' ∧ hexDigit n ≠ '=' ∧ hexDigit n ≠ '%' ∧ hexDigit n ≠ '+' := by decide +kernel

theorem encode_plain (s : Bytes) : '&' ∉ encode s ∧ '=' ∉ encode s := by
  induction s with
  | nil => simp [encode]
  | cons b s ih =>
    simp only [encode, List.flatMap_cons, List.mem_append, not_or] at ih ⊢
    refine ⟨⟨?_, ih.1⟩, ?_, ih.2⟩
    · rcases encodeByte_cases b with ⟨h, _⟩ | ⟨c, h, _, _, h1, _⟩ | ⟨x, y, h, _⟩
      · rw [h]; decide
      · rw [h]; simpa using fun h => h1 h.symm
      · rw [h]
        have := hexDigit_plain x; have := hexDigit_plain y
        simp only [List.mem_cons, List.not_mem_nil, or_false, not_or]
        exact ⟨by decide, fun h => (hexDigit_plain x).1 h.symm, fun h => (hexDigit_plain y).1 h.symm⟩
    · rcases encodeByte_cases b with ⟨h, _⟩ | ⟨c, h, _, _, _, h1, _⟩ | ⟨x, y, h, _⟩
      · rw [h]; decide
      · rw [h]; simpa using fun h => h1 h.symm
      · rw [h]
        simp only [List.mem_cons, List.not_mem_nil, or_false, not_or]
        exact ⟨by decide, fun h => (hexDigit_plain x).2.1 h.symm, fun h => (hexDigit_plain y).2.1 h.symm⟩

theorem unquote_cons {c : Char} (hc : c ≠ '%') (s : Str) : unquote (c :: s) = byteOf (if c = '+' then ' ' else c) :: unquote s := by
  rw [unquote]
  intro a b s' h _
  exact hc h

theorem unquote_encode (s : Bytes) : unquote (encode s) = s := by
  induction s with
  | nil => rfl
  | cons b s ih =>
    simp only [encode, List.flatMap_cons] at ih ⊢
    rcases encodeByte_cases b with ⟨h, hb⟩ | ⟨c, h, h1, h2, _, _, hb⟩ | ⟨x, y, h, hb⟩
    · rw [h, List.singleton_append, unquote_cons (by decide), ih, if_pos rfl, hb]
    · rw [h, List.singleton_append, unquote_cons h1, ih, if_neg h2, hb]
    · rw [h]
      simp only [List.cons_append, List.nil_append, unquote, hexValue_hexDigit, ih]
      congr 1
      exact Fin.ext hb

theorem encode_ne_nil {s : Bytes} (h : s ≠ []) : encode s ≠ [] := by
  intro he
  have := unquote_encode s
  rw [he] at this
  exact h this.symm

theorem splitAll_plain {sep : Char} : ∀ {w : Str}, sep ∉ w → splitAll sep w = [w]
  | [], _ => rfl
  | c :: w, h => by
    simp only [List.mem_cons, not_or] at h
    rw [splitAll, if_neg (fun e => h.1 e.symm), splitAll_plain h.2]

theorem splitAll_append {sep : Char} : ∀ {w : Str} (s : Str), sep ∉ w → splitAll sep (w ++ sep :: s) = w :: splitAll sep s
  | [], s, _ => by simp [splitAll]
  | c :: w, s, h => by
    simp only [List.mem_cons, not_or] at h
    rw [List.cons_append, splitAll, if_neg (fun e => h.1 e.symm), splitAll_append s h.2]

theorem splitEq_append : ∀ {n : Str} (v : Str), '=' ∉ n → splitEq (n ++ '=' :: v) = some (n, v)
  | [], v, _ => by simp [splitEq]
  | c :: n, v, h => by
    simp only [List.mem_cons, not_or] at h
    rw [List.cons_append, splitEq, if_neg (fun e => h.1 e.symm), splitEq_append v h.2]
    rfl

/-- One field, written and read. -/
theorem field_plain (p : Bytes × Bytes) : '&' ∉ encode p.1 ++ '=' :: encode p.2 := by
  simp only [List.mem_append, List.mem_cons, not_or]
  exact ⟨(encode_plain p.1).1, by decide, (encode_plain p.2).1⟩

/-- **C71.**  Query strings are read as they were written: what the server parses is what the browser serialised, without the
fields whose value is empty. -/
theorem C71_fields : ∀ (fields : Params), fields ≠ [] → parseQs (serialise fields) = some (fields.filter (fun p => !p.2.isEmpty))
  | [], h => absurd rfl h
  | [p], _ => by
    simp only [parseQs, serialise, splitAll_plain (field_plain p), parseFields, splitEq_append _ (encode_plain p.1).2, unquote_encode]
    by_cases hv : p.2 = []
    · simp [hv, encode]
    · simp [encode_ne_nil hv, hv]
  | p :: q :: l, _ => by
    have ih := C71_fields (q :: l) (by simp)
    simp only [parseQs] at ih
    simp only [parseQs, serialise, splitAll_append _ (field_plain p), parseFields, splitEq_append _ (encode_plain p.1).2,
      unquote_encode, ih]
    by_cases hv : p.2 = []
    · simp [hv, encode]
    · simp [encode_ne_nil hv, hv]

theorem first_filter (name v : Bytes) (hv : v ≠ []) : ∀ (l : Params), l.find? (fun p => p.1 == name) = some (name, v) →
    first name (l.filter (fun p => !p.2.isEmpty)) = v
  | [], h => by simp at h
  | p :: l, h => by
    rw [List.find?_cons] at h
    cases hp : p.1 == name with
    | true =>
      simp only [hp, Option.some.injEq] at h
      subst h
      have : v.isEmpty = false := by cases v <;> simp_all
      simp [first, this]
    | false =>
      simp only [hp] at h
      have ih := first_filter name v hv l h
      rw [List.filter_cons]
      split
      · simp only [first, List.find?_cons, hp]
        exact ih
      · exact ih

theorem first_missing (name : Bytes) (l : Params) (h : ∀ p ∈ l, p.1 ≠ name) : first name (l.filter (fun p => !p.2.isEmpty)) = [] := by
  have : (l.filter (fun p => !p.2.isEmpty)).find? (fun p => p.1 == name) = none := by
    rw [List.find?_eq_none]
    intro p hp
    simpa using h p (List.mem_filter.1 hp).1
  simp [first, this]

theorem find_set (name v : Bytes) : ∀ ps : Params, (Params.set name v ps).find? (fun p => p.1 == name) = some (name, v)
  | [] => by simp [Params.set]
  | p :: ps => by
    rw [Params.set]
    split
    · simp
    · rename_i h
      have : (p.1 == name) = false := by simpa using h
      rw [List.find?_cons, this]
      exact find_set name v ps

theorem find_delete {name name' : Bytes} (h : name ≠ name') (ps : Params) :
    (Params.delete ps name').find? (fun p => p.1 == name) = ps.find? (fun p => p.1 == name) := by
  induction ps with
  | nil => rfl
  | cons p ps ih =>
    simp only [Params.delete] at ih ⊢
    rw [List.filter_cons]
    by_cases hp : p.1 = name'
    · have h1 : (p.1 == name) = false := by simpa [hp] using fun e => h e.symm
      simp only [hp, beq_self_eq_true, Bool.not_true, Bool.false_eq_true, if_false, ih]
      rw [List.find?_cons, hp, show (name' == name) = false by simpa using fun e => h e.symm]
    · simp only [show (!(p.1 == name')) = true by simpa using hp, if_true]
      rw [List.find?_cons, List.find?_cons, ih]

theorem find_set_other {name name' : Bytes} (h : name ≠ name') (v : Bytes) : ∀ ps : Params,
    (Params.set name' v ps).find? (fun p => p.1 == name) = ps.find? (fun p => p.1 == name)
  | [] => by simpa [Params.set] using fun e => h e.symm
  | p :: ps => by
    have hn : (name' == name) = false := by simpa using fun e => h e.symm
    rw [Params.set]
    split
    · rename_i hp
      rw [List.find?_cons, List.find?_cons, hp, hn, find_delete h]
    · rw [List.find?_cons, List.find?_cons, find_set_other h v ps]

theorem ne_of_find {name : Bytes} {ps : Params} {p : Bytes × Bytes} (h : ps.find? (fun p => p.1 == name) = some p) : ps ≠ [] := by
  intro h'
  simp [h'] at h

theorem path_ne_qs : bytes "path" ≠ bytes "qs" := by decide +kernel

/-- **C71.**  A component sees the location of the page: whatever parameters the websocket URL had before, with whatever path
and query string the page has now, the server reads the same from the URL.  (The path of a page is never empty: it starts with
`/`.) -/
theorem C71_sync (page : Page) (ps : Params) (h : page.pathname ≠ []) :
    locationOf (serialise (sync page ps)) = some ⟨page.pathname, page.search⟩ := by
  by_cases hs : page.search = []
  · have hp : (sync page ps).find? (fun p => p.1 == bytes "path") = some (bytes "path", page.pathname) := by
      simp only [sync, hs, if_true, find_delete path_ne_qs, find_set]
    have hq : ∀ p ∈ sync page ps, p.1 ≠ bytes "qs" := by
      simp only [sync, hs, if_true, Params.delete]
      intro p hp
      simpa using (List.mem_filter.1 hp).2
    simp only [locationOf, C71_fields _ (ne_of_find hp), first_filter _ _ h _ hp, first_missing _ _ hq, hs]
  · have hp : (sync page ps).find? (fun p => p.1 == bytes "path") = some (bytes "path", page.pathname) := by
      simp only [sync, hs, if_false, find_set_other path_ne_qs, find_set]
    have hq : (sync page ps).find? (fun p => p.1 == bytes "qs") = some (bytes "qs", page.search) := by
      simp only [sync, hs, if_false, find_set]
    simp only [locationOf, C71_fields _ (ne_of_find hp), first_filter _ _ h _ hp, first_filter _ _ hs _ hq]

/-- **C71.**  Every connection of a client tells the server where the page is then, through any number of navigations and
reconnections: after mounting and any earlier connections, a connection made when the page is `page` has its location. -/
theorem C71_location (mounted : Page) (visits : List Page) (page : Page) (h : page.pathname ≠ []) :
    locationOf (serialise (paramsAfter mounted (visits ++ [page]))) = some ⟨page.pathname, page.search⟩ := by
  rw [paramsAfter, List.foldl_append]
  exact C71_sync page _ h

/-- Mounted on `/a?x=1`, connected again on `/a b/ü` after a visit to `/c?y=%20+`. -/
example : serialise (paramsAfter ⟨bytes "/a", bytes "?x=1"⟩ [⟨bytes "/c", bytes "?y=%20+"⟩]) = "path=%2Fc&qs=%3Fy%3D%2520%2B".toList ∧
    serialise (paramsAfter ⟨bytes "/a", bytes "?x=1"⟩ [⟨bytes "/c", bytes "?y=%20+"⟩, ⟨bytes "/a b/" ++ [0xC3, 0xBC], []⟩]) =
      "path=%2Fa+b%2F%C3%BC".toList := by decide +kernel
example : locationOf "path=%2Fa+b%2F%C3%BC&qs=%3Fx%3D1%26y%3D%2520%2B".toList =
    some ⟨bytes "/a b/" ++ [0xC3, 0xBC], bytes "?x=1&y=%20+"⟩ := by decide +kernel

end Verif.Location
