import Verif.Startup.TextProps
import Verif.Startup.PageProps
/-! # The import map of a page as text (C124), and which option a setting is for (C69) -/
namespace Verif.Startup.Text

/-! ## Specification -/

/-- The modules that a page without an import map of its own gets, and the files they are in. -/
def mapped : List (String × String) :=
  [("react", "preact.js"), ("react-dom", "preact-dom.js"), ("react-dom/client", "preact-dom.js"), ("react/jsx-runtime", "preact-jsx-runtime.js")]

/-- A string in JSON, of characters that need no escape. -/
def quoted (s : Str) : Str := '"' :: s ++ ['"']

/-- A JSON object, from the names and the JSON of the values. -/
def object (kvs : List (Str × Str)) : Str :=
  '{' :: ",".toList.intercalate (kvs.map fun kv => quoted kv.1 ++ ':' :: kv.2) ++ ['}']

/-- An import map with the files of `mapped` below `base`. -/
def mapFor (base : Str) : Str :=
  object [("imports".toList, object (mapped.map fun m => (m.1.toList, quoted (base ++ "static/".toList ++ m.2.toList))))]

/-- The program that adds the import map with this text if the page has none. -/
def addMapOf (map : Str) : List Tok :=
  code "if (!document.querySelector(" ++ str "#reactpy-importmap" ++ code ")) {   console.debug(     " ++
  str "ReactPy did not detect a suitable JavaScript import map. Falling back to ReactPy's internal framework (Preact)." ++
  code "   );   const im = document.createElement(" ++ str "script" ++ code ");   im.type = " ++ str "importmap" ++
  code ";  im.textContent = " ++ [.str map] ++ code ";   im.id = " ++ str "reactpy-importmap" ++
  code ";   document.head.appendChild(im);   delete im;}"

/-! ## C124 -/

/-- **C124**, the import map: for a prefix such as `/reactpy/` the map that is put into the page is the JSON of the map of `react`, `react-dom`,
`react-dom/client` and `react/jsx-runtime` to the files below the prefix. -/
theorem C124_import_map (q : Str) (hne : q ≠ []) (h1 : q.head? ≠ some '/') (h2 : q.getLast? ≠ some '/') (hs : ' ' ∉ q) (hn : '\n' ∉ q) :
    importMapText ('/' :: q ++ ['/']) = mapFor ('/' :: q ++ ['/']) := by
  have e : (q.filter fun c => c != '\n' && c != ' ') = q := by
    rw [List.filter_eq_self]
    intro c hc
    have a : c ≠ '\n' := fun h => hn (h ▸ hc)
    have b : c ≠ ' ' := fun h => hs (h ▸ hc)
    simp [a, b]
  unfold importMapText
  simp only [strip_slashes hne h1 h2, e]
  simp only [mapFor, object, mapped, quoted, List.intercalate, List.intersperse, List.map_cons, List.map_nil, List.flatten_cons, List.flatten_nil,
    List.append_assoc, List.cons_append, List.nil_append, List.append_nil]
  rfl

example : importMapText "/reactpy/".toList = mapFor "/reactpy/".toList :=
  C124_import_map "reactpy".toList (by decide) (by decide) (by decide) (by decide) (by decide)

/-- **C124**, the page with its import map: for a prefix such as `/reactpy/` the page has the element, the program that adds the map of
the specification, and the program that mounts the component.  For classes, paths and settings as in `C124_page_partial`. -/
theorem C124_page_map_partial (decode : Str → Str) (unescape : Char → Str) (hd : ∀ s, '&' ∉ s → decode s = s) (s : Settings) (hs : s.Fine)
    (q : Str) (hq : s.pathPrefix = '/' :: q ++ ['/']) (hne : q ≠ []) (h1 : q.head? ≠ some '/') (h2 : q.getLast? ≠ some '/') (hsp : ' ' ∉ q)
    (id class_ path : Str) (hi : Safe id) (hi' : '&' ∉ id) (hc : '"' ∉ class_) (hc' : '&' ∉ class_) (hp : Safe path) :
    ∃ html, component s id path [("class".toList, class_)] = .ok html ∧ readPage decode unescape html = some
      { mount := [("id".toList, id), ("class".toList, class_)]
        inside := []
        first := ([], addMapOf (mapFor s.pathPrefix))
        second := ([("type".toList, "module".toList), ("crossorigin".toList, "anonymous".toList)], mount s id (path ++ ['/'])) } := by
  obtain ⟨html, a, b⟩ := C124_page_partial decode unescape hd s hs id class_ path hi hi' hc hc' hp _ (Or.inl rfl)
  refine ⟨html, a, b.trans ?_⟩
  have hn : '\n' ∉ q := fun h => hs.1 '\n' (hq ▸ by simp [h]) (by decide)
  have e : addMap s.pathPrefix = addMapOf (mapFor s.pathPrefix) := by
    rw [hq, ← C124_import_map q hne h1 h2 hsp hn]
    rfl
  unfold page
  rw [e]

example : ∃ html, component demoSettings "ab12".toList "my.module.thing".toList [("class".toList, "wide red".toList)] = .ok html ∧
    ∃ p, readPage id (fun c => [c]) html = some p ∧ p.first.2 = addMapOf (mapFor "/reactpy/".toList) := by
  obtain ⟨html, a, b⟩ := C124_page_map_partial id (fun c => [c]) (fun _ _ => rfl) demoSettings demoFine "reactpy".toList rfl (by decide) (by decide)
    (by decide) (by decide) "ab12".toList "wide red".toList "my.module.thing".toList
    (by have : ∀ c ∈ "ab12".toList, c ∉ ['"', '\'', '\\', '\n', '\r', '<'] := by decide +kernel
        exact this) (by decide) (by decide) (by decide)
    (by have : ∀ c ∈ "my.module.thing".toList, c ∉ ['"', '\'', '\\', '\n', '\r', '<'] := by decide +kernel
        exact this)
  exact ⟨html, a, _, b, rfl⟩

end Verif.Startup.Text

namespace Verif.Startup

/-! ## C69 -/

/-- **C69**, the settings that are checked before the options, by name. -/
theorem C69_keys : prefixKey = "path_prefix".toList ∧ modulesKey = "web_modules_dir".toList ∧ prefixOption = "REACTPY_PATH_PREFIX".toList :=
  ⟨rfl, rfl, rfl⟩

/-- **C69**, no two settings share an option: names for the same option are equal. -/
theorem C69_separate (c : Config) (n m : Str) (a : Str × List Nat) (hn : c.locate n = some a) (hm : c.locate m = some a) : n = m := by
  have key : ∀ p ∈ children, ∀ q ∈ children, p.2 = q.2 → p.1 = q.1 := by decide +kernel
  have pos : ∀ p ∈ children, p.2.2 ≠ [] := by decide +kernel
  have child : ∀ {k : Str} {b : Str × List Nat}, (children.find? (fun p => p.1 == k)).map (·.2) = some b → (k, b) ∈ children := by
    intro k b h
    obtain ⟨p, hp, rfl⟩ := Option.map_eq_some_iff.1 h
    have e : p.1 = k := by simpa using List.find?_some hp
    exact e ▸ List.mem_of_find?_eq_some hp
  unfold Config.locate at hn hm
  split at hn <;> split at hm
  · cases hn; cases hm; rfl
  · cases hn; exact absurd rfl (pos _ (child hm))
  · cases hm; exact absurd rfl (pos _ (child hn))
  · exact key _ (child hn) _ (child hm) rfl

example (b : Builtins) : (defaults b).locate "REACTPY_CHECK_VDOM_SPEC".toList = some ("REACTPY_DEBUG".toList, [0]) ∧
    (defaults b).locate "REACTPY_CHECK_JSON_ATTRS".toList = some ("REACTPY_DEBUG".toList, [1]) := ⟨rfl, rfl⟩

end Verif.Startup
