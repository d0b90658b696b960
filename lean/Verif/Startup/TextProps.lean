import Verif.Startup.Text
/-! # What is passed to the `component` tag stays data: property C124 -/
namespace Verif.Startup.Text

/-! ## Specification -/

/-- Text that can be put between quotes in a script as it is. -/
def Safe (s : Str) : Prop := ∀ c ∈ s, c ∉ ['"', '\'', '\\', '\n', '\r', '<']

/-- Text of a number. -/
def Numeral (s : Str) : Prop := ∀ c ∈ s, c.isDigit = true ∨ c ∈ ['.', 'e', '+', '-']

/-- Characters of code. -/
def code (s : String) : List Tok := s.toList.map .code

/-- A text in quotes. -/
def str (s : String) : List Tok := [.str s.toList]

/-- The program that adds the import map if the page has none. -/
def addMap (pathPrefix : Str) : List Tok :=
  code "if (!document.querySelector(" ++ str "#reactpy-importmap" ++ code ")) {   console.debug(     " ++
  str "ReactPy did not detect a suitable JavaScript import map. Falling back to ReactPy's internal framework (Preact)." ++
  code "   );   const im = document.createElement(" ++ str "script" ++ code ");   im.type = " ++ str "importmap" ++
  code ";  im.textContent = " ++ [.str (importMapText pathPrefix)] ++ code ";   im.id = " ++ str "reactpy-importmap" ++
  code ";   document.head.appendChild(im);   delete im;}"

/-- The program that mounts a component: the settings, the id of the element and the path of the component are data in it. -/
def mount (s : Settings) (id path : Str) : List Tok :=
  code "import { mountReactPy } from " ++ [.str (s.pathPrefix ++ "static/index.js".toList)] ++
  code ";mountReactPy({  mountElement: document.getElementById(" ++ [.str id] ++ code "),  pathPrefix: " ++ [.str s.pathPrefix] ++
  code ",  componentPath: " ++ [.str path] ++ code ",  reconnectInterval: " ++ s.interval.map .code ++
  code ",  reconnectMaxInterval: " ++ s.maxInterval.map .code ++ code ",  reconnectMaxRetries: " ++ s.maxRetries.map .code ++
  code ",  reconnectBackoffMultiplier: " ++ s.backoff.map .code ++ code ",});"

/-- The page that should be shown: an empty element with this id and class, and the two programs. -/
def page (s : Settings) (id class_ path : Str) : Shown :=
  { mount := [("id".toList, id), ("class".toList, class_)]
    inside := []
    first := ([], addMap s.pathPrefix)
    second := ([("type".toList, "module".toList), ("crossorigin".toList, "anonymous".toList)], mount s id path) }

/-- Settings that can be written into a page. -/
def Settings.Fine (s : Settings) : Prop :=
  Safe s.pathPrefix ∧ Numeral s.interval ∧ Numeral s.maxInterval ∧ Numeral s.maxRetries ∧ Numeral s.backoff

/-! ## Lemmas -/

section lexing
variable {u : Char → Str}

theorem lex_code {a s : Str} {ts : List Tok} (ha : ∀ c ∈ a, c ≠ '"' ∧ c ≠ '\'') (h : lex u none s = some ts) :
    lex u none (a ++ s) = some (a.map .code ++ ts) := by
  induction a with
  | nil => exact h
  | cons c a ih =>
    have hc := ha c (by simp)
    rw [List.cons_append, lex, if_neg (by simp [hc]), ih (fun d hd => ha d (by simp [hd]))]
    rfl

theorem lex_inside {q : Char} {v s t : Str} {ts : List Tok} (hv : ∀ c ∈ v, c ≠ q ∧ c ≠ '\\' ∧ c ≠ '\n' ∧ c ≠ '\r')
    (h : lex u none s = some ts) : lex u (some (q, t)) (v ++ q :: s) = some (.str (t ++ v) :: ts) := by
  induction v generalizing t with
  | nil =>
    rw [List.nil_append, lex.eq_def]
    simp [h]
  | cons c v ih =>
    obtain ⟨h1, h2, h3, h4⟩ := hv c (by simp)
    have := ih (t := t ++ [c]) (fun d hd => hv d (by simp [hd]))
    rw [List.cons_append, lex.eq_def]
    simp only [h1, h2, h3, h4, if_false, or_self]
    rw [this]
    simp

theorem lex_dq {v s : Str} {ts : List Tok} (hv : ∀ c ∈ v, c ≠ '"' ∧ c ≠ '\\' ∧ c ≠ '\n' ∧ c ≠ '\r') (h : lex u none s = some ts) :
    lex u none (dq ++ (v ++ (dq ++ s))) = some ([.str v] ++ ts) := by
  show lex u none ('"' :: (v ++ '"' :: s)) = _
  rw [lex, if_pos (by simp), lex_inside hv h]
  rfl

theorem lex_sq {v s : Str} {ts : List Tok} (hv : ∀ c ∈ v, c ≠ '\'' ∧ c ≠ '\\' ∧ c ≠ '\n' ∧ c ≠ '\r') (h : lex u none s = some ts) :
    lex u none (sq ++ (v ++ (sq ++ s))) = some ([.str v] ++ ts) := by
  show lex u none ('\'' :: (v ++ '\'' :: s)) = _
  rw [lex, if_pos (by simp), lex_inside hv h]
  rfl

end lexing

theorem Safe.dq {v : Str} (h : Safe v) : ∀ c ∈ v, c ≠ '"' ∧ c ≠ '\\' ∧ c ≠ '\n' ∧ c ≠ '\r' := fun c hc => by
  have := h c hc
  simp only [List.mem_cons, List.not_mem_nil, or_false, not_or] at this
  exact ⟨this.1, this.2.2.1, this.2.2.2.1, this.2.2.2.2.1⟩

theorem Safe.sq {v : Str} (h : Safe v) : ∀ c ∈ v, c ≠ '\'' ∧ c ≠ '\\' ∧ c ≠ '\n' ∧ c ≠ '\r' := fun c hc => by
  have := h c hc
  simp only [List.mem_cons, List.not_mem_nil, or_false, not_or] at this
  exact ⟨this.2.1, this.2.2.1, this.2.2.2.1, this.2.2.2.2.1⟩

theorem Safe.lt {v : Str} (h : Safe v) : '<' ∉ v := fun hc => by
  have := h _ hc
  simp at this

theorem Safe.append {v w : Str} (h : Safe v) (h' : Safe w) : Safe (v ++ w) := fun c hc => by
  rcases List.mem_append.1 hc with hc | hc
  · exact h c hc
  · exact h' c hc

theorem Numeral.code {v : Str} (h : Numeral v) : ∀ c ∈ v, c ≠ '"' ∧ c ≠ '\'' := fun c hc => by
  rcases h c hc with h | h
  · constructor <;> (rintro rfl; revert h; decide)
  · simp only [List.mem_cons, List.not_mem_nil, or_false] at h
    rcases h with rfl | rfl | rfl | rfl <;> decide

theorem Numeral.lt {v : Str} (h : Numeral v) : '<' ∉ v := fun hc => by
  rcases h _ hc with h | h
  · revert h; decide
  · simp at h

theorem strip_mem {c : Char} {s : Str} (h : c ∈ strip s) : c ∈ s := by
  unfold strip at h
  have h1 := (List.dropWhile_sublist _).subset (List.mem_reverse.1 h)
  exact (List.dropWhile_sublist _).subset (List.mem_reverse.1 h1)

theorem importMap_mem {c : Char} {p : Str} (h : c ∈ importMapText p) (hc : c ∈ ['\'', '\\', '\n', '\r', '<']) : c ∈ p := by
  unfold importMapText at h
  have lit : ∀ l ∈ ["{\"imports\":{\"react\":\"/", "/static/preact.js\",\"react-dom\":\"/", "/static/preact-dom.js\",\"react-dom/client\":\"/",
      "/static/preact-dom.js\",\"react/jsx-runtime\":\"/", "/static/preact-jsx-runtime.js\"}}"], ∀ d ∈ ['\'', '\\', '\n', '\r', '<'],
      d ∉ l.toList := by decide +kernel
  simp only [List.mem_append, List.mem_filter] at h
  rcases h with (((((((h | h) | h) | h) | h) | h) | h) | h) | h
  · exact absurd h (lit _ (by simp) c hc)
  · exact strip_mem h.1
  · exact absurd h (lit _ (by simp) c hc)
  · exact strip_mem h.1
  · exact absurd h (lit _ (by simp) c hc)
  · exact strip_mem h.1
  · exact absurd h (lit _ (by simp) c hc)
  · exact strip_mem h.1
  · exact absurd h (lit _ (by simp) c hc)

theorem lex_map (u : Char → Str) {p : Str} (hp : Safe p) : lex u none (mapScript p) = some (addMap p) := by
  have hm : ∀ c ∈ importMapText p, c ≠ '\'' ∧ c ≠ '\\' ∧ c ≠ '\n' ∧ c ≠ '\r' := fun c hc => by
    refine ⟨?_, ?_, ?_, ?_⟩ <;> (rintro rfl; have := hp _ (importMap_mem hc (by decide)); revert this; decide)
  unfold mapScript addMap code str
  simp only [List.append_assoc]
  refine lex_code (by decide +kernel) <| lex_dq (by decide +kernel) <| lex_code (by decide +kernel) <| lex_dq (by decide +kernel) <|
    lex_code (by decide +kernel) <| lex_dq (by decide +kernel) <| lex_code (by decide +kernel) <| lex_dq (by decide +kernel) <|
    lex_code (by decide +kernel) <| lex_sq hm <| lex_code (by decide +kernel) <| lex_dq (by decide +kernel) ?_
  have := lex_code (u := u) (a := ";   document.head.appendChild(im);   delete im;}".toList) (s := []) (ts := []) (by decide +kernel) rfl
  simpa using this

theorem static_safe : Safe "static/index.js".toList := by
  have : ∀ c ∈ "static/index.js".toList, c ∉ ['"', '\'', '\\', '\n', '\r', '<'] := by decide +kernel
  exact this

theorem lex_mount (u : Char → Str) {s : Settings} (hs : s.Fine) {id path : Str} (hi : Safe id) (hp : Safe path) :
    lex u none (mountScript s id path) = some (mount s id path) := by
  obtain ⟨h0, h1, h2, h3, h4⟩ := hs
  unfold mountScript mount code
  rw [show ∀ a b c : Str, a ++ dq ++ b ++ c = a ++ dq ++ (b ++ c) from fun a b c => by simp]
  simp only [List.append_assoc]
  rw [← List.append_assoc s.pathPrefix "static/index.js".toList]
  refine lex_code (by decide +kernel) <| lex_dq (h0.append static_safe).dq <| lex_code (by decide +kernel) <| lex_dq hi.dq <|
    lex_code (by decide +kernel) <| lex_dq h0.dq <| lex_code (by decide +kernel) <| lex_dq hp.dq <| lex_code (by decide +kernel) <|
    lex_code h1.code <| lex_code (by decide +kernel) <| lex_code h2.code <| lex_code (by decide +kernel) <| lex_code h3.code <|
    lex_code (by decide +kernel) <| lex_code h4.code ?_
  have := lex_code (u := u) (a := ",});".toList) (s := []) (ts := []) (by decide +kernel) rfl
  simpa using this

/-! ### HTML -/

theorem readAttrs_value (decode : Str → Str) {v : Str} (hv : '"' ∉ v) (n w s : Str) :
    readAttrs decode (.value n w) (v ++ '"' :: s) = (readAttrs decode .between s).map fun r => ((n, decode (w ++ v)) :: r.1, r.2) := by
  induction v generalizing w with
  | nil => rw [List.nil_append, readAttrs, if_pos rfl]; simp
  | cons c v ih =>
    have hc : c ≠ '"' := fun e => hv (by simp [e])
    rw [List.cons_append, readAttrs, if_neg hc, ih (fun h => hv (by simp [h]))]
    simp

theorem readAttrs_name (decode : Str → Str) {n : Str} (hn : ∀ c ∈ n, c ≠ ' ' ∧ c ≠ '=' ∧ c ≠ '>') (w s : Str) :
    readAttrs decode (.name w) (n ++ '=' :: s) = readAttrs decode (.equals (w ++ n)) s := by
  induction n generalizing w with
  | nil => rw [List.nil_append, readAttrs, if_pos rfl]; simp
  | cons c n ih =>
    obtain ⟨h1, h2, h3⟩ := hn c (by simp)
    rw [List.cons_append, readAttrs, if_neg h2, if_neg h3, if_neg h1, ih (fun d hd => hn d (by simp [hd]))]
    simp

theorem readAttrs_attr (decode : Str → Str) (c : Char) {n v : Str} (hn : ∀ d ∈ c :: n, d ≠ ' ' ∧ d ≠ '=' ∧ d ≠ '>') (hv : '"' ∉ v) (s : Str) :
    readAttrs decode .between (' ' :: c :: (n ++ '=' :: '"' :: (v ++ '"' :: s))) =
      (readAttrs decode .between s).map fun r => ((c :: n, decode v) :: r.1, r.2) := by
  obtain ⟨h1, h2, h3⟩ := hn c (by simp)
  rw [readAttrs, if_pos rfl, readAttrs, if_neg h1, if_neg h3, readAttrs_name decode (fun d hd => hn d (by simp [hd])), readAttrs, if_pos rfl,
    readAttrs_value decode hv]
  rfl

theorem readAttrs_id (decode : Str → Str) {v : Str} (hv : '"' ∉ v) (s : Str) :
    readAttrs decode .between (" id=".toList ++ (dq ++ (v ++ (dq ++ s)))) =
      (readAttrs decode .between s).map fun r => (("id".toList, decode v) :: r.1, r.2) :=
  readAttrs_attr decode 'i' (n := "d".toList) (by decide +kernel) hv s

theorem readAttrs_class (decode : Str → Str) {v : Str} (hv : '"' ∉ v) (s : Str) :
    readAttrs decode .between (" class=".toList ++ (dq ++ (v ++ (dq ++ s)))) =
      (readAttrs decode .between s).map fun r => (("class".toList, decode v) :: r.1, r.2) :=
  readAttrs_attr decode 'c' (n := "lass".toList) (by decide +kernel) hv s

theorem readAttrs_type (decode : Str → Str) {v : Str} (hv : '"' ∉ v) (s : Str) :
    readAttrs decode .between (" type=".toList ++ (dq ++ (v ++ (dq ++ s)))) =
      (readAttrs decode .between s).map fun r => (("type".toList, decode v) :: r.1, r.2) :=
  readAttrs_attr decode 't' (n := "ype".toList) (by decide +kernel) hv s

theorem readAttrs_crossorigin (decode : Str → Str) {v : Str} (hv : '"' ∉ v) (s : Str) :
    readAttrs decode .between (" crossorigin=".toList ++ (dq ++ (v ++ (dq ++ s)))) =
      (readAttrs decode .between s).map fun r => (("crossorigin".toList, decode v) :: r.1, r.2) :=
  readAttrs_attr decode 'c' (n := "rossorigin".toList) (by decide +kernel) hv s

theorem content_end (e t r : Str) (ht : '<' ∉ t) : content ('<' :: e) (t ++ ('<' :: e ++ r)) = some (t, r) := by
  induction t with
  | nil =>
    rw [List.nil_append, List.cons_append, content, if_pos]
    · simp
    · rw [← List.cons_append]; simp
  | cons c t ih =>
    have hc : c ≠ '<' := fun h => ht (by simp [h])
    rw [List.cons_append, content, if_neg, ih (fun h => ht (by simp [h]))]
    · rfl
    · simp [List.isPrefixOf, Ne.symm hc]

theorem map_lt {p : Str} (hp : Safe p) : '<' ∉ mapScript p := by
  unfold mapScript dq sq
  simp only [List.mem_append, not_or]
  refine ⟨⟨⟨⟨⟨⟨⟨⟨⟨⟨⟨⟨⟨⟨⟨⟨⟨⟨⟨⟨⟨⟨⟨⟨?_, ?_⟩, ?_⟩, ?_⟩, ?_⟩, ?_⟩, ?_⟩, ?_⟩, ?_⟩, ?_⟩, ?_⟩, ?_⟩, ?_⟩, ?_⟩, ?_⟩, ?_⟩, ?_⟩, ?_⟩, ?_⟩, ?_⟩, ?_⟩, ?_⟩, ?_⟩, ?_⟩, ?_⟩
  all_goals first
    | (intro h; exact hp.lt (importMap_mem h (by decide)))
    | decide +kernel

theorem mount_lt {s : Settings} (hs : s.Fine) {id path : Str} (hi : Safe id) (hp : '<' ∉ path) : '<' ∉ mountScript s id path := by
  obtain ⟨h0, h1, h2, h3, h4⟩ := hs
  unfold mountScript dq
  simp only [List.mem_append, not_or]
  have l : ∀ l ∈ ["import { mountReactPy } from ", "static/index.js", ";mountReactPy({  mountElement: document.getElementById(", "),  pathPrefix: ",
    ",  componentPath: ", ",  reconnectInterval: ", ",  reconnectMaxInterval: ", ",  reconnectMaxRetries: ", ",  reconnectBackoffMultiplier: ",
    ",});"], '<' ∉ l.toList := by decide +kernel
  simp only [List.mem_cons, List.not_mem_nil, or_false, forall_eq_or_imp, forall_eq] at l
  simp only [l, h0.lt, h1.lt, h2.lt, h3.lt, h4.lt, hi.lt, hp, List.mem_cons, List.not_mem_nil, or_false, not_false_eq_true, and_true, true_and]
  decide

theorem read_div (decode : Str → Str) {id class_ : Str} (hi : '"' ∉ id) (hc : '"' ∉ class_) (r : Str) :
    readElement decode "div".toList
      ("<div id=".toList ++ (dq ++ (id ++ (dq ++ (" class=".toList ++ (dq ++ (class_ ++ (dq ++ ("></div>".toList ++ r))))))))) =
      some (([("id".toList, decode id), ("class".toList, decode class_)], []), r) := by
  show readElement decode ['d', 'i', 'v'] ('<' :: 'd' :: 'i' :: 'v' :: (" id=".toList ++ (dq ++ (id ++ (dq ++ (" class=".toList ++
    (dq ++ (class_ ++ (dq ++ ("></div>".toList ++ r)))))))))) = _
  rw [readElement, if_pos (by simp [List.isPrefixOf])]
  simp only [List.length_cons, List.length_nil, List.drop_succ_cons, List.drop_zero, Nat.zero_add]
  rw [readAttrs_id decode hi, readAttrs_class decode hc]
  have h1 : readAttrs decode .between ("></div>".toList ++ r) = some ([], "</div>".toList ++ r) := by
    show readAttrs decode .between ('>' :: ("</div>".toList ++ r)) = _
    simp [readAttrs]
  have h2 : content ("</".toList ++ ['d', 'i', 'v'] ++ ['>']) ("</div>".toList ++ r) = some ([], r) := content_end "/div>".toList [] r (by simp)
  rw [h1]
  simp only [Option.map_some, Option.bind_eq_bind, Option.bind_some]
  rw [h2]
  rfl

theorem read_first (decode : Str → Str) {t : Str} (ht : '<' ∉ t) (r : Str) :
    readElement decode "script".toList ("<script>".toList ++ (t ++ ("</script>".toList ++ r))) = some (([], t), r) := by
  show readElement decode ['s', 'c', 'r', 'i', 'p', 't'] ('<' :: 's' :: 'c' :: 'r' :: 'i' :: 'p' :: 't' :: '>' :: (t ++ ("</script>".toList ++ r))) = _
  rw [readElement, if_pos (by simp [List.isPrefixOf])]
  simp only [List.length_cons, List.length_nil, List.drop_succ_cons, List.drop_zero, Nat.zero_add]
  have h1 : readAttrs decode .between ('>' :: (t ++ ("</script>".toList ++ r))) = some ([], t ++ ("</script>".toList ++ r)) := by
    simp [readAttrs]
  have h2 : content ("</".toList ++ ['s', 'c', 'r', 'i', 'p', 't'] ++ ['>']) (t ++ ("</script>".toList ++ r)) = some (t, r) :=
    content_end "/script>".toList t r ht
  rw [h1]
  simp only [Option.bind_eq_bind, Option.bind_some]
  rw [h2]
  rfl

theorem read_second (decode : Str → Str) {t : Str} (ht : '<' ∉ t) :
    readElement decode "script".toList ("<script type=".toList ++ (dq ++ ("module".toList ++ (dq ++ (" crossorigin=".toList ++
      (dq ++ ("anonymous".toList ++ (dq ++ (">".toList ++ (t ++ "</script>".toList)))))))))) =
      some (([("type".toList, decode "module".toList), ("crossorigin".toList, decode "anonymous".toList)], t), []) := by
  show readElement decode ['s', 'c', 'r', 'i', 'p', 't'] ('<' :: 's' :: 'c' :: 'r' :: 'i' :: 'p' :: 't' :: (" type=".toList ++ (dq ++
    ("module".toList ++ (dq ++ (" crossorigin=".toList ++ (dq ++ ("anonymous".toList ++ (dq ++ (">".toList ++ (t ++ "</script>".toList))))))))))) = _
  rw [readElement, if_pos (by simp [List.isPrefixOf])]
  simp only [List.length_cons, List.length_nil, List.drop_succ_cons, List.drop_zero, Nat.zero_add]
  rw [readAttrs_type decode (by decide +kernel), readAttrs_crossorigin decode (by decide +kernel)]
  have h1 : readAttrs decode .between (">".toList ++ (t ++ "</script>".toList)) = some ([], t ++ "</script>".toList) := by
    show readAttrs decode .between ('>' :: (t ++ "</script>".toList)) = _
    simp [readAttrs]
  have h2 : content ("</".toList ++ ['s', 'c', 'r', 'i', 'p', 't'] ++ ['>']) (t ++ "</script>".toList) = some (t, []) := by
    have := content_end "/script>".toList t [] ht
    rw [List.append_nil] at this
    exact this
  rw [h1]
  simp only [Option.map_some, Option.bind_eq_bind, Option.bind_some]
  rw [h2]
  rfl

theorem read_html (decode : Str → Str) (unescape : Char → Str) (hd : ∀ s, '&' ∉ s → decode s = s) {s : Settings} (hs : s.Fine)
    {id class_ path : Str} (hi : Safe id) (hi' : '&' ∉ id) (hc : '"' ∉ class_) (hp : Safe path) :
    readPage decode unescape (componentHtml s id class_ path) = some (page s id (decode class_) path) := by
  have hq : '"' ∉ id := fun h => (hi.dq _ h).1 rfl
  unfold readPage componentHtml
  simp only [List.append_assoc]
  rw [read_div decode hq hc]
  simp only [Option.bind_eq_bind, Option.bind_some]
  rw [read_first decode (map_lt hs.1)]
  simp only [Option.bind_some]
  rw [read_second decode (mount_lt hs hi hp.lt)]
  simp only [Option.bind_some, lex_map unescape hs.1, lex_mount unescape hs hi hp]
  rw [hd id hi', hd "module".toList (by decide +kernel), hd "anonymous".toList (by decide +kernel)]
  rfl

/-- **C124.**  The `component` tag puts an empty element with the given class into the page, and the programs that add the import
map and mount the component at the given path; class and path are data in them.  For classes without `"` and `&`, paths
that can be put between quotes, and settings that can. -/
theorem C124_page_partial (decode : Str → Str) (unescape : Char → Str) (hd : ∀ s, '&' ∉ s → decode s = s) (s : Settings) (hs : s.Fine)
    (id class_ path : Str) (hi : Safe id) (hi' : '&' ∉ id) (hc : '"' ∉ class_) (hc' : '&' ∉ class_) (hp : Safe path)
    (kwargs : List (Str × Str)) (hk : kwargs = [("class".toList, class_)] ∨ kwargs = [] ∧ class_ = []) :
    ∃ html, component s id path kwargs = .ok html ∧ readPage decode unescape html = some (page s id class_ (path ++ ['/'])) := by
  refine ⟨componentHtml s id class_ (path ++ ['/']), ?_, ?_⟩
  · rcases hk with rfl | ⟨rfl, rfl⟩
    · simp [component]
    · simp [component]
  · rw [read_html decode unescape hd hs hi hi' hc (hp.append (by intro c hc; simp at hc; subst hc; decide)), hd class_ hc']

/-- Settings to try the properties on. -/
def demoSettings : Settings :=
  { pathPrefix := "/reactpy/".toList, interval := "750".toList, maxInterval := "60000".toList, maxRetries := "150".toList, backoff := "1.25".toList }

theorem demoFine : demoSettings.Fine := by
  refine ⟨?_, ?_, ?_, ?_, ?_⟩
  · have : ∀ c ∈ "/reactpy/".toList, c ∉ ['"', '\'', '\\', '\n', '\r', '<'] := by decide +kernel
    exact this
  · have : ∀ c ∈ "750".toList, c.isDigit = true ∨ c ∈ ['.', 'e', '+', '-'] := by decide +kernel
    exact this
  · have : ∀ c ∈ "60000".toList, c.isDigit = true ∨ c ∈ ['.', 'e', '+', '-'] := by decide +kernel
    exact this
  · have : ∀ c ∈ "150".toList, c.isDigit = true ∨ c ∈ ['.', 'e', '+', '-'] := by decide +kernel
    exact this
  · have : ∀ c ∈ "1.25".toList, c.isDigit = true ∨ c ∈ ['.', 'e', '+', '-'] := by decide +kernel
    exact this

theorem demoSafe : Safe "ab12".toList ∧ Safe "my.module.thing".toList := by
  have h1 : ∀ c ∈ "ab12".toList, c ∉ ['"', '\'', '\\', '\n', '\r', '<'] := by decide +kernel
  have h2 : ∀ c ∈ "my.module.thing".toList, c ∉ ['"', '\'', '\\', '\n', '\r', '<'] := by decide +kernel
  exact ⟨h1, h2⟩

example : ∃ html, component demoSettings "ab12".toList "my.module.thing".toList [("class".toList, "wide red".toList)] = .ok html ∧
    readPage id (fun c => [c]) html = some (page demoSettings "ab12".toList "wide red".toList ("my.module.thing".toList ++ ['/'])) :=
  C124_page_partial id _ (fun _ _ => rfl) _ demoFine _ _ _ demoSafe.1 (by decide +kernel) (by decide +kernel) (by decide +kernel) demoSafe.2 _
    (Or.inl rfl)

/-- **C124.**  A tag with another argument than `class` raises an error that names it. -/
theorem C124_arguments (s : Settings) (id path : Str) (kwargs : List (Str × Str)) :
    (∀ n, (∃ v, (n, v) ∈ kwargs) → n = "class".toList) ↔ ∃ html, component s id path kwargs = .ok html := by
  unfold component
  simp only
  constructor
  · intro h
    rw [if_neg]
    · exact ⟨_, rfl⟩
    · simp only [ne_eq, List.filter_eq_nil_iff, bne_iff_ne, Classical.not_not]
      exact fun p hp => h p.1 ⟨p.2, hp⟩
  · rintro ⟨html, h⟩ n ⟨v, hv⟩
    split at h
    · cases h
    · rename_i hn
      simp only [ne_eq, Classical.not_not, List.filter_eq_nil_iff, bne_iff_ne] at hn
      exact hn (n, v) hv

/-- **C124.**  The error names exactly the arguments other than `class`. -/
theorem C124_error (s : Settings) (id path : Str) (kwargs : List (Str × Str)) (ns : List Str) (h : component s id path kwargs = .error ns) (n : Str) :
    n ∈ ns ↔ n ≠ "class".toList ∧ ∃ v, (n, v) ∈ kwargs := by
  unfold component at h
  simp only at h
  split at h
  · cases h
    simp only [List.mem_map, List.mem_filter, bne_iff_ne]
    constructor
    · rintro ⟨p, ⟨hp, hn⟩, rfl⟩
      exact ⟨hn, p.2, hp⟩
    · rintro ⟨hn, v, hv⟩
      exact ⟨(n, v), ⟨hv, hn⟩, rfl⟩
  · cases h

theorem first_quote {v : Str} (h : '"' ∈ v) : ∃ a b, v = a ++ '"' :: b ∧ '"' ∉ a := by
  induction v with
  | nil => cases h
  | cons c v ih =>
    by_cases hc : c = '"'
    · exact ⟨[], v, by rw [hc]; rfl, by simp⟩
    · obtain ⟨a, b, rfl, ha⟩ := ih (by
        rcases List.mem_cons.1 h with h | h
        · exact absurd h.symm hc
        · exact h)
      exact ⟨c :: a, b, rfl, by simp [ha, Ne.symm hc]⟩

theorem read_cut (decode : Str → Str) {id a b r : Str} (hi : '"' ∉ id) (ha : '"' ∉ a) {x : (List (Str × Str) × Str) × Str}
    (h : readElement decode "div".toList ("<div id=".toList ++ (dq ++ (id ++ (dq ++ (" class=".toList ++ (dq ++ (a ++ (dq ++ (b ++ r))))))))) = some x) :
    ∃ more, x.1.1 = ("id".toList, decode id) :: ("class".toList, decode a) :: more := by
  replace h : readElement decode ['d', 'i', 'v'] ('<' :: 'd' :: 'i' :: 'v' :: (" id=".toList ++ (dq ++ (id ++ (dq ++ (" class=".toList ++
    (dq ++ (a ++ (dq ++ (b ++ r)))))))))) = some x := h
  rw [readElement, if_pos (by simp [List.isPrefixOf])] at h
  simp only [List.length_cons, List.length_nil, List.drop_succ_cons, List.drop_zero, Nat.zero_add] at h
  rw [readAttrs_id decode hi, readAttrs_class decode ha] at h
  cases h1 : readAttrs decode .between (b ++ r) with
  | none => rw [h1] at h; simp at h
  | some y =>
    rw [h1] at h
    simp only [Option.map_some, Option.bind_eq_bind, Option.bind_some] at h
    cases h2 : content ("</".toList ++ ['d', 'i', 'v'] ++ ['>']) y.2 with
    | none => rw [h2] at h; simp at h
    | some z =>
      rw [h2] at h
      simp only [Option.bind_some] at h
      cases h
      exact ⟨_, rfl⟩

/-- **C124.**  The mount element has the given class, and no other attributes, exactly if there is no `"` in the class. -/
theorem C124_class_exact (decode : Str → Str) (unescape : Char → Str) (hd : ∀ s, '&' ∉ s → decode s = s) (s : Settings) (hs : s.Fine)
    (id class_ path : Str) (hi : Safe id) (hi' : '&' ∉ id) (hc' : '&' ∉ class_) (hp : Safe path) :
    (∃ p, readPage decode unescape (componentHtml s id class_ path) = some p ∧ p.mount = [("id".toList, id), ("class".toList, class_)]) ↔
      '"' ∉ class_ := by
  constructor
  · rintro ⟨p, h, hm⟩ hq
    obtain ⟨a, b, rfl, ha⟩ := first_quote hq
    unfold readPage componentHtml at h
    simp only [List.append_assoc] at h
    cases h1 : readElement decode "div".toList ("<div id=".toList ++ (dq ++ (id ++ (dq ++ (" class=".toList ++ (dq ++ (a ++ ('"' :: b ++
        (dq ++ ("></div>".toList ++ ("<script>".toList ++ (mapScript s.pathPrefix ++ ("</script>".toList ++ ("<script type=".toList ++ (dq ++
        ("module".toList ++ (dq ++ (" crossorigin=".toList ++ (dq ++ ("anonymous".toList ++ (dq ++ (">".toList ++ (mountScript s id path ++
        "</script>".toList))))))))))))))))))))))) with
    | none => rw [h1] at h; simp at h
    | some x =>
      rw [h1] at h
      simp only [Option.bind_eq_bind, Option.bind_some, Option.bind_eq_some_iff] at h
      obtain ⟨y, _, z, _, p1, _, p2, _, h⟩ := h
      cases h
      obtain ⟨more, hx⟩ := read_cut decode (fun h => (hi.dq _ h).1 rfl) ha h1
      simp only at hm
      rw [hx] at hm
      simp only [List.cons.injEq, Prod.mk.injEq, true_and] at hm
      have := hm.2.1
      rw [hd a (fun h => hc' (by simp [h]))] at this
      have := congrArg List.length this
      simp at this
  · intro hc
    exact ⟨_, read_html decode unescape hd hs hi hi' hc hp, by rw [page, hd class_ hc']⟩

example : ∃ p, readPage id (fun c => [c]) (componentHtml demoSettings "ab12".toList "wide red".toList "my.module.thing".toList) = some p ∧
    p.mount = [("id".toList, "ab12".toList), ("class".toList, "wide red".toList)] :=
  (C124_class_exact id _ (fun _ _ => rfl) _ demoFine _ _ _ demoSafe.1 (by decide +kernel) (by decide +kernel) demoSafe.2).2 (by decide +kernel)

/-- **C124 is violated** by a class with quotes, which may add an event handler to the page. -/
theorem C124_class_violated : ∃ html p, component demoSettings "ab12".toList "my.module.thing".toList
      [("class".toList, "x\" onclick=\"alert(1)".toList)] = .ok html ∧ readPage id (fun c => [c]) html = some p ∧
    p.mount = [("id".toList, "ab12".toList), ("class".toList, "x".toList), ("onclick".toList, "alert(1)".toList)] := by
  refine ⟨_, _, rfl, Option.some_get (by decide +kernel) |>.symm, by decide +kernel⟩

/-- **C124 is violated** by a path with quotes, part of which the browser runs. -/
theorem C124_path_violated : ∃ html p, component demoSettings "ab12".toList "x\"});alert(1);({y:\"".toList [] = .ok html ∧
    readPage id (fun c => [c]) html = some p ∧ ∃ k, (p.second.2.drop k).take 9 = code ";alert(1)" := by
  refine ⟨_, _, rfl, Option.some_get (by decide +kernel) |>.symm, 124, by decide +kernel⟩

end Verif.Startup.Text
