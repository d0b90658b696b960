import Verif.Reactjs.Url
/-! # References between JavaScript modules: property C43 -/
namespace Verif.Reactjs
open Verif.Markup (joinWith)

/-- Specification: the text of a URL: origin (`scheme://host`), directories, file name. -/
def urlOf (origin : Str) (dirs : List Str) (file : Str) : Str := origin ++ '/' :: joinWith '/' (dirs ++ [file])

/-- Specification: `../` as often as given. -/
def ups : Nat → Str
  | 0 => []
  | n + 1 => '.' :: '.' :: '/' :: ups n

theorem beforeLast_slash (x f : Str) (h : '/' ∉ f) : beforeLast (x ++ '/' :: f) = x := by
  have hm : '/' ∈ x ++ '/' :: f := by simp
  rw [beforeLast, if_pos hm, List.reverse_append, List.reverse_cons, List.append_assoc,
    List.dropWhile_append_of_pos]
  · simp
  · intro c hc
    have : c ≠ '/' := by rintro rfl; exact h (List.mem_reverse.1 hc)
    simpa using this

theorem joinWith_snoc (dirs : List Str) (d f : Str) : joinWith '/' (dirs ++ [d, f]) = joinWith '/' (dirs ++ [d]) ++ '/' :: f := by
  induction dirs with
  | nil => rfl
  | cons e dirs ih =>
    cases dirs with
    | nil => simp [joinWith]
    | cons e' dirs =>
      simp only [List.cons_append, joinWith] at ih ⊢
      rw [ih]; simp

/-- The directory part of a URL. -/
def dirOf (origin : Str) (dirs : List Str) : Str := if dirs = [] then origin else origin ++ '/' :: joinWith '/' dirs

theorem dirOf_snoc (origin : Str) (dirs : List Str) (d : Str) : dirOf origin (dirs ++ [d]) = urlOf origin dirs d := by
  simp [dirOf, urlOf]

theorem urlOf_dir (origin : Str) (dirs : List Str) (file : Str) : urlOf origin dirs file = dirOf origin dirs ++ '/' :: file := by
  cases hd : dirs with
  | nil => rfl
  | cons d ds =>
    obtain ⟨ini, l, e⟩ : ∃ ini l, d :: ds = ini ++ [l] :=
      ⟨(d :: ds).dropLast, (d :: ds).getLast (by simp), (List.dropLast_concat_getLast (by simp)).symm⟩
    rw [e, dirOf_snoc, urlOf, urlOf, List.append_assoc]
    simp only [List.singleton_append]
    rw [joinWith_snoc]; simp

theorem beforeLast_url (origin : Str) (dirs : List Str) (file : Str) (hf : '/' ∉ file) :
    beforeLast (urlOf origin dirs file) = dirOf origin dirs := by
  rw [urlOf_dir, beforeLast_slash _ _ hf]

theorem climb_rest (base r : Str) (h : ∀ t, r ≠ '.' :: '.' :: '/' :: t) : climb base r = base ++ '/' :: r := by
  rw [climb.eq_def]
  split
  · exact absurd rfl (h _)
  · rfl

theorem climb_ups (origin : Str) : ∀ (up : Nat) (dirs : List Str) (r : Str), (∀ d ∈ dirs, '/' ∉ d) → up ≤ dirs.length →
    (∀ t, r ≠ '.' :: '.' :: '/' :: t) →
    climb (dirOf origin dirs) (ups up ++ r) = dirOf origin (dirs.take (dirs.length - up)) ++ '/' :: r
  | 0, dirs, r, _, _, hr => by
    simp only [ups, List.nil_append, Nat.sub_zero, List.take_length]
    exact climb_rest _ _ hr
  | up + 1, dirs, r, hd, hup, hr => by
    have hne : dirs ≠ [] := by rintro rfl; simp at hup
    obtain ⟨ini, l, e⟩ : ∃ ini l, dirs = ini ++ [l] :=
      ⟨dirs.dropLast, dirs.getLast hne, (List.dropLast_concat_getLast hne).symm⟩
    subst e
    simp only [ups, List.cons_append, climb]
    rw [dirOf_snoc, beforeLast_url _ _ _ (hd l (by simp)), climb_ups origin up ini r (fun d h => hd d (by simp [h])) (by simpa using hup) hr]
    have e : (ini ++ [l]).length - (up + 1) = ini.length - up := by simp
    rw [e, List.take_append_of_le_length (by omega)]

/-- **C43** (partial: references that do not climb above the root, bases whose query has no slash).  A reference `./…` is
looked up in the directory of the base; each leading `../` goes up one directory; the origin stays. -/
theorem C43_relative_partial (usesNetloc : Str → Bool) (origin : Str) (dirs : List Str) (file rest : Str)
    (hd : ∀ d ∈ dirs, '/' ∉ d) (hf : '/' ∉ file) :
    normalize usesNetloc (urlOf origin dirs file) ('.' :: '/' :: rest) = urlOf origin dirs rest ∧
    ∀ up, 0 < up → up ≤ dirs.length → (∀ t, rest ≠ '.' :: '.' :: '/' :: t) →
      normalize usesNetloc (urlOf origin dirs file) (ups up ++ rest) = urlOf origin (dirs.take (dirs.length - up)) rest := by
  constructor
  · rw [normalize, beforeLast_url _ _ _ hf, urlOf_dir]
  · intro up h0 hup hr
    match up, h0 with
    | up + 1, _ =>
      have := climb_ups origin (up + 1) dirs rest hd hup hr
      simp only [ups, List.cons_append] at this ⊢
      rw [normalize, beforeLast_url _ _ _ hf, this, urlOf_dir]
      intro t ht; simp at ht

example : normalize (fun _ => true) "https://h.io/a/b/c.js".toList "../../x.js".toList = "https://h.io/x.js".toList ∧
    urlOf "https://h.io".toList ["a".toList, "b".toList] "c.js".toList = "https://h.io/a/b/c.js".toList := by decide +kernel

theorem takeWhile_stop {p : Char → Bool} (a : Str) (c : Char) (b : Str) (ha : ∀ x ∈ a, p x = true) (hc : p c = false) :
    (a ++ c :: b).takeWhile p = a ∧ (a ++ c :: b).dropWhile p = c :: b := by
  induction a with
  | nil => simp [hc]
  | cons x a ih =>
    have hx := ha x (by simp)
    have := ih (fun y hy => ha y (by simp [hy]))
    simp [hx, this]

theorem takeWhile_all' {p : Char → Bool} (a : Str) (ha : ∀ x ∈ a, p x = true) : a.takeWhile p = a ∧ a.dropWhile p = [] := by
  induction a with
  | nil => simp
  | cons x a ih =>
    have hx := ha x (by simp)
    have := ih (fun y hy => ha y (by simp [hy]))
    simp [hx, this]

/-- What may follow the host. -/
def Tail (t : Str) : Prop := t = [] ∨ ∃ c r, t = c :: r ∧ endsHost c = true

theorem splitScheme_slash (r : Str) : splitScheme ('/' :: r) = ([], '/' :: r) := by
  have h : ('/' :: r).takeWhile (· != ':') = '/' :: r.takeWhile (· != ':') := by
    rw [List.takeWhile_cons_of_pos (by decide)]
  simp only [splitScheme, h]
  split
  · rename_i _ c l e
    simp only [List.cons.injEq] at e
    rw [if_neg]
    rw [← e.1]
    simp
  · rfl

theorem urlparse_origin {scheme host t : Str} (hs : ∃ c l, scheme = c :: l ∧ c.isAlpha = true)
    (hsc : ∀ c ∈ scheme, schemeChar c = true ∧ c ≠ ':') (hh : ∀ c ∈ host, endsHost c = false) (ht : Tail t) :
    (urlparse (scheme ++ ':' :: '/' :: '/' :: (host ++ t))).scheme = scheme.map Char.toLower ∧
    (urlparse (scheme ++ ':' :: '/' :: '/' :: (host ++ t))).netloc = host := by
  have h1 := takeWhile_stop (p := (· != ':')) scheme ':' ('/' :: '/' :: (host ++ t)) (fun c hc => by simpa using (hsc c hc).2) (by decide)
  have hsp : splitScheme (scheme ++ ':' :: '/' :: '/' :: (host ++ t)) = (scheme.map Char.toLower, '/' :: '/' :: (host ++ t)) := by
    simp only [splitScheme, h1.1, h1.2]
    obtain ⟨c, l, e, hc⟩ := hs
    subst e
    simp only
    rw [if_pos]
    simp only [hc, Bool.true_and, List.all_eq_true]
    exact fun d hd => (hsc d hd).1
  have hho : splitHost ('/' :: '/' :: (host ++ t)) = (host, t) := by
    simp only [splitHost]
    rcases ht with rfl | ⟨c, r, rfl, hc⟩
    · have := takeWhile_all' (p := (!endsHost ·)) host (fun c hc => by simp [hh c hc])
      simp [this]
    · have := takeWhile_stop (p := (!endsHost ·)) host c r (fun c hc => by simp [hh c hc]) (by simp [hc])
      simp [this]
  simp only [urlparse, hsp, hho]
  exact ⟨trivial, trivial⟩

/-- **C43** (partial: the scheme in lower case; no empty query, no empty fragment, one leading slash).  A reference `/…` is
looked up at the root of the base's origin, whatever follows the host in the base. -/
theorem C43_root_partial (usesNetloc : Str → Bool) {scheme host t path query fragment : Str}
    (hs : ∃ c l, scheme = c :: l ∧ c.isAlpha = true) (hsc : ∀ c ∈ scheme, c.isAlphanum = true ∨ c ∈ ['+', '-', '.'])
    (hlow : scheme.map Char.toLower = scheme) (hh : ∀ c ∈ host, c ∉ ['/', '?', '#']) (hne : host ≠ [])
    (ht : t = [] ∨ ∃ c r, t = c :: r ∧ c ∈ ['/', '?', '#'])
    (hp : path.head? ≠ some '/') (hp' : ∀ c ∈ path, c ≠ '?' ∧ c ≠ '#')
    (hq : query = [] ∨ ∃ q, query = '?' :: q ∧ q ≠ [] ∧ '#' ∉ q) (hf : fragment = [] ∨ ∃ f, fragment = '#' :: f ∧ f ≠ []) :
    normalize usesNetloc (scheme ++ ':' :: '/' :: '/' :: (host ++ t)) ('/' :: path ++ query ++ fragment) =
      scheme ++ ':' :: '/' :: '/' :: (host ++ ('/' :: path ++ query ++ fragment)) := by
  have hsc' : ∀ c ∈ scheme, schemeChar c = true ∧ c ≠ ':' := by
    intro c hc
    rcases hsc c hc with h | h
    · refine ⟨by simp [schemeChar, h], ?_⟩
      rintro rfl
      revert h; decide
    · simp only [List.mem_cons, List.not_mem_nil, or_false] at h
      rcases h with rfl | rfl | rfl <;> decide
  have hends : ∀ c, endsHost c = true ↔ c ∈ ['/', '?', '#'] := by
    intro c
    simp [endsHost, or_assoc]
  have hh' : ∀ c ∈ host, endsHost c = false := fun c hc => by
    rw [Bool.eq_false_iff]
    exact fun h => hh c hc ((hends c).1 h)
  have ht' : Tail t := ht.imp id fun ⟨c, r, e, h⟩ => ⟨c, r, e, (hends c).2 h⟩
  obtain ⟨e1, e2⟩ := urlparse_origin hs hsc' hh' ht'
  have hnorm : normalize usesNetloc (scheme ++ ':' :: '/' :: '/' :: (host ++ t)) ('/' :: path ++ query ++ fragment) =
      urlunparse usesNetloc { urlparse ('/' :: path ++ query ++ fragment) with scheme := scheme, netloc := host } := by
    simp only [List.cons_append, normalize, e1, e2, hlow]
  have hparse : urlparse ('/' :: path ++ query ++ fragment) = ⟨[], [], '/' :: path, query.tail, fragment.tail⟩ := by
    have hsh : splitHost ('/' :: path ++ query ++ fragment) = ([], '/' :: path ++ query ++ fragment) := by
      rw [splitHost.eq_def]
      split
      · rename_i s heq
        exfalso
        simp only [List.cons_append, List.cons.injEq, true_and] at heq
        cases path with
        | cons c p =>
          simp only [List.cons_append, List.cons.injEq] at heq
          exact hp (by simp [heq.1])
        | nil =>
          rcases hq with rfl | ⟨q, rfl, _⟩
          · rcases hf with rfl | ⟨f, rfl, _⟩
            · cases heq
            · simp at heq
          · simp at heq
      · rfl
    have hcf : cut '#' ('/' :: path ++ query ++ fragment) = ('/' :: path ++ query, fragment.tail) := by
      have hno : ∀ c ∈ '/' :: path ++ query, (c != '#') = true := by
        intro c hc
        have : c ≠ '#' := by
          rcases List.mem_append.1 hc with h | h
          · rcases List.mem_cons.1 h with h | h
            · rw [h]; decide
            · exact (hp' c h).2
          · rcases hq with rfl | ⟨q, rfl, _, hq⟩
            · cases h
            · rcases List.mem_cons.1 h with h | h
              · rw [h]; decide
              · rintro rfl; exact hq h
        simpa using this
      simp only [cut]
      rcases hf with rfl | ⟨f, rfl, _⟩
      · have := takeWhile_all' _ hno
        rw [List.append_nil, this.1, this.2, List.tail_nil]
      · have := takeWhile_stop _ '#' f hno (by decide)
        rw [this.1, this.2, List.tail_cons]
    have hcq : cut '?' ('/' :: path ++ query) = ('/' :: path, query.tail) := by
      have hno : ∀ c ∈ '/' :: path, (c != '?') = true := by
        intro c hc
        have : c ≠ '?' := by
          rcases List.mem_cons.1 hc with h | h
          · rw [h]; decide
          · exact (hp' c h).1
        simpa using this
      simp only [cut]
      rcases hq with rfl | ⟨q, rfl, _⟩
      · have := takeWhile_all' _ hno
        rw [List.append_nil, this.1, this.2, List.tail_nil]
      · have := takeWhile_stop _ '?' q hno (by decide)
        rw [this.1, this.2, List.tail_cons]
    have hsp : splitScheme ('/' :: path ++ query ++ fragment) = ([], '/' :: path ++ query ++ fragment) := by
      simp only [List.cons_append]; exact splitScheme_slash _
    rw [urlparse, hsp]
    simp only [hsh, hcf, hcq]
  rw [hnorm, hparse]
  have hsne : scheme ≠ [] := by obtain ⟨c, l, e, _⟩ := hs; rw [e]; simp
  simp only [urlunparse, hne, hsne, ne_eq, not_false_eq_true, true_or, if_true]
  rcases hq with rfl | ⟨q, rfl, hq, _⟩ <;> rcases hf with rfl | ⟨f, rfl, hf⟩
  · simp
  · simp [hf]
  · simp [hq]
  · simp [hf, hq]

example : normalize (fun _ => true) "https://h.io/a/b.js?x=1".toList "/v1/c.js?bundle#f".toList = "https://h.io/v1/c.js?bundle#f".toList := by
  decide +kernel

/-- **C43.**  A reference that starts neither with `.` nor with `/` is taken as it is: absolute URLs stay. -/
theorem C43_absolute (usesNetloc : Str → Bool) (base : Str) (c : Char) (r : Str) (h1 : c ≠ '.') (h2 : c ≠ '/') :
    normalize usesNetloc base (c :: r) = c :: r := by
  rw [normalize.eq_def]
  split
  · rename_i e; simp at e; exact absurd e.1 h1
  · rename_i e; simp at e; exact absurd e.1 h1
  · rename_i e; simp at e; exact absurd e.1 h2
  · rfl

/-- **C43, violated.**  A `../` too many replaces the host by the file name; so does `./` from a base without a path. -/
theorem C43_host_violated :
    normalize (fun _ => true) "https://h.io/a.js".toList "../x.js".toList = "https://x.js".toList ∧
    normalize (fun _ => true) "https://h.io".toList "./x.js".toList = "https://x.js".toList := by decide +kernel

/-- **C43, violated.**  A slash in the query of the base counts as a directory. -/
theorem C43_query_violated :
    normalize (fun _ => true) "https://h.io/a.js?deps=react/jsx".toList "./x.js".toList = "https://h.io/a.js?deps=react/x.js".toList := by
  decide +kernel

/-- **C43, violated.**  A reference that names its host (`//host/…`) is looked up at the host of the base. -/
theorem C43_network_violated :
    normalize (fun _ => true) "https://h.io/a.js".toList "//cdn.io/x.js".toList = "https://h.io/x.js".toList := by decide +kernel

/-- **C43, violated.**  `../` is only understood at the start of a reference: after `./` it is kept (and `./` after `../`
too). -/
theorem C43_inner_violated :
    normalize (fun _ => true) "https://h.io/a/b.js".toList "./../x.js".toList = "https://h.io/a/../x.js".toList ∧
    normalize (fun _ => true) "https://h.io/a/b.js".toList ".././x.js".toList = "https://h.io/./x.js".toList := by decide +kernel

end Verif.Reactjs
