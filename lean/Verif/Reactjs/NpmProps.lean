import Verif.Reactjs.Npm
import Verif.Startup.Model
/-!
# C93: components from NPM packages share the React of the page
-/
namespace Verif.Reactjs.Npm

/-! ### Reading a URL -/

/-- The part of a URL that names the file: up to the first question mark. -/
def fileOf (url : Str) : Str := url.takeWhile (· != '?')

/-- The options of a URL: what follows the first question mark, cut at the ampersands. -/
def optionsOf (url : Str) : List Str := if '?' ∈ url then Markup.splitOn '&' (url.dropWhile (· != '?')).tail else []

/-- The first part of a name like `react-dom/client`, which is the package, and the path inside of it. -/
def packageOf (name : Str) : Str := name.takeWhile (· != '/')
/-- The path inside of the package, with its slash. -/
def pathIn (name : Str) : Str := name.dropWhile (· != '/')

/-- That the CDN is esm.sh, as the function sees it: its address has this text somewhere. -/
def AtEsm (cdn : Str) : Prop := ∃ a b, cdn = a ++ "esm.sh".toList ++ b

/-- The version in use: the given one, unless it is left out or empty. -/
def versionOr (given : Option Str) (default : Str) : Str := (given.filter (fun v => !v.isEmpty)).getD default

/-! ### Lemmas -/

theorem inText_iff (needle hay : Str) : inText needle hay = true ↔ ∃ a b, hay = a ++ needle ++ b := by
  induction hay with
  | nil =>
    cases needle with
    | nil => exact ⟨fun _ => ⟨[], [], rfl⟩, fun _ => rfl⟩
    | cons c r => exact ⟨fun h => by simp [inText] at h, fun ⟨a, b, h⟩ => by simp at h⟩
  | cons c r ih =>
    unfold inText
    rw [Bool.or_eq_true, ih]
    constructor
    · rintro (h | ⟨a, b, h⟩)
      · obtain ⟨t, ht⟩ := List.isPrefixOf_iff_prefix.mp h
        exact ⟨[], t, by simpa using ht.symm⟩
      · exact ⟨c :: a, b, by simp [h]⟩
    · rintro ⟨a, b, h⟩
      cases a with
      | nil => exact Or.inl (List.isPrefixOf_iff_prefix.mpr ⟨b, by simpa using h.symm⟩)
      | cons d a =>
        simp only [List.cons_append, List.cons.injEq] at h
        exact Or.inr ⟨a, b, h.2⟩

theorem atEsm_iff (cdn : Str) : inText "esm.sh".toList cdn = true ↔ AtEsm cdn := inText_iff _ _

theorem orText_eq (x : Option Str) (y : Str) : orText x y = versionOr x y := by
  match x with
  | none => rfl
  | some [] => rfl
  | some (c :: r) => rfl

theorem takeWhile_app_mem {α : Type} [BEq α] [LawfulBEq α] (x : α) (a b : List α) (h : x ∈ a) :
    (a ++ b).takeWhile (· != x) = a.takeWhile (· != x) ∧ (a ++ b).dropWhile (· != x) = a.dropWhile (· != x) ++ b := by
  induction a with
  | nil => simp at h
  | cons c r ih =>
    by_cases hc : c = x
    · subst hc; simp
    · have : x ∈ r := by simpa [Ne.symm hc] using h
      obtain ⟨h1, h2⟩ := ih this
      have hb : (c != x) = true := by simpa using hc
      simp only [List.cons_append, List.takeWhile_cons, List.dropWhile_cons, hb, if_true]
      exact ⟨by rw [h1], h2⟩

theorem takeWhile_app_not {α : Type} [BEq α] [LawfulBEq α] (x : α) (a b : List α) (h : x ∉ a) :
    (a ++ x :: b).takeWhile (· != x) = a ∧ (a ++ x :: b).dropWhile (· != x) = x :: b ∧ a.takeWhile (· != x) = a := by
  induction a with
  | nil => simp
  | cons c r ih =>
    have hc : c ≠ x := by intro e; exact h (by simp [e])
    obtain ⟨h1, h2, h3⟩ := ih (fun m => h (by simp [m]))
    have hb : (c != x) = true := by simpa using hc
    simp only [List.cons_append, List.takeWhile_cons, List.dropWhile_cons, hb, if_true]
    exact ⟨by rw [h1], h2, by rw [h3]⟩

theorem splitOn_append_sep' (sep : Char) (a b : Str) :
    Markup.splitOn sep (a ++ sep :: b) = Markup.splitOn sep a ++ Markup.splitOn sep b := by
  have ha := Markup.joinWith_splitOn sep a
  have hn := Markup.splitOn_no_sep sep a
  generalize hps : Markup.splitOn sep a = ps at ha hn
  have hne : ps ≠ [] := hps ▸ Markup.splitOn_ne_nil sep a
  clear hps
  subst ha
  induction ps with
  | nil => exact absurd rfl hne
  | cons p r ih =>
    have hp := hn p (by simp)
    by_cases hr : r = []
    · subst hr
      simp only [Markup.joinWith]
      rw [Markup.splitOn_append_sep _ _ hp]; rfl
    · rw [Markup.joinWith_cons _ _ hr, List.append_assoc, List.cons_append, Markup.splitOn_append_sep _ _ hp, ih (fun q hq => hn q (by simp [hq])) hr]
      rfl

/-- The options that are added. -/
theorem added (bundle : Bool) : ∀ t : Str, t = "external=".toList ++ Markup.joinWith ',' externals ++ (if bundle then "&bundle".toList else []) ++ "&target=es2020".toList →
    Markup.splitOn '&' t = ["external=react,react-dom,react/jsx-runtime".toList] ++ (if bundle then ["bundle".toList] else []) ++ ["target=es2020".toList] := by
  intro t h; subst h; cases bundle <;> decide +kernel

theorem npmUrl_esm {package version cdn : Str} (bundle : Bool) (h : inText "esm.sh".toList cdn = true) :
    npmUrl package version cdn bundle = (cdn ++ '/' :: package ++ '@' :: version) ++ (if '?' ∈ cdn ++ '/' :: package ++ '@' :: version then ['&'] else ['?']) ++
      ("external=".toList ++ Markup.joinWith ',' externals ++ (if bundle then "&bundle".toList else []) ++ "&target=es2020".toList) := by
  unfold npmUrl
  rw [if_pos h]
  cases bundle <;> simp [List.append_assoc]

/-! ### The URL of a package -/

/-- **C93 (the file).**  The file that is loaded is the one of the package and version at the given CDN, whatever is added as options. -/
theorem C93_file (package version cdn : Str) (bundle : Bool) :
    fileOf (npmUrl package version cdn bundle) = fileOf (cdn ++ '/' :: package ++ '@' :: version) := by
  by_cases h : inText "esm.sh".toList cdn = true
  · rw [npmUrl_esm bundle h]
    generalize ("external=".toList ++ Markup.joinWith ',' externals ++ (if bundle then "&bundle".toList else []) ++ "&target=es2020".toList) = t
    generalize cdn ++ '/' :: package ++ '@' :: version = base
    unfold fileOf
    by_cases hq : '?' ∈ base
    · rw [List.append_assoc]; exact (takeWhile_app_mem '?' base _ hq).1
    · rw [if_neg hq, List.append_assoc]
      have := takeWhile_app_not '?' base t hq
      exact this.1.trans this.2.2.symm
  · unfold npmUrl; rw [if_neg h]

/-- **C93 (the options).**  At esm.sh, the options are those of the version or of the CDN, in their order, and then: which packages come from
the page, bundling when it is wanted, and the target; each of them once. -/
theorem C93_options (package version cdn : Str) (bundle : Bool) (h : AtEsm cdn) :
    optionsOf (npmUrl package version cdn bundle) = optionsOf (cdn ++ '/' :: package ++ '@' :: version) ++
      ["external=react,react-dom,react/jsx-runtime".toList] ++ (if bundle then ["bundle".toList] else []) ++ ["target=es2020".toList] := by
  rw [npmUrl_esm bundle ((atEsm_iff cdn).mpr h)]
  have ha := added bundle _ rfl
  revert ha
  generalize ("external=".toList ++ Markup.joinWith ',' externals ++ (if bundle then "&bundle".toList else []) ++ "&target=es2020".toList) = t
  generalize cdn ++ '/' :: package ++ '@' :: version = base
  intro ha
  unfold optionsOf
  by_cases hq : '?' ∈ base
  · have hm : '?' ∈ base ++ (if '?' ∈ base then ['&'] else ['?']) ++ t := by simp [hq]
    rw [if_pos hm, if_pos hq, if_pos hq, List.append_assoc, (takeWhile_app_mem '?' base _ hq).2]
    obtain ⟨c, r, hd⟩ : ∃ c r, base.dropWhile (· != '?') = c :: r := by
      cases e : base.dropWhile (· != '?') with
      | nil =>
        exfalso; clear hm ha; revert e hq
        induction base with
        | nil => intro h; cases h
        | cons d r ih =>
          intro hq e
          by_cases hd : d = '?'
          · subst hd; simp at e
          · have hb : (d != '?') = true := by simpa using hd
            rw [List.dropWhile_cons, if_pos hb] at e
            exact ih (by simpa [Ne.symm hd] using hq) e
      | cons c r => exact ⟨c, r, rfl⟩
    rw [hd]
    show Markup.splitOn '&' (r ++ '&' :: t) = _
    rw [splitOn_append_sep', ha]
    simp [List.append_assoc]
  · have hm : '?' ∈ base ++ (if '?' ∈ base then ['&'] else ['?']) ++ t := by simp [hq]
    rw [if_pos hm, if_neg hq, if_neg hq]
    have := (takeWhile_app_not '?' base t hq).2.1
    rw [List.append_assoc]
    show Markup.splitOn '&' ((base ++ '?' :: t).dropWhile (· != '?')).tail = _
    rw [this]
    simpa using ha

/-- **C93 (other CDNs).**  Any other CDN gets the plain address. -/
theorem C93_elsewhere (package version cdn : Str) (bundle : Bool) (h : ¬ AtEsm cdn) :
    npmUrl package version cdn bundle = cdn ++ '/' :: package ++ '@' :: version := by
  unfold npmUrl; rw [if_neg (fun e => h ((atEsm_iff cdn).mp e))]

theorem last_at {a b p q : Str} (hb : '@' ∉ b) (hq : '@' ∉ q) (h : a ++ '@' :: b = p ++ '@' :: q) : a = p ∧ b = q := by
  have hr := congrArg List.reverse h
  simp only [List.reverse_append, List.reverse_cons, List.append_assoc, List.cons_append, List.nil_append] at hr
  have h1 := takeWhile_app_not '@' b.reverse a.reverse (by simpa using hb)
  have h2 := takeWhile_app_not '@' q.reverse p.reverse (by simpa using hq)
  rw [hr] at h1
  have e1 : b.reverse = q.reverse := h1.1.symm.trans h2.1
  have e2 : a.reverse = p.reverse := by
    have := h1.2.1.symm.trans h2.2.1
    simpa using this
  exact ⟨by simpa using congrArg List.reverse e2, by simpa using congrArg List.reverse e1⟩

/-- **C93 (one address for each request).**  With the same CDN, packages whose addresses agree are the same package in the same version; at
esm.sh also bundled in the same way. -/
theorem C93_distinct (cdn p v p' v' : Str) (b b' : Bool) (hv : '@' ∉ v ∧ '?' ∉ v) (hv' : '@' ∉ v' ∧ '?' ∉ v') (hp : '?' ∉ p) (hp' : '?' ∉ p') (hc : '?' ∉ cdn)
    (h : npmUrl p v cdn b = npmUrl p' v' cdn b') : p = p' ∧ v = v' ∧ (AtEsm cdn → b = b') := by
  have hf := congrArg fileOf h
  rw [C93_file, C93_file] at hf
  have key : ∀ (p v : Str), '?' ∉ v → '?' ∉ p → fileOf (cdn ++ '/' :: p ++ '@' :: v) = cdn ++ '/' :: p ++ '@' :: v := by
    intro p v h1 h2
    exact (takeWhile_app_not '?' _ [] (by simp [hc, h1, h2])).2.2
  rw [key p v hv.2 hp, key p' v' hv'.2 hp'] at hf
  obtain ⟨e1, e2⟩ := last_at hv.1 hv'.1 hf
  have e1' : p = p' := by simpa using e1
  refine ⟨e1', e2, fun he => ?_⟩
  have ho := congrArg List.length (congrArg optionsOf h)
  rw [C93_options _ _ _ _ he, C93_options _ _ _ _ he, e1', e2] at ho
  cases b <;> cases b' <;> simp at ho ⊢

/-- Non-vacuity: a scoped package at esm.sh with an option in its version, and one elsewhere. -/
example : npmUrl "@mui/material".toList "7?deps=x@1".toList "https://esm.sh/v135".toList false =
    "https://esm.sh/v135/@mui/material@7?deps=x@1&external=react,react-dom,react/jsx-runtime&target=es2020".toList := by decide +kernel
example : npmUrl "victory".toList "latest".toList "https://cdn.skypack.dev".toList true = "https://cdn.skypack.dev/victory@latest".toList := by decide +kernel
example : AtEsm "https://esm.sh/v135".toList := ⟨"https://".toList, "/v135".toList, by decide⟩
example : npmUrl "a".toList "1".toList "https://esm.sh".toList true ≠ npmUrl "a".toList "1".toList "https://esm.sh".toList false := by
  decide +kernel

/-! ### The import map -/

/-- **C93 (refusals).**  `import_reactjs` refuses exactly these: the local files together with a framework or a version, and a framework that is
neither Preact nor React. -/
theorem C93_refused (debug : Bool) (pre : Str) (framework version : Option Str) (useLocal : Bool) :
    (∃ e, importReactjs debug pre framework version useLocal = .error e) ↔
      (useLocal = true ∧ ((framework ≠ none ∧ framework ≠ some []) ∨ (version ≠ none ∧ version ≠ some []))) ∨
      (framework ≠ none ∧ framework ≠ some [] ∧ framework ≠ some "preact".toList ∧ framework ≠ some "react".toList) := by
  have ht : ∀ x : Option Str, truthy x = true ↔ (x ≠ none ∧ x ≠ some []) := by
    intro x; match x with
    | none => simp [truthy]
    | some [] => simp [truthy]
    | some (c :: r) => simp [truthy]
  unfold importReactjs
  generalize hP : "preact".toList = P
  generalize hR : "react".toList = R
  have hnP : P ≠ [] := by rw [← hP]; decide
  by_cases hl : (useLocal && (truthy framework || truthy version)) = true
  · rw [if_pos hl]
    simp only [Bool.and_eq_true, Bool.or_eq_true, ht] at hl
    exact ⟨fun _ => Or.inl hl, fun _ => ⟨_, rfl⟩⟩
  · rw [if_neg hl]
    have hl' : ¬ (useLocal = true ∧ ((framework ≠ none ∧ framework ≠ some []) ∨ (version ≠ none ∧ version ≠ some []))) := by
      intro hx; apply hl; simp only [Bool.and_eq_true, Bool.or_eq_true, ht]; exact hx
    simp only []
    have hF : (orText framework P ≠ P ∧ orText framework P ≠ R) ↔ (framework ≠ none ∧ framework ≠ some [] ∧ framework ≠ some P ∧ framework ≠ some R) := by
      match framework with
      | none => simp [orText]
      | some [] => simp [orText]
      | some (c :: r) => simp [orText]
    by_cases hf : orText framework P ≠ P ∧ orText framework P ≠ R
    · rw [if_pos hf]
      exact ⟨fun _ => Or.inr (hF.mp hf), fun _ => ⟨_, rfl⟩⟩
    · rw [if_neg hf]
      constructor
      · rintro ⟨e, he⟩
        split at he
        · cases he
        · split at he <;> cases he
      · rintro (hx | hx)
        · exact absurd hx hl'
        · exact absurd (hF.mpr hx) hf

/-- The names that every map gives, in words: React itself, its connection to the page in both forms, and what compiled elements import. -/
def reactNames : List Str := ["react".toList, "react-dom".toList, "react-dom/client".toList, "react/jsx-runtime".toList]

/-- **C93 (what the page provides).**  Every map gives each of these names once and no other; they include all names that packages from esm.sh
take from the page. -/
theorem C93_provided (debug : Bool) (pre : Str) (framework version : Option Str) (useLocal : Bool) (m : ImportMap)
    (h : importReactjs debug pre framework version useLocal = .ok m) :
    m.map (·.1) = reactNames ∧ reactNames.Nodup ∧ ∀ n ∈ externals, n ∈ m.map (·.1) := by
  have h1 : m.map (·.1) = reactNames := by
    unfold importReactjs at h
    split at h
    · cases h
    · simp only [] at h
      split at h
      · cases h
      · split at h
        · injection h with h; rw [← h]; rfl
        · split at h <;> (injection h with h; rw [← h]; rfl)
  refine ⟨h1, by decide, ?_⟩
  rw [h1]; decide

/-- The address of a name at esm.sh, in words: the package in the version, then the path inside of the package, then the postfix; without
spaces. -/
def served (root package version path post : Str) : Str := squeeze (root ++ package ++ '@' :: version ++ path ++ post)

/-- **C93 (React).**  With React, every name stands for the same path of the same package, all in the one version. -/
theorem C93_react (debug : Bool) (pre : Str) (version : Option Str) (m : ImportMap)
    (h : importReactjs debug pre (some "react".toList) version false = .ok m) (n u : Str) (hm : (n, u) ∈ m) :
    u = served "https://esm.sh/v135/".toList (packageOf n) (versionOr version "19".toList) (pathIn n) (if debug then "?dev".toList else []) := by
  have hm' : importReactjs debug pre (some "react".toList) version false = .ok _ := h
  unfold importReactjs at hm'
  rw [if_neg (by simp), if_neg (by decide), if_neg (by decide)] at hm'
  simp only [] at hm'
  rw [if_pos (by decide)] at hm'
  injection hm' with hm'
  rw [← hm'] at hm
  generalize (if debug then "?dev".toList else []) = post at hm ⊢
  rw [orText_eq] at hm
  generalize versionOr version "19".toList = v at hm ⊢
  have c1 : packageOf "react".toList = "react".toList ∧ pathIn "react".toList = [] := by decide
  have c2 : packageOf "react-dom".toList = "react-dom".toList ∧ pathIn "react-dom".toList = [] := by decide
  have c3 : packageOf "react-dom/client".toList = "react-dom".toList ∧ pathIn "react-dom/client".toList = "/client".toList := by decide
  have c4 : packageOf "react/jsx-runtime".toList = "react".toList ∧ pathIn "react/jsx-runtime".toList = "/jsx-runtime".toList := by decide
  unfold served
  simp only [List.mem_cons, List.not_mem_nil, or_false, Prod.mk.injEq] at hm
  rcases hm with ⟨h1, h2⟩ | ⟨h1, h2⟩ | ⟨h1, h2⟩ | ⟨h1, h2⟩ <;> subst h1 <;> subst h2
  · rw [c1.1, c1.2, List.append_nil]
  · rw [c2.1, c2.2, List.append_nil]
  · rw [c3.1, c3.2]
  · rw [c4.1, c4.2]

/-- The same for Preact: all names stand for its compatibility layer in the one version. -/
theorem C93_preact (debug : Bool) (pre : Str) (framework version : Option Str) (hf : framework = none ∨ framework = some [] ∨ framework = some "preact".toList) (m : ImportMap)
    (h : importReactjs debug pre framework version false = .ok m) (n u : Str) (hm : (n, u) ∈ m) :
    u = served "https://esm.sh/v135/".toList "preact".toList (versionOr version "10".toList) ("/compat".toList ++ pathIn n) (if debug then "?dev".toList else []) := by
  have hF : orText framework "preact".toList = "preact".toList := by
    rcases hf with h | h | h <;> subst h <;> rfl
  unfold importReactjs at h
  rw [if_neg (by simp)] at h
  simp only [] at h
  rw [hF, if_neg (by decide), if_neg (by decide), if_neg (by decide)] at h
  injection h with h
  rw [← h] at hm
  generalize (if debug then "?dev".toList else []) = post at hm ⊢
  rw [orText_eq] at hm
  generalize versionOr version "10".toList = v at hm ⊢
  have c1 : "/compat".toList ++ pathIn "react".toList = "/compat".toList := by decide
  have c2 : "/compat".toList ++ pathIn "react-dom".toList = "/compat".toList := by decide
  have c3 : "/compat".toList ++ pathIn "react-dom/client".toList = "/compat/client".toList := by decide
  have c4 : "/compat".toList ++ pathIn "react/jsx-runtime".toList = "/compat/jsx-runtime".toList := by decide
  unfold served
  simp only [List.mem_cons, List.not_mem_nil, or_false, Prod.mk.injEq] at hm
  rcases hm with ⟨h1, h2⟩ | ⟨h1, h2⟩ | ⟨h1, h2⟩ | ⟨h1, h2⟩ <;> subst h1 <;> subst h2
  · rw [c1]
  · rw [c2]
  · rw [c3]
  · rw [c4]

/-- **C93 (local files).**  With `use_local`, the names stand for the files that the page of ReactPy itself uses, also in debug mode. -/
theorem C93_local (debug : Bool) (pre : Str) (framework version : Option Str) (m : ImportMap)
    (h : importReactjs debug pre framework version true = .ok m) :
    ∃ react dom jsx, Startup.importMap pre = [react, dom, jsx] ∧ m.map (·.2) = [react, dom, dom, jsx] := by
  unfold importReactjs at h
  split at h
  · cases h
  · simp only [] at h
    split at h
    · cases h
    · injection h with h; rw [← h]
      refine ⟨_, _, _, rfl, ?_⟩
      have e : ∀ f : Str, squeeze ('/' :: stripSlashes pre ++ ("/static/".toList ++ f)) =
          ('/' :: Startup.strip pre ++ "/static/".toList ++ f).filter (fun c => c != '\n' && c != ' ') := by
        intro f; unfold squeeze stripSlashes Startup.strip; rw [List.append_assoc]
      have e1 := e "preact.js".toList
      have e2 := e "preact-dom.js".toList
      have e3 := e "preact-jsx-runtime.js".toList
      simp only [defaultImportMap, List.map_cons, List.map_nil]
      rw [← e1, ← e2, ← e3]
      rfl

/-- Non-vacuity: each kind of map, and a refusal. -/
example : (importReactjs true [] (some "react".toList) (some "18".toList) false).toOption.map (·.map (·.2)) =
    some ["https://esm.sh/v135/react@18?dev".toList, "https://esm.sh/v135/react-dom@18?dev".toList, "https://esm.sh/v135/react-dom@18/client?dev".toList,
      "https://esm.sh/v135/react@18/jsx-runtime?dev".toList] := by decide +kernel
example : (importReactjs false [] none none false).toOption.map (·.map (·.2)) =
    some ["https://esm.sh/v135/preact@10/compat".toList, "https://esm.sh/v135/preact@10/compat".toList, "https://esm.sh/v135/preact@10/compat/client".toList,
      "https://esm.sh/v135/preact@10/compat/jsx-runtime".toList] := by decide +kernel
example : ((importReactjs false "/reactpy/".toList none none true).toOption.map (·.map (·.2))).map (·.head?) = some (some "/reactpy/static/preact.js".toList) := by decide +kernel
example : (importReactjs false [] (some "vue".toList) none false).toOption = none := by decide +kernel

/-- C93 is violated by versions with an option: `component_from_npm` takes them apart correctly (`C93_options`), but `import_reactjs` writes the
path inside of the package after the option, so that all names of one package stand for the same file.  (In debug mode the second question mark
makes the option unreadable as well.) -/
theorem C93_option_violated : ∃ (v : Str) (m : ImportMap) (u u' : Str),
    importReactjs false [] (some "react".toList) (some v) false = .ok m ∧ ("react".toList, u) ∈ m ∧ ("react/jsx-runtime".toList, u') ∈ m ∧ fileOf u = fileOf u' := by
  refine ⟨"18?target=es2020".toList, _, "https://esm.sh/v135/react@18?target=es2020".toList, "https://esm.sh/v135/react@18?target=es2020/jsx-runtime".toList, rfl, ?_, ?_, ?_⟩
  · decide +kernel
  · decide +kernel
  · decide +kernel

end Verif.Reactjs.Npm
