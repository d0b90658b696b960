import Verif.Reactjs.Served
import Verif.Reactjs.CacheProps
import Verif.Location.Props
import Verif.Startup.PageProps
/-! # The module that the browser loads is the one that was made: property C115 -/
namespace Verif.Reactjs.Served
open Verif.Markup (splitOn joinWith)
open Verif.Reactjs.Cache (Str Call keyOf nameSuffix moduleFile Ordinary)
open Verif.Location (hexDigit hexValue)
variable {C : Type}

/-! ## Specification -/

/-- Texts that mean themselves in a URL: no `?`, `#`, `%`, `\`, tabs and line breaks, and no space or control character at the
end. -/
def Plain (s : Str) : Prop :=
  (∀ c ∈ s, c ≠ '?' ∧ c ≠ '#' ∧ c ≠ '%' ∧ c ≠ '\\' ∧ c ≠ '\t' ∧ c ≠ '\n' ∧ c ≠ '\r') ∧ ∀ c, s.getLast? = some c → ' ' < c

/-- Prefixes such as `/` and `/a/b/`: slashes around parts that are not empty, `.` or `..`. -/
def PrefixOf (parts : List Str) (p : Str) : Prop :=
  p = '/' :: (parts.map (· ++ ['/'])).flatten ∧ ∀ x ∈ parts, '/' ∉ x ∧ x ≠ [] ∧ x ≠ ['.'] ∧ x ≠ ['.', '.']

/-- Steps that leave the modules directory as it is. -/
def Keeps (d : Path) : Op C → Prop
  | .setDir d' => d' = d
  | .app _ d' => d' = none ∨ d' = some d
  | _ => True

/-- Steps that make no module, or one with an ordinary name other than `name`. -/
def Elsewhere (name : Str) : Op C → Prop
  | .make n _ => Ordinary n ∧ n ≠ name
  | .component _ a => Ordinary a.name ∧ a.name ≠ name
  | _ => True

/-- Steps that make a module of this name and content.  `component_from_file` and `component_from_string` do if no earlier call had
the same name and options. -/
def Makes (name : Str) (c : C) (earlier : List (Op C)) : Op C → Prop
  | .make n x => n = name ∧ x = c
  | .component f a => a.name = name ∧ a.content = c ∧ ∀ b, .component f b ∈ earlier → keyOf b ≠ keyOf a
  | _ => False

/-- A process without applications, modules and files. -/
def fresh (d : Path) : World C := { dir := d }

/-! ## The browser and the server agree on plain paths -/

theorem hex_pair (c : Char) (h : c.toNat < 0x80) : Char.ofNat (16 * (Fin.ofNat 16 (c.toNat / 16)).val + (Fin.ofNat 16 c.toNat).val) = c := by
  simp only [Fin.ofNat]
  rw [show 16 * (c.toNat / 16 % 16) + c.toNat % 16 = c.toNat by omega]
  exact Char.ofNat_toNat c

theorem decode_cons {c : Char} (hc : c ≠ '%') (s : Str) : decode (c :: s) = c :: decode s := by
  rw [decode]
  intro a b s' h _
  exact hc h

theorem inPathSet_ascii {c : Char} (h : inPathSet c = true) : c.toNat < 0x80 := by
  simp only [inPathSet, Bool.or_eq_true, decide_eq_true_eq, beq_iff_eq, List.mem_cons, List.not_mem_nil, or_false] at h
  rcases h with (h | h) | h
  · omega
  · omega
  · rcases h with rfl | rfl | rfl | rfl | rfl | rfl | rfl | rfl | rfl <;> decide

theorem decode_encodeChar (c : Char) (hc : c ≠ '%') (s : Str) : decode (encodeChar c ++ s) = c :: decode s := by
  unfold encodeChar
  split
  · rename_i h
    rw [List.cons_append, List.cons_append, List.cons_append, List.nil_append, decode, Verif.Location.hexValue_hexDigit,
      Verif.Location.hexValue_hexDigit]
    simp only [hex_pair c (inPathSet_ascii h)]
  · rw [List.singleton_append, decode_cons hc]

theorem decode_encode : ∀ (x s : Str), '%' ∉ x → decode (x.flatMap encodeChar ++ s) = x ++ decode s
  | [], s, _ => by simp
  | c :: x, s, h => by
    simp only [List.mem_cons, not_or] at h
    rw [List.flatMap_cons, List.append_assoc, decode_encodeChar c (fun e => h.1 e.symm), decode_encode x s h.2, List.cons_append]

theorem decode_join : ∀ (l : List Str), (∀ x ∈ l, '%' ∉ x) → decode (joinWith '/' (l.map (·.flatMap encodeChar))) = joinWith '/' l
  | [], _ => by simp [joinWith, decode]
  | [x], h => by
    have := decode_encode x [] (h x (by simp))
    simpa [joinWith, decode] using this
  | x :: y :: l, h => by
    have ih := decode_join (y :: l) (fun z hz => h z (by simp [hz]))
    simp only [List.map_cons] at ih ⊢
    simp only [joinWith] at ih ⊢
    rw [decode_encode x _ (h x (by simp)), decode_cons (by decide), ih]

theorem toLower_sign {c d : Char} (hd : Verif.Markup.isLetter d = false) (h : c.toLower = d) : c = d := by
  cases hu : Verif.Markup.isUpper c with
  | false => rw [← h, Verif.Markup.toLower_of_not_upper hu]
  | true =>
    exfalso
    subst h
    revert hd
    simp only [Verif.Markup.isUpper, Bool.and_eq_true, decide_eq_true_eq] at hu
    have h1 : 65 ≤ c.toNat := hu.1
    have h2 : c.toNat ≤ 90 := hu.2
    have : c = Char.ofNat c.toNat := (Char.ofNat_toNat c).symm
    rw [this]
    generalize c.toNat = n at h1 h2
    have key : ∀ n : Fin 26, Verif.Markup.isLetter (Char.ofNat (n.val + 65)).toLower = true := by decide +kernel
    have := key ⟨n - 65, by omega⟩
    simp only [show n - 65 + 65 = n by omega] at this
    rw [this]; simp

theorem map_sign : ∀ {s t : Str}, s.map Char.toLower = t → (∀ d ∈ t, Verif.Markup.isLetter d = false) → s = t
  | [], t, h, _ => by simpa using h
  | c :: s, [], h, _ => by simp at h
  | c :: s, d :: t, h, hd => by
    simp only [List.map_cons, List.cons.injEq] at h
    rw [toLower_sign (hd d (by simp)) h.1, map_sign h.2 (fun e he => hd e (by simp [he]))]

theorem mem_sign {s t : Str} (h : s.map Char.toLower = t) (hm : '%' ∈ t) : '%' ∈ s := by
  subst h
  obtain ⟨c, hc, e⟩ := List.mem_map.1 hm
  rwa [← toLower_sign (by decide) e]

theorem not_single {s : Str} (h : '%' ∉ s) (h1 : s ≠ ['.']) : singleDot s = false := by
  simp only [singleDot, decide_eq_false_iff_not, List.mem_cons, List.not_mem_nil, or_false, not_or]
  exact ⟨fun e => h1 (map_sign e (by decide)), fun e => h (mem_sign e (by decide))⟩

theorem not_double {s : Str} (h : '%' ∉ s) (h1 : s ≠ ['.', '.']) : doubleDot s = false := by
  simp only [doubleDot, decide_eq_false_iff_not, List.mem_cons, List.not_mem_nil, or_false, not_or]
  exact ⟨fun e => h1 (map_sign e (by decide)), fun e => h (mem_sign e (by decide)), fun e => h (mem_sign e (by decide)),
    fun e => h (mem_sign e (by decide))⟩

theorem segments_plain : ∀ (l acc : List Str), (∀ x ∈ l, '%' ∉ x ∧ x ≠ ['.'] ∧ x ≠ ['.', '.']) →
    segments acc l = acc ++ l.map (·.flatMap encodeChar)
  | [], acc, _ => by simp [segments]
  | [x], acc, h => by
    obtain ⟨h1, h2, h3⟩ := h x (by simp)
    simp [segments, not_single h1 h2, not_double h1 h3]
  | x :: y :: l, acc, h => by
    obtain ⟨h1, h2, h3⟩ := h x (by simp)
    rw [segments, not_double h1 h3, not_single h1 h2]
    simp only [Bool.false_eq_true, if_false]
    rw [segments_plain (y :: l) _ (fun z hz => h z (by simp [hz]))]
    simp

theorem pathText_plain {s : Str} (h : Plain s) : pathText s = s := by
  have h1 : (s.reverse.dropWhile (fun c => c.toNat ≤ 0x20)).reverse = s := by
    cases hr : s.reverse with
    | nil => simpa using hr.symm
    | cons c r =>
      have hl : s.getLast? = some c := by
        rw [List.getLast?_eq_head?_reverse, hr]; rfl
      have hc : ¬ c.toNat ≤ 0x20 := by
        have : (' ' : Char).toNat < c.toNat := h.2 c hl
        have e : (' ' : Char).toNat = 0x20 := rfl
        omega
      rw [List.dropWhile_cons_of_neg (by simpa using hc), ← hr, List.reverse_reverse]
  have h2 : s.filter (fun c => c ≠ '\t' ∧ c ≠ '\n' ∧ c ≠ '\r') = s := by
    rw [List.filter_eq_self]
    intro c hc
    have := h.1 c hc
    simpa using this.2.2.2.2
  have h3 : s.takeWhile (fun c => c != '?' && c != '#') = s :=
    Verif.Startup.urlPath_plain (s := s) (fun c hc => ⟨(h.1 c hc).1, (h.1 c hc).2.1⟩)
  have h4 : s.map (fun c => if c = '\\' then '/' else c) = s := by
    conv => rhs; rw [← List.map_id s]
    apply List.map_congr_left
    intro c hc
    simp [(h.1 c hc).2.2.2.1]
  rw [pathText, h1, h2, h3, h4]

theorem mem_join {c : Char} {x : Str} (hm : c ∈ x) : ∀ l : List Str, x ∈ l → c ∈ joinWith '/' l
  | [], hx => by cases hx
  | [y], hx => by
    have : x = y := by simpa using hx
    subst this
    simpa [joinWith] using hm
  | y :: z :: l, hx => by
    rcases List.mem_cons.1 hx with rfl | hx
    · simp [joinWith, hm]
    · have := mem_join hm (z :: l) hx
      simp [joinWith, this]

/-- A plain path without dots arrives at the server as it is written. -/
theorem arrives {l : List Str} (h : Plain ('/' :: joinWith '/' l)) (hne : l ≠ []) (hl : ∀ x ∈ l, '/' ∉ x ∧ x ≠ ['.'] ∧ x ≠ ['.', '.']) :
    decode (requestPath ('/' :: joinWith '/' l)) = '/' :: joinWith '/' l := by
  have hp : ∀ x ∈ l, '%' ∉ x := by
    intro x hx hm
    have : '%' ∈ '/' :: joinWith '/' l := List.mem_cons_of_mem _ (mem_join hm l hx)
    exact (h.1 _ this).2.2.1 rfl
  rw [requestPath, pathText_plain h, List.tail_cons, Verif.Markup.splitOn_joinWith '/' l hne (fun x hx => (hl x hx).1),
    segments_plain l [] (fun x hx => ⟨hp x hx, (hl x hx).2⟩), List.nil_append, decode_cons (by decide), decode_join l hp]

theorem split_append (y : Str) : ∀ x : Str, splitOn '/' (x ++ '/' :: y) = splitOn '/' x ++ splitOn '/' y
  | [] => by simp [splitOn]
  | c :: x => by
    have ih := split_append y x
    rw [List.cons_append, splitOn, splitOn]
    by_cases hc : c = '/'
    · simp [hc, ih]
    · rw [if_neg hc, if_neg hc, ih]
      cases hs : splitOn '/' x with
      | nil => exact absurd hs (Verif.Markup.splitOn_ne_nil _ _)
      | cons p ps => rfl

theorem split_last (r : Str) : [] ∈ splitOn '/' (r ++ ['/']) := by
  rw [split_append [] r]
  simp [splitOn]

/-! ## Histories -/

/-- The file server of an application serves its modules directory as it is. -/
def AppOk (a : App C) : Prop :=
  ∀ fs, a.fileServer = some fs → fs.root = a.modulesDir ∧ fs.urlPrefix = a.server.modulesPath ∧ fs.autorefresh = true

theorem visit_ok {a : App C} (h : AppOk a) (files : Path → Option C) : AppOk (a.visit files) := by
  unfold App.visit
  split
  · exact h
  · intro fs hfs
    simp only [Option.some.injEq] at hfs
    subst hfs
    exact ⟨rfl, rfl, rfl⟩

theorem visit_same (a : App C) (files : Path → Option C) : (a.visit files).server = a.server ∧ (a.visit files).modulesDir = a.modulesDir := by
  unfold App.visit
  split <;> exact ⟨rfl, rfl⟩

/-- All applications of a process are in order, whatever happens. -/
theorem step_ok (w : World C) (o : Op C) (h : ∀ a ∈ w.apps, AppOk a) : ∀ a ∈ (w.step o).apps, AppOk a := by
  cases o with
  | setDir d => exact h
  | app s d =>
    intro a ha
    simp only [World.step, List.mem_append, List.mem_singleton] at ha
    rcases ha with ha | rfl
    · exact h a ha
    · intro fs hfs; cases hfs
  | make n c => exact h
  | component f a =>
    simp only [World.step]
    split
    · exact h
    · exact h
  | request n path =>
    intro a ha
    obtain ⟨b, hb, e⟩ := Verif.Startup.mem_modify _ _ _ _ ha
    rcases e with rfl | rfl
    · exact h _ hb
    · split
      · exact visit_ok (h b hb) _
      · exact h b hb

theorem run_ok : ∀ (ops : List (Op C)) (w : World C), (∀ a ∈ w.apps, AppOk a) → ∀ a ∈ (w.run ops).apps, AppOk a
  | [], _, h => h
  | o :: ops, w, h => run_ok ops (w.step o) (step_ok w o h)

/-- Applications stay where they are and keep their server and directory. -/
theorem step_app (w : World C) (o : Op C) {n : Nat} {a : App C} (h : w.apps[n]? = some a) :
    ∃ b, (w.step o).apps[n]? = some b ∧ b.server = a.server ∧ b.modulesDir = a.modulesDir := by
  cases o with
  | setDir d => exact ⟨a, h, rfl, rfl⟩
  | app s d =>
    refine ⟨a, ?_, rfl, rfl⟩
    simp only [World.step]
    rw [List.getElem?_append_left (List.getElem?_eq_some_iff.1 h).1, h]
  | make m c => exact ⟨a, h, rfl, rfl⟩
  | component f c =>
    refine ⟨a, ?_, rfl, rfl⟩
    simp only [World.step]
    split
    · exact h
    · exact h
  | request m path =>
    simp only [World.step, List.getElem?_modify, h, Option.map_some, Option.some.injEq]
    by_cases hm : m = n
    · refine ⟨if a.forModules path then a.visit w.files else a, by simp [hm], ?_⟩
      split
      · exact visit_same a _
      · exact ⟨rfl, rfl⟩
    · exact ⟨a, by simp [hm], rfl, rfl⟩

theorem run_app : ∀ (ops : List (Op C)) (w : World C) {n : Nat} {a : App C}, w.apps[n]? = some a →
    ∃ b, (w.run ops).apps[n]? = some b ∧ b.server = a.server ∧ b.modulesDir = a.modulesDir
  | [], _, _, a, h => ⟨a, h, rfl, rfl⟩
  | o :: ops, w, n, a, h => by
    obtain ⟨b, h1, h2, h3⟩ := step_app w o h
    obtain ⟨b', g1, g2, g3⟩ := run_app ops (w.step o) h1
    exact ⟨b', g1, g2.trans h2, g3.trans h3⟩

theorem step_dir {d : Path} {w : World C} {o : Op C} (hd : w.dir = d) (h : Keeps d o) : (w.step o).dir = d := by
  cases o with
  | setDir d' => exact h
  | app s d' =>
    rcases h with rfl | rfl
    · exact hd
    · rfl
  | make m c => exact hd
  | component f c =>
    simp only [World.step]
    split
    · exact hd
    · exact hd
  | request m path => exact hd

theorem run_dir {d : Path} : ∀ (ops : List (Op C)) {w : World C}, w.dir = d → (∀ o ∈ ops, Keeps d o) → (w.run ops).dir = d
  | [], _, hd, _ => hd
  | o :: ops, _, hd, h => run_dir ops (step_dir hd (h o (by simp))) (fun o' ho => h o' (by simp [ho]))

theorem write_file (w : World C) (name : Str) (c : C) : (w.write name c).files (moduleFile w.dir name) = some c := by
  simp [World.write]

theorem write_other {w : World C} {n name : Str} (hn : Ordinary n) (hname : Ordinary name) (hne : n ≠ name) (c : C) :
    (w.write n c).files (moduleFile w.dir name) = w.files (moduleFile w.dir name) := by
  simp only [World.write]
  rw [if_neg]
  intro h
  exact hne (((Verif.Reactjs.Cache.C64_files_partial w.dir hname hn).2 h).symm)

theorem step_file {d : Path} {w : World C} {o : Op C} {name : Str} {c : C} (hd : w.dir = d) (hname : Ordinary name) (h : Keeps d o)
    (he : Elsewhere name o) (hf : w.files (moduleFile d name) = some c) : (w.step o).files (moduleFile d name) = some c := by
  subst hd
  cases o with
  | setDir d' => exact hf
  | app s d' => exact hf
  | make m c' => exact (write_other he.1 hname he.2 c').trans hf
  | component f a =>
    simp only [World.step]
    split
    · exact hf
    · exact (write_other he.1 hname he.2 a.content).trans hf
  | request m path => exact hf

theorem run_file {d : Path} {name : Str} {c : C} (hname : Ordinary name) : ∀ (ops : List (Op C)) {w : World C}, w.dir = d →
    (∀ o ∈ ops, Keeps d o ∧ Elsewhere name o) → w.files (moduleFile d name) = some c → (w.run ops).files (moduleFile d name) = some c
  | [], _, _, _, hf => hf
  | o :: ops, _, hd, h, hf =>
    run_file hname ops (step_dir hd (h o (by simp)).1) (fun o' ho => h o' (by simp [ho]))
      (step_file hd hname (h o (by simp)).1 (h o (by simp)).2 hf)

/-! ## Loading -/

theorem join_parts : ∀ (parts l : List Str), l ≠ [] → (parts.map (· ++ ['/'])).flatten ++ joinWith '/' l = joinWith '/' (parts ++ l)
  | [], _, _ => by simp
  | p :: parts, l, h => by
    have ih := join_parts parts l h
    rw [List.cons_append, Verif.Markup.joinWith_cons '/' p (by simp [h]), ← ih]
    simp

theorem load_plain {w : World C} {n : Nat} {a : App C} {c : C} {name : Str} {parts : List Str} (ha : w.apps[n]? = some a) (hok : AppOk a)
    (hp : PrefixOf parts a.server.pathPrefix) (hplain : Plain (a.server.pathPrefix ++ "modules/".toList ++ sourceOf name))
    (hname : Ordinary name) (hf : w.files (moduleFile a.modulesDir name) = some c) : w.load n (sourceOf name) = .file c := by
  have hfile := Verif.Reactjs.Cache.moduleFile_ordinary a.modulesDir hname
  have hparts := Verif.Reactjs.Cache.parts_ordinary hname
  change ∀ p ∈ splitOn '/' (sourceOf name), p ≠ [] ∧ p ≠ ['.'] ∧ p ≠ ['.', '.'] at hparts
  change moduleFile a.modulesDir name = a.modulesDir ++ splitOn '/' (sourceOf name) at hfile
  generalize hl : parts ++ "modules".toList :: splitOn '/' (sourceOf name) = l
  have hurl : a.server.pathPrefix ++ "modules/".toList ++ sourceOf name = '/' :: joinWith '/' l := by
    rw [hp.1, ← hl, ← join_parts parts _ (by simp), Verif.Markup.joinWith_cons '/' _ (Verif.Markup.splitOn_ne_nil _ _),
      Verif.Markup.joinWith_splitOn]
    simp
  have hmem : ∀ x ∈ l, '/' ∉ x ∧ x ≠ [] ∧ x ≠ ['.'] ∧ x ≠ ['.', '.'] := by
    intro x hx
    rw [← hl] at hx
    rcases List.mem_append.1 hx with hx | hx
    · exact hp.2 x hx
    · rcases List.mem_cons.1 hx with rfl | hx
      · decide
      · exact ⟨Verif.Markup.splitOn_no_sep _ _ x hx, hparts x hx⟩
  have hlne : l ≠ [] := by rw [← hl]; simp
  have harr := arrives (l := l) (by rw [← hurl]; exact hplain) hlne (fun x hx => ⟨(hmem x hx).1, (hmem x hx).2.2⟩)
  have hroute : a.forModules (a.server.pathPrefix ++ "modules/".toList ++ sourceOf name) = true := by
    rw [App.forModules, Verif.Startup.route_modules _ rfl]
  have hcan : canonical ('/' :: joinWith '/' l) = true := by
    have hb : ('/' :: joinWith '/' l).contains '\\' = false := by
      rw [← hurl]
      simp only [List.contains_eq_mem, decide_eq_false_iff_not]
      intro hm
      exact (hplain.1 _ hm).2.2.2.1 rfl
    have hlast : (joinWith '/' l).getLast? ≠ some '/' := by
      intro h
      have hsp := Verif.Markup.splitOn_joinWith '/' l hlne (fun x hx => (hmem x hx).1)
      obtain ⟨r, hr⟩ := List.getLast?_eq_some_iff.1 h
      rw [hr] at hsp
      have := split_last r
      rw [hsp] at this
      exact (hmem [] this).2.1 rfl
    rw [canonical, hb]
    simp only [Bool.not_false, Bool.true_and, if_neg hlast, Verif.Markup.splitOn_joinWith '/' l hlne (fun x hx => (hmem x hx).1),
      List.all_eq_true]
    intro x hx
    have := hmem x hx
    simp [this.2.1, this.2.2.1, this.2.2.2]
  obtain ⟨fs, hfs⟩ : ∃ fs, (a.visit w.files).fileServer = some fs := by
    unfold App.visit
    split
    · exact ⟨_, by assumption⟩
    · exact ⟨_, rfl⟩
  obtain ⟨h1, h2, h3⟩ := visit_ok hok w.files fs hfs
  rw [(visit_same a w.files).2] at h1
  rw [(visit_same a w.files).1] at h2
  simp only [World.load, ha, World.reply]
  rw [hurl] at hroute ⊢
  rw [harr, if_pos hroute]
  simp only [hfs]
  have hfind : fs.find w.files ('/' :: joinWith '/' l) = some c := by
    rw [FileServer.find, hcan, h1, h2, h3, ← hurl]
    have e : a.server.pathPrefix ++ "modules/".toList = a.server.modulesPath := rfl
    rw [e, Verif.Startup.prefix_append, List.drop_left, ← hfile]
    simpa using hf
  rw [hfind]

theorem plain_append {x y : Str} (hx : Plain x) (hy : Plain y) : Plain (x ++ y) := by
  constructor
  · intro c hc
    rcases List.mem_append.1 hc with hc | hc
    · exact hx.1 c hc
    · exact hy.1 c hc
  · intro c hc
    cases hl : y.getLast? with
    | none =>
      rw [List.getLast?_eq_none_iff] at hl
      subst hl
      rw [List.append_nil] at hc
      exact hx.2 c hc
    | some d =>
      rw [List.getLast?_append, hl] at hc
      exact hy.2 c (by rw [hl]; simpa using hc)

/-- The keys in the cache are those of earlier calls. -/
theorem run_cache {f : Bool} {k : Str} : ∀ (ops : List (Op C)) (w : World C), (f, k) ∈ (w.run ops).cache →
    (f, k) ∈ w.cache ∨ ∃ b, .component f b ∈ ops ∧ keyOf b = k
  | [], _, h => .inl h
  | o :: ops, w, h => by
    rcases run_cache ops (w.step o) h with h | ⟨b, hb, e⟩
    · cases o with
      | setDir d => exact .inl h
      | app s d => exact .inl h
      | make n c => exact .inl h
      | request n p => exact .inl h
      | component g a =>
        simp only [World.step] at h
        split at h
        · exact .inl h
        · rcases List.mem_cons.1 h with h | h
          · simp only [Prod.mk.injEq] at h
            obtain ⟨rfl, rfl⟩ := h
            exact .inr ⟨a, by simp, rfl⟩
          · exact .inl h
    · exact .inr ⟨b, by simp [hb], e⟩

theorem run_append (w : World C) (a b : List (Op C)) : w.run (a ++ b) = (w.run a).run b := List.foldl_append

theorem makes_file {w : World C} {d0 : Path} {ops : List (Op C)} (hw : w = (fresh d0).run ops) {name : Str} {c : C} {o : Op C}
    (h : Makes name c ops o) : (w.step o).files (moduleFile w.dir name) = some c := by
  cases o with
  | setDir d => exact h.elim
  | app s d => exact h.elim
  | request n p => exact h.elim
  | make n x =>
    obtain ⟨rfl, rfl⟩ := h
    exact write_file w _ _
  | component f a =>
    obtain ⟨rfl, rfl, hk⟩ := h
    have hnew : (f, keyOf a) ∉ w.cache := by
      intro hm
      rw [hw] at hm
      rcases run_cache ops (fresh d0) hm with hm | ⟨b, hb, e⟩
      · cases hm
      · exact hk b hb e
    simp only [World.step, if_neg hnew]
    exact write_file w _ _

theorem makes_keeps {d : Path} {name : Str} {c : C} {ops : List (Op C)} {o : Op C} (h : Makes name c ops o) : Keeps d o := by
  cases o with
  | setDir d => exact h.elim
  | app s d => exact h.elim
  | _ => trivial

/-- **C115** (partial: the modules directory is not changed after the application is made; the prefix and the source of the module
are plain and have no empty, `.` and `..` parts; no module of the same name and options came before).  Whatever else happens before
and after, and whichever requests there were, the page of the application that loads the source of the module gets its content. -/
theorem C115_served_partial (d0 : Path) (before between after : List (Op C)) (s : Verif.Asgi.Server Unit Unit) (d : Option Path)
    (o : Op C) (name : Str) (c : C) (parts : List Str)
    (hprefix : PrefixOf parts s.pathPrefix) (hplain : Plain s.pathPrefix) (hname : Ordinary name) (hsource : Plain (sourceOf name))
    (hbetween : ∀ o' ∈ between, Keeps (d.getD ((fresh d0).run before).dir) o')
    (hmake : Makes name c (before ++ .app s d :: between) o)
    (hafter : ∀ o' ∈ after, Keeps (d.getD ((fresh d0).run before).dir) o' ∧ Elsewhere name o') :
    ((fresh d0).run (before ++ .app s d :: between ++ o :: after)).load ((fresh d0).run before).apps.length (sourceOf name) = .file c := by
  generalize hD : d.getD ((fresh d0).run before).dir = D at hbetween hafter
  have happ : (((fresh d0).run before).step (.app s d)).apps[((fresh d0).run before).apps.length]? = some { server := s, modulesDir := D } := by
    simp [World.step, hD]
  obtain ⟨a1, ha1, hs1, hm1⟩ := run_app between _ happ
  have e1 : (fresh d0).run (before ++ .app s d :: between) = (((fresh d0).run before).step (.app s d)).run between := by
    rw [run_append]; rfl
  have hdir : ((fresh d0).run (before ++ .app s d :: between)).dir = D := by
    rw [e1]
    exact run_dir between (by simp [World.step, hD]) hbetween
  have hfile := makes_file (w := (fresh d0).run (before ++ .app s d :: between)) rfl hmake
  rw [hdir] at hfile
  have hdir2 := step_dir hdir (makes_keeps (d := D) hmake)
  rw [← e1] at ha1
  obtain ⟨a2, ha2, hs2, hm2⟩ := run_app (o :: after) _ ha1
  rw [run_append]
  have hall : ∀ a ∈ ((fresh (C := C) d0).run (before ++ .app s d :: between) |>.run (o :: after)).apps, AppOk a :=
    run_ok _ _ (run_ok _ _ (by simp [fresh]))
  have hm : a2.modulesDir = D := hm2.trans hm1
  have hs : a2.server = s := hs2.trans hs1
  refine load_plain (parts := parts) ha2 (hall a2 (List.mem_of_getElem? ha2)) (by rw [hs]; exact hprefix) ?_ hname ?_
  · rw [hs]
    exact plain_append (plain_append hplain (by unfold Plain; decide +kernel)) hsource
  · rw [hm]
    exact run_file hname after hdir2 hafter hfile

/-- The server of the examples. -/
def demoServer : Verif.Asgi.Server Unit Unit :=
  { kind := .standalone (), pathPrefix := "/reactpy/".toList, rootPaths := [], importPath := fun _ => () }

/-- A scoped package with a space, made after a request for another module; then another module is made. -/
example : ((fresh [['t']]).run ([.make ['a'] 1] ++ .app demoServer (some [['w']]) :: [.make ['b'] 2, .request 0 "/reactpy/modules/b.js".toList] ++
    .component false { name := "@x/my chart@1.2/core".toList, content := 7, imports := [] } :: [.make ['c'] 3])).load 0
      (sourceOf "@x/my chart@1.2/core".toList) = .file 7 := by
  refine C115_served_partial (C := Nat) [['t']] [.make ['a'] 1] _ _ demoServer (some [['w']]) _ _ 7 ["reactpy".toList] ?_ ?_ ?_ ?_ ?_ ?_ ?_
  · exact ⟨by decide +kernel, by decide +kernel⟩
  · unfold Plain; decide +kernel
  · unfold Ordinary; decide +kernel
  · unfold Plain; decide +kernel
  · intro o ho
    rcases List.mem_cons.1 ho with rfl | ho
    · trivial
    · rw [List.mem_singleton.1 ho]; trivial
  · refine ⟨rfl, rfl, fun b hb => ?_⟩
    simp at hb
  · intro o ho
    rw [List.mem_singleton.1 ho]
    exact ⟨trivial, by unfold Ordinary; decide +kernel, by decide +kernel⟩

/-! ## Nothing outside the modules directory -/

theorem canonical_parts {x rest : Str} (hx : x.head? = some '/') (h : canonical (x ++ "modules/".toList ++ rest) = true) :
    ∀ p ∈ splitOn '/' rest, p ≠ ['.'] ∧ p ≠ ['.', '.'] := by
  cases x with
  | nil => cases hx
  | cons ch y =>
    simp only [List.head?_cons, Option.some.injEq] at hx
    subst hx
    simp only [canonical, List.cons_append, Bool.and_eq_true, List.all_eq_true] at h
    have h := h.2
    have good : ∀ {t : Str}, (∀ p ∈ splitOn '/' (y ++ "modules".toList ++ '/' :: t), ((p != []) = true ∧ (p != ['.']) = true) ∧ (p != ['.', '.']) = true) →
        ∀ p ∈ splitOn '/' t, p ≠ ['.'] ∧ p ≠ ['.', '.'] := by
      intro t ht p hp
      rw [split_append] at ht
      have := ht p (List.mem_append.2 (.inr hp))
      simp only [bne_iff_ne, ne_eq] at this
      exact ⟨this.1.2, this.2⟩
    have em : ∀ t : Str, y ++ "modules/".toList ++ t = y ++ "modules".toList ++ '/' :: t := by
      intro t
      have : "modules/".toList = "modules".toList ++ ['/'] := by decide
      rw [this]; simp
    intro p hp
    split at h
    · rename_i hl
      rcases List.eq_nil_or_concat rest with rfl | ⟨r, z, rfl⟩
      · have : p = [] := by simpa [splitOn] using hp
        subst this
        exact ⟨by decide, by decide⟩
      · rw [List.concat_eq_append] at hl h hp
        rw [← List.append_assoc, List.getLast?_concat, Option.some.injEq] at hl
        subst hl
        rw [← List.append_assoc, List.dropLast_concat, em] at h
        rw [split_append [] r] at hp
        rcases List.mem_append.1 hp with hp | hp
        · exact good h p hp
        · have : p = [] := by simpa [splitOn] using hp
          subst this
          exact ⟨by decide, by decide⟩
    · rw [em] at h
      exact good h p hp

/-- **C115.**  Whatever path is asked for, by whomever and after whichever history, a reply of the modules path is a file inside the
modules directory of that application, which has its present content: the components below the directory are neither `.` nor `..`
and have no slash or backslash. -/
theorem C115_inside (d0 : Path) (ops : List (Op C)) (n : Nat) (path : Str) (c : C) (h : ((fresh d0).run ops).reply n path = .file c) :
    ∃ a, ((fresh d0).run ops).apps[n]? = some a ∧ ∃ below : Path, below ≠ [] ∧
      (∀ p ∈ below, '/' ∉ p ∧ '\\' ∉ p ∧ p ≠ ['.'] ∧ p ≠ ['.', '.']) ∧ ((fresh d0).run ops).files (a.modulesDir ++ below) = some c := by
  have hall : ∀ a ∈ ((fresh (C := C) d0).run ops).apps, AppOk a := run_ok _ _ (by simp [fresh])
  generalize (fresh d0).run ops = w at h hall
  simp only [World.reply] at h
  split at h
  · cases h
  · rename_i a ha
    split at h
    · split at h
      · cases h
      · rename_i fs hfs
        obtain ⟨h1, h2, h3⟩ := visit_ok (hall a (List.mem_of_getElem? ha)) w.files fs hfs
        rw [(visit_same a w.files).2] at h1
        rw [(visit_same a w.files).1] at h2
        split at h
        · rename_i x hx
          cases h
          rw [FileServer.find, h1, h2, h3] at hx
          split at hx
          · rename_i hc
            simp only [Bool.and_eq_true] at hc
            obtain ⟨rest, hrest⟩ := List.isPrefixOf_iff_prefix.1 hc.2
            have hc1 := hc.1
            rw [← hrest, List.drop_left] at hx
            rw [← hrest] at hc1
            refine ⟨a, ha, splitOn '/' rest, Verif.Markup.splitOn_ne_nil _ _, ?_, by simpa using hx⟩
            intro p hp
            refine ⟨Verif.Markup.splitOn_no_sep _ _ p hp, fun hm => ?_, ?_⟩
            · have := mem_join hm _ hp
              rw [Verif.Markup.joinWith_splitOn] at this
              simp [canonical, this] at hc1
            refine canonical_parts (x := a.server.pathPrefix) ?_ hc1 p hp
            have hc2 := hc1
            cases hpp : a.server.pathPrefix with
            | nil =>
              rw [Verif.Asgi.Server.modulesPath, hpp] at hc2
              simp [canonical] at hc2
            | cons ch r =>
              rw [Verif.Asgi.Server.modulesPath, hpp] at hc2
              by_cases hch : ch = '/'
              · rw [hch]; rfl
              · simp [canonical, hch] at hc2
          · cases hx
        · cases h
    · cases h

/-- The module of the example is such a reply; a file beside the modules directory is not. -/
example : ((fresh [['t']]).run [.app demoServer (some [['w']]), .make ['a'] 7]).reply 0 "/reactpy/modules/a.js".toList = .file 7 ∧
    ((fresh [['t']]).run [.make ['a'] 7, .app demoServer (some [['t'], ['w']])]).reply 0 "/reactpy/modules/../a.js".toList = .notFound := by
  decide +kernel

/-- **C115 is violated** when the modules directory is changed, as the setting `web_modules_dir` of an application does: a
component made before, such as one at the top of a file of Python, is not found by the page of the application.  Making it again
does not help, as it is taken from the cache. -/
theorem C115_directory_violated : ∃ a : Call Nat Unit,
    ((fresh [['t']]).run [.component false a, .app demoServer (some [['w']])]).load 0 (sourceOf a.name) = .notFound ∧
    ((fresh [['t']]).run [.component false a, .app demoServer (some [['w']]), .component false a]).load 0 (sourceOf a.name) = .notFound :=
  ⟨{ name := "chart".toList, content := 7, imports := [] }, by decide +kernel, by decide +kernel⟩

/-- **C115 is violated** by names with `#`, `?`, `%`, `\` or a space at the end of the extension, which are accepted: the browser
asks for another file. -/
theorem C115_names_violated :
    (∀ name ∈ ["c#".toList, "a?b".toList, "50%25".toList, "a\\b".toList, "a.b ".toList], Ordinary name ∧
      ((fresh [['t']]).run [.app demoServer none, .make name 7]).load 0 (sourceOf name) = .notFound) ∧
    ((fresh [['t']]).run [.app demoServer none, .make "A".toList 1, .make "%41".toList 2]).load 0 (sourceOf "%41".toList) = .file 1 := by
  constructor
  · intro name hname
    constructor
    · unfold Ordinary
      revert name
      decide +kernel
    · revert name
      decide +kernel
  · decide +kernel

/-- **C115 is violated** by prefixes that are accepted but are not as the browser writes them: with `/a//` and `/./` no module is
found. -/
theorem C115_prefix_violated : ∀ p ∈ ["/a//".toList, "/./".toList], Verif.Asgi.pathOk p = true ∧
    ((fresh [['t']]).run [.app { demoServer with pathPrefix := p } none, .make ['a'] 7]).load 0 (sourceOf ['a']) ≠ .file 7 := by
  decide +kernel

end Verif.Reactjs.Served
