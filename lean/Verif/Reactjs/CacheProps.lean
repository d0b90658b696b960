import Verif.Reactjs.Cache
import Std.Data.String.ToNat
/-! # Importing components: properties C60 and C64 -/
namespace Verif.Reactjs.Cache
open Verif.Markup (splitOn joinWith)

theorem digits_only (n : Nat) : ∀ c ∈ (Nat.repr n).toList, c.isDigit = true := by
  rw [Nat.toList_repr]
  exact fun c hc => Nat.isDigit_of_mem_toDigits (by decide) (by decide) hc

theorem append_pyBool {x y : Str} {b b' : Bool} (h : x ++ pyBool b = y ++ pyBool b') : x = y ∧ b = b' := by
  have hr := congrArg List.reverse h
  simp only [List.reverse_append] at hr
  cases b <;> cases b' <;> simp [pyBool] at hr
  · exact ⟨hr, rfl⟩
  · exact ⟨hr, rfl⟩

theorem pyBool_last (b : Bool) : ∃ l, pyBool b = l ++ ['e'] := by
  cases b
  · exact ⟨['F', 'a', 'l', 's'], rfl⟩
  · exact ⟨['T', 'r', 'u'], rfl⟩

theorem digits_split {x y d d' : Str} (hd : ∀ c ∈ d, c.isDigit = true) (hd' : ∀ c ∈ d', c.isDigit = true)
    (h : x ++ 'e' :: d = y ++ 'e' :: d') : x = y ∧ d = d' := by
  have hr := congrArg List.reverse h
  simp only [List.reverse_append, List.reverse_cons, List.append_assoc] at hr
  have key : ∀ (a b u v : Str), (∀ c ∈ a, c.isDigit = true) → (∀ c ∈ b, c.isDigit = true) → a ++ 'e' :: u = b ++ 'e' :: v → a = b ∧ u = v := by
    intro a
    induction a with
    | nil =>
      intro b u v _ hb he
      cases b with
      | nil => simp at he; exact ⟨rfl, he⟩
      | cons c b =>
        simp only [List.nil_append, List.cons_append, List.cons.injEq] at he
        have := hb c (by simp)
        rw [← he.1] at this; exact absurd this (by decide)
    | cons c a ih =>
      intro b u v ha hb he
      cases b with
      | nil =>
        simp only [List.nil_append, List.cons_append, List.cons.injEq] at he
        have := ha c (by simp)
        rw [he.1] at this; exact absurd this (by decide)
      | cons c' b =>
        simp only [List.cons_append, List.cons.injEq] at he
        obtain ⟨h1, h2⟩ := ih b u v (fun c hc => ha c (by simp [hc])) (fun c hc => hb c (by simp [hc])) he.2
        exact ⟨by rw [he.1, h1], h2⟩
  obtain ⟨h1, h2⟩ := key d.reverse d'.reverse x.reverse y.reverse (fun c hc => hd c (List.mem_reverse.1 hc))
    (fun c hc => hd' c (List.mem_reverse.1 hc)) (by simpa using hr)
  exact ⟨List.reverse_inj.1 h2, List.reverse_inj.1 h1⟩

/-- **C60.**  Calls share an entry of the cache exactly if they agree in name, both flags and depth: the way the key is put
together is unambiguous. -/
theorem C60_key {C V : Type} (a b : Call C V) :
    keyOf a = keyOf b ↔ a.name = b.name ∧ a.resolve = b.resolve ∧ a.depth = b.depth ∧ a.unmount = b.unmount := by
  constructor
  · intro h
    simp only [keyOf] at h
    obtain ⟨h1, hu⟩ := append_pyBool h
    obtain ⟨l, hl⟩ := pyBool_last a.resolve
    obtain ⟨l', hl'⟩ := pyBool_last b.resolve
    have h2 : (a.name ++ l) ++ 'e' :: (Nat.repr a.depth).toList = (b.name ++ l') ++ 'e' :: (Nat.repr b.depth).toList := by
      rw [hl, hl'] at h1; simpa using h1
    obtain ⟨h3, hdig⟩ := digits_split (digits_only _) (digits_only _) h2
    have h4 : a.name ++ pyBool a.resolve = b.name ++ pyBool b.resolve := by
      rw [hl, hl', ← List.append_assoc, ← List.append_assoc, h3]
    obtain ⟨hn, hres⟩ := append_pyBool h4
    exact ⟨hn, hres, Nat.repr_injective (String.toList_inj.1 hdig), hu⟩
  · rintro ⟨h1, h2, h3, h4⟩
    simp only [keyOf, h1, h2, h3, h4]

section
variable {C V : Type} {namesOf : C → Nat → List Str}

/-- Specification: calls of the same name are about the same contents, and those that also have the same flags give the same
fallback. -/
def Consistent (l : List (Call C V)) : Prop :=
  ∀ a ∈ l, ∀ b ∈ l, (a.name = b.name → a.content = b.content) ∧
    (a.name = b.name → a.resolve = b.resolve → a.depth = b.depth → a.unmount = b.unmount → a.fallback = b.fallback)

/-- What the cache and the files hold after consistent calls. -/
def Inv (namesOf : C → Nat → List Str) (l : List (Call C V)) (s : St C V) : Prop :=
  (∀ k m, s.cache k = some m → ∃ a ∈ l, k = keyOf a ∧ m = build namesOf a ∧ s.files a.name = some a.content) ∧
  ∀ n c, s.files n = some c → ∃ a ∈ l, n = a.name ∧ c = a.content

theorem inv_call {l : List (Call C V)} {s : St C V} (hi : Inv namesOf l s) (a : Call C V) (hc : Consistent (l ++ [a])) :
    Inv namesOf (l ++ [a]) (call namesOf s a).1 ∧ (call namesOf s a).1.files a.name = some a.content ∧
    (call namesOf s a).2 = moduleToVdom (build namesOf a) a.imports a.fallback a.allowChildren := by
  simp only [call]
  split
  · rename_i m hm
    obtain ⟨b, hb, hk, hbm, hfb⟩ := hi.1 _ _ hm
    have hab := hc a (by simp) b (by simp [hb])
    have hkey := (C60_key a b).1 hk
    have hcont := hab.1 hkey.1
    have hfb' := hab.2 hkey.1 hkey.2.1 hkey.2.2.1 hkey.2.2.2
    refine ⟨⟨?_, ?_⟩, ?_, ?_⟩
    · intro k m h
      obtain ⟨a', ha', h⟩ := hi.1 k m h
      exact ⟨a', by simp [ha'], h⟩
    · intro n c h
      obtain ⟨a', ha', h⟩ := hi.2 n c h
      exact ⟨a', by simp [ha'], h⟩
    · rw [hkey.1, hcont]; exact hfb
    · simp only
      rw [hbm]
      congr 1
      simp only [build, hkey.1, hkey.2.1, hkey.2.2.1, hkey.2.2.2, hcont, hfb']
  · refine ⟨⟨?_, ?_⟩, ?_, rfl⟩
    · intro k m h
      simp only at h
      by_cases hk : k = keyOf a
      · rw [if_pos hk] at h; cases h
        exact ⟨a, by simp, hk, rfl, by simp⟩
      · rw [if_neg hk] at h
        obtain ⟨b, hb, h1, h2, h3⟩ := hi.1 k m h
        refine ⟨b, by simp [hb], h1, h2, ?_⟩
        simp only
        by_cases hn : b.name = a.name
        · rw [if_pos hn, (hc b (by simp [hb]) a (by simp)).1 hn]
        · rw [if_neg hn]; exact h3
    · intro n c h
      simp only at h
      by_cases hn : n = a.name
      · rw [if_pos hn] at h; cases h; exact ⟨a, by simp, hn, rfl⟩
      · rw [if_neg hn] at h
        obtain ⟨b, hb, h⟩ := hi.2 n c h
        exact ⟨b, by simp [hb], h⟩
    · simp

theorem inv_calls : ∀ (l' l : List (Call C V)) (s : St C V), Inv namesOf l s → Consistent (l ++ l') → Inv namesOf (l ++ l') (calls namesOf s l')
  | [], l, s, h, _ => by rw [List.append_nil]; exact h
  | a :: l', l, s, h, hc => by
    have e : l ++ a :: l' = (l ++ [a]) ++ l' := by simp
    rw [e] at hc ⊢
    refine inv_calls l' (l ++ [a]) _ (inv_call h a ?_).1 hc
    intro x hx y hy
    exact hc x (by simp only [List.mem_append] at hx ⊢; exact .inl hx) y (by simp only [List.mem_append] at hy ⊢; exact .inl hy)

theorem files_kept {n : Str} {c : C} : ∀ (l' l : List (Call C V)) (s : St C V), Inv namesOf l s → Consistent (l ++ l') →
    s.files n = some c → (calls namesOf s l').files n = some c
  | [], _, _, _, _, h => h
  | a :: l', l, s, hi, hc, h => by
    have e : l ++ a :: l' = (l ++ [a]) ++ l' := by simp
    rw [e] at hc
    have hc1 : Consistent (l ++ [a]) := by
      intro x hx y hy
      exact hc x (by simp only [List.mem_append] at hx ⊢; exact .inl hx) y (by simp only [List.mem_append] at hy ⊢; exact .inl hy)
    refine files_kept l' (l ++ [a]) _ (inv_call hi a hc1).1 hc ?_
    simp only [call]
    split
    · exact h
    · simp only
      by_cases hn : n = a.name
      · obtain ⟨b, hb, h1, h2⟩ := hi.2 n c h
        rw [if_pos hn, h2, (hc1 a (by simp) b (by simp [hb])).1 (by rw [← hn, h1])]
      · rw [if_neg hn]; exact h

/-- **C60** (partial: consistent calls).  Whatever was imported before: a call gives one constructor for each name asked for,
in order, with the module, flags and fallback of this call; or an error, exactly if names are resolved and one of those
asked for is not exported by the contents given.  And the file served for the module has the contents given, now and after
any further calls. -/
theorem C60_calls_partial (before after : List (Call C V)) (a : Call C V) (hc : Consistent (before ++ a :: after)) :
    let s := calls namesOf {} before
    ((call namesOf s a).2 = none ↔ a.resolve = true ∧ ∃ i ∈ a.imports, i.takeWhile (· ≠ '.') ∉ namesOf a.content a.depth) ∧
    (∀ out, (call namesOf s a).2 = some out → out = a.imports.map fun i => ⟨i, a.allowChildren, a.name, a.fallback, a.unmount⟩) ∧
    (calls namesOf (call namesOf s a).1 after).files a.name = some a.content := by
  intro s
  have e : before ++ a :: after = (before ++ [a]) ++ after := by simp
  rw [e] at hc
  have hc1 : Consistent (before ++ [a]) := by
    intro x hx y hy
    exact hc x (by simp only [List.mem_append] at hx ⊢; exact .inl hx) y (by simp only [List.mem_append] at hy ⊢; exact .inl hy)
  have hc0 : Consistent ([] ++ before) := by
    intro x hx y hy
    exact hc1 x (by simp only [List.nil_append] at hx; simp [hx]) y (by simp only [List.nil_append] at hy; simp [hy])
  have h0 : Inv namesOf ([] : List (Call C V)) {} := by
    constructor
    · intro _ _ h; cases h
    · intro _ _ h; cases h
  have h1 : Inv namesOf before s := by
    have := inv_calls before [] {} h0 hc0
    simpa using this
  obtain ⟨h2, h3, h4⟩ := inv_call h1 a hc1
  have hor : a.fallback.or a.fallback = a.fallback := by cases a.fallback <;> rfl
  refine ⟨?_, ?_, files_kept after (before ++ [a]) _ h2 hc h3⟩
  · rw [h4]
    simp only [moduleToVdom, build]
    cases a.resolve with
    | false => simp
    | true =>
      have hroot : ∀ i : Str, rootName i = i.takeWhile (· ≠ '.') := by
        intro i
        simp only [rootName]
        congr 1
        funext c
        by_cases hc : c = '.' <;> simp [hc]
      simp [hroot]
  · intro out ho
    rw [h4] at ho
    simp only [moduleToVdom, build] at ho
    cases hr : a.resolve with
    | false =>
      rw [hr] at ho
      simp only [Bool.false_eq_true, if_false, Option.some.injEq] at ho
      rw [← ho]
      refine List.map_congr_left fun i _ => ?_
      simp only [moduleToVdom.make, hor]
    | true =>
      rw [hr] at ho
      simp only [if_true] at ho
      split at ho
      · simp only [Option.some.injEq] at ho
        rw [← ho]
        refine List.map_congr_left fun i _ => ?_
        simp only [moduleToVdom.make, hor]
      · cases ho

/-- **C60** (partial: different contents have different hashes).  Calls without a name are consistent as to contents. -/
theorem C60_unnamed_partial (hash : C → Str) (l : List (Call C V)) (hn : ∀ a ∈ l, a.name = hash a.content)
    (hinj : ∀ a ∈ l, ∀ b ∈ l, hash a.content = hash b.content → a.content = b.content) (hf : ∀ a ∈ l, ∀ b ∈ l, a.fallback = b.fallback) :
    Consistent l := fun a ha b hb =>
  ⟨fun h => hinj a ha b hb (by rw [← hn a ha, ← hn b hb, h]), fun _ _ _ _ => hf a ha b hb⟩

end

/-- A call. -/
def demo (content : Nat) (fallback : Option Nat) : Call Nat Nat := { name := ['m'], content := content, fallback := fallback, imports := [['A']] }

example : Consistent [demo 1 none, demo 1 none] := by
  intro a ha b hb
  simp only [List.mem_cons, List.not_mem_nil, or_false, or_self] at ha hb
  rw [ha, hb]
  exact ⟨fun _ => rfl, fun _ _ _ _ => rfl⟩

example : (call (fun _ _ => []) {} (demo 1 (some 7))).2 = some [⟨['A'], true, ['m'], some 7, false⟩] := by decide +kernel

/-- **C60, violated.**  The contents are not looked at when the name was used before: a module made anew from other contents
is the old one. -/
theorem C60_content_violated : (calls (fun _ _ => []) {} [demo 1 none, demo 2 none]).files ['m'] = some 1 := by decide +kernel

/-- **C60, violated.**  The fallback of the first import is shown by later ones that give none. -/
theorem C60_fallback_violated :
    ((call (fun _ _ => []) (calls (fun _ _ => []) {} [demo 1 (some 7)]) (demo 1 none)).2.map fun l => l.map (·.fallback)) = some [some 7] := by
  decide +kernel

/-! ## Names of module files -/

/-- Specification: a name whose parts are ordinary. -/
def Ordinary (name : Str) : Prop := ∀ c ∈ splitOn '/' name, c ≠ [] ∧ c ≠ ['.'] ∧ c ≠ ['.', '.']

theorem suffix_shape (name : Str) : ∃ e, nameSuffix name = '.' :: e ∧ e ≠ [] ∧ '.' ∉ e ∧ (∀ c ∈ e, c ≠ '/') := by
  have key : ∀ s : Str, pathSuffix s = [] ∨ ∃ e, pathSuffix s = '.' :: e ∧ e ≠ [] ∧ '.' ∉ e ∧ (∀ c ∈ e, c ≠ '/') := by
    intro s
    simp only [pathSuffix]
    split
    · rename_i h
      refine .inr ⟨_, rfl, by simpa using h.2.1, ?_, ?_⟩
      · intro hm
        have := List.all_eq_true.1 (List.all_takeWhile) '.' (List.mem_reverse.1 hm)
        simp at this
      · intro c hc
        have hc' := List.mem_reverse.1 hc
        have hc'' := List.mem_reverse.1 ((List.takeWhile_sublist _).mem hc')
        rintro rfl
        cases hl : (List.filter (fun c => decide (c ≠ [] ∧ c ≠ ['.'])) (splitOn '/' s)).getLast? with
        | none => rw [hl] at hc''; simp at hc''
        | some l =>
          rw [hl] at hc''
          have hm := List.mem_of_getLast? hl
          exact Verif.Markup.splitOn_no_sep '/' s l (List.mem_filter.1 hm).1 hc''
    · exact .inl rfl
  have fin : ∀ t : Str, ∃ e, (if pathSuffix t ≠ [] then pathSuffix t else ['.', 'j', 's']) = '.' :: e ∧ e ≠ [] ∧ '.' ∉ e ∧ (∀ c ∈ e, c ≠ '/') := by
    intro t
    rcases key t with h | ⟨e, h, hh⟩
    · rw [h]; exact ⟨['j', 's'], rfl, by simp, by decide, by decide⟩
    · rw [h]; exact ⟨e, rfl, hh⟩
  exact fin _

theorem suffix_injective {x y : Str} (h : x ++ nameSuffix x = y ++ nameSuffix y) : x = y := by
  obtain ⟨e, he, _, hd, _⟩ := suffix_shape x
  obtain ⟨e', he', _, hd', _⟩ := suffix_shape y
  rw [he, he'] at h
  have hr := congrArg List.reverse h
  simp only [List.reverse_append, List.reverse_cons, List.append_assoc] at hr
  have key : ∀ (a b u v : Str), '.' ∉ a → '.' ∉ b → a ++ '.' :: u = b ++ '.' :: v → u = v := by
    intro a
    induction a with
    | nil =>
      intro b u v _ hb he
      cases b with
      | nil => simpa using he
      | cons c b =>
        simp only [List.nil_append, List.cons_append, List.cons.injEq] at he
        exact absurd (by rw [← he.1]; simp) hb
    | cons c a ih =>
      intro b u v ha hb he
      cases b with
      | nil =>
        simp only [List.nil_append, List.cons_append, List.cons.injEq] at he
        exact absurd (by rw [he.1]; simp) ha
      | cons c' b =>
        simp only [List.cons_append, List.cons.injEq] at he
        exact ih b u v (fun h => ha (by simp [h])) (fun h => hb (by simp [h])) he.2
  have := key e.reverse e'.reverse x.reverse y.reverse (by simpa using hd) (by simpa using hd') (by simpa using hr)
  exact List.reverse_inj.1 this

theorem splitOn_suffix (x e : Str) (he : ∀ c ∈ e, c ≠ '/') : ∃ ini last, splitOn '/' x = ini ++ [last] ∧ splitOn '/' (x ++ e) = ini ++ [last ++ e] := by
  induction x with
  | nil =>
    refine ⟨[], [], by simp [splitOn], ?_⟩
    simp only [List.nil_append]
    exact Verif.Markup.splitOn_self '/' e (fun h => he _ h rfl)
  | cons c x ih =>
    obtain ⟨ini, last, h1, h2⟩ := ih
    by_cases hc : c = '/'
    · subst hc
      exact ⟨[] :: ini, last, by simp [splitOn, h1], by simp [splitOn, h2]⟩
    · cases ini with
      | nil => exact ⟨[], c :: last, by simp [splitOn, h1, hc], by simp only [List.nil_append] at h2; simp [splitOn, h2, hc]⟩
      | cons i ini => exact ⟨(c :: i) :: ini, last, by simp [splitOn, h1, hc], by simp only [List.cons_append] at h2; simp [splitOn, h2, hc]⟩

theorem locate_plain : ∀ (path dir : List Str), (∀ c ∈ path, c ≠ ['.', '.']) → locate dir path = dir ++ path
  | [], dir, _ => by simp [locate]
  | c :: path, dir, h => by
    rw [locate, if_neg (h c (by simp)), locate_plain path _ (fun d hd => h d (by simp [hd]))]
    simp

/-- The parts of the file name of a module with an ordinary name are ordinary. -/
theorem parts_ordinary {name : Str} (h : Ordinary name) :
    ∀ c ∈ splitOn '/' (name ++ nameSuffix name), c ≠ [] ∧ c ≠ ['.'] ∧ c ≠ ['.', '.'] := by
  obtain ⟨e, he, hne, hd, hs⟩ := suffix_shape name
  obtain ⟨ini, last, h1, h2⟩ := splitOn_suffix name (nameSuffix name) (by rw [he]; intro c hc; rcases List.mem_cons.1 hc with rfl | hc; decide; exact hs c hc)
  intro c hc
  rw [h2] at hc
  rcases List.mem_append.1 hc with hc | hc
  · exact h c (by rw [h1]; simp [hc])
  · have hl := h last (by rw [h1]; simp)
    rw [List.mem_singleton.1 hc, he]
    refine ⟨by simp, ?_, ?_⟩
    · intro hh
      have := congrArg List.length hh
      cases e with
      | nil => exact hne rfl
      | cons x e => simp at this; omega
    · intro hh
      have hlen := congrArg List.length hh
      have : last = [] := by
        cases e with
        | nil => exact absurd rfl hne
        | cons x e =>
          cases last with
          | nil => rfl
          | cons y l => simp at hlen; omega
      exact hl.1 this

/-- The file of a module with an ordinary name. -/
theorem moduleFile_ordinary (dir : List Str) {name : Str} (h : Ordinary name) : moduleFile dir name = dir ++ splitOn '/' (name ++ nameSuffix name) := by
  have hall := parts_ordinary h
  rw [moduleFile, modulePath, List.filter_eq_self.2, locate_plain]
  · intro c hc; exact (hall c hc).2.2
  · intro c hc; simpa using ⟨(hall c hc).1, (hall c hc).2.1⟩

/-- **C64** (partial: names without empty, `.` and `..` parts).  The file of a module lies inside the modules directory, and
different names have different files. -/
theorem C64_files_partial (dir : List Str) {x y : Str} (hx : Ordinary x) (hy : Ordinary y) :
    (∃ p, p ≠ [] ∧ moduleFile dir x = dir ++ p) ∧ (moduleFile dir x = moduleFile dir y → x = y) := by
  constructor
  · exact ⟨_, Verif.Markup.splitOn_ne_nil _ _, moduleFile_ordinary dir hx⟩
  · intro h
    rw [moduleFile_ordinary dir hx, moduleFile_ordinary dir hy] at h
    have h' := List.append_cancel_left h
    have := congrArg (joinWith '/') h'
    rw [Verif.Markup.joinWith_splitOn, Verif.Markup.joinWith_splitOn] at this
    exact suffix_injective this

example : moduleFile [['w']] "@mui/material@5.0/Button.css".toList = [['w'], "@mui".toList, "material@5.0".toList, "Button.css.css".toList] ∧
    moduleFile [['w']] "pkg@1.2".toList = [['w'], "pkg@1.2.js".toList] := by decide +kernel

/-- Specification: the extension of a path, `js` if there is no dot in it. -/
def Extension (p e : Str) : Prop :=
  (∃ dirs stem, p = dirs ++ stem ++ '.' :: e ∧ (dirs = [] ∨ ∃ d, dirs = d ++ ['/']) ∧ stem ≠ [] ∧ '/' ∉ stem ∧ e ≠ [] ∧ '/' ∉ e ∧ '.' ∉ e) ∨
    ('.' ∉ p ∧ e = ['j', 's'])

theorem splitOn_last (d x : Str) (hx : '/' ∉ x) : ∃ ini, splitOn '/' (d ++ '/' :: x) = ini ++ [x] := by
  induction d with
  | nil => exact ⟨[[]], by simp [splitOn, Verif.Markup.splitOn_self '/' x hx]⟩
  | cons c d ih =>
    obtain ⟨ini, h⟩ := ih
    by_cases hc : c = '/'
    · subst hc; exact ⟨[] :: ini, by simp [splitOn, h]⟩
    · cases ini with
      | nil =>
        have := congrArg (joinWith '/') h
        rw [Verif.Markup.joinWith_splitOn] at this
        simp only [List.nil_append, joinWith] at this
        exact absurd (this ▸ by simp) hx
      | cons i ini => exact ⟨(c :: i) :: ini, by simp [splitOn, h, hc]⟩

theorem mem_joinWith {c : Char} {x : Str} : ∀ {l : List Str}, x ∈ l → c ∈ x → c ∈ joinWith '/' l
  | y :: [], hx, hc => by
    simp only [List.mem_singleton] at hx
    subst hx; simpa [joinWith] using hc
  | y :: z :: l, hx, hc => by
    rw [Verif.Markup.joinWith_cons '/' y (by simp)]
    rcases List.mem_cons.1 hx with rfl | hx
    · simp [hc]
    · have := mem_joinWith hx hc
      simp [this]

theorem pathSuffix_ext {p e : Str} (h : Extension p e) :
    (if pathSuffix p ≠ [] then pathSuffix p else ['.', 'j', 's']) = '.' :: e := by
  rcases h with ⟨dirs, stem, rfl, hd, hs, hss, he, hes, hed⟩ | ⟨hn, rfl⟩
  · have hx : '/' ∉ stem ++ '.' :: e := by simp [hss, hes]
    have hsp : ∃ ini, splitOn '/' (dirs ++ stem ++ '.' :: e) = ini ++ [stem ++ '.' :: e] := by
      rcases hd with rfl | ⟨d, rfl⟩
      · exact ⟨[], by simpa using Verif.Markup.splitOn_self '/' _ hx⟩
      · simpa using splitOn_last d _ hx
    obtain ⟨ini, hsp⟩ := hsp
    have hl : ((splitOn '/' (dirs ++ stem ++ '.' :: e)).filter (fun c => decide (c ≠ [] ∧ c ≠ ['.']))).getLast?.getD [] = stem ++ '.' :: e := by
      rw [hsp, List.filter_append, List.filter_cons_of_pos, List.filter_nil]
      · simp
      · cases stem with
        | nil => exact absurd rfl hs
        | cons a b => simp
    have ht : (stem ++ '.' :: e).reverse.takeWhile (· != '.') = e.reverse := by
      have : (stem ++ '.' :: e).reverse = e.reverse ++ '.' :: stem.reverse := by simp
      rw [this, List.takeWhile_append_of_pos]
      · simp
      · intro c hc; simp only [bne_iff_ne, ne_eq]; rintro rfl; exact hed (List.mem_reverse.1 hc)
    have : pathSuffix (dirs ++ stem ++ '.' :: e) = '.' :: e := by
      simp only [pathSuffix, hl, ht]
      rw [if_pos]
      · simp
      · refine ⟨by simp, by simpa using he, ?_⟩
        have := List.length_pos_iff.2 hs
        simp; omega
    rw [this]; simp
  · have : pathSuffix p = [] := by
      simp only [pathSuffix]
      rw [if_neg]
      rintro ⟨hm, -, -⟩
      cases hl : (List.filter (fun c => decide (c ≠ [] ∧ c ≠ ['.'])) (splitOn '/' p)).getLast? with
      | none => rw [hl] at hm; simp at hm
      | some l =>
        rw [hl] at hm
        have hq := (List.mem_filter.1 (List.mem_of_getLast? hl)).1
        have hj := Verif.Markup.joinWith_splitOn '/' p
        exact hn (hj ▸ mem_joinWith hq hm)
    rw [this]; simp

theorem cut_at {a b : Str} (x : Char) (h : x ∉ a) :
    (a ++ x :: b).takeWhile (· != x) = a ∧ (a ++ x :: b).dropWhile (· != x) = x :: b := by
  have hp : ∀ c ∈ a, (c != x) = true := fun c hc => by simp only [bne_iff_ne, ne_eq]; rintro rfl; exact h hc
  rw [List.takeWhile_append_of_pos hp, List.dropWhile_append_of_pos hp]
  simp

theorem nameSuffix_of (atSign : Bool) (head rest : Str) (hh : '@' ∉ head) (hr : rest = [] ∨ ∃ r, rest = '@' :: r) (he : head ≠ []) :
    nameSuffix ((if atSign then ['@'] else []) ++ head ++ rest) =
      (let tail := (rest.tail.dropWhile (· != '/')).tail
       let suffix := pathSuffix (if tail ≠ [] then tail else head)
       if suffix ≠ [] then suffix else ['.', 'j', 's']) := by
  have hs : (match (if atSign then ['@'] else []) ++ head ++ rest with | '@' :: n => n | n => n) = head ++ rest := by
    cases atSign
    · cases head with
      | nil => exact absurd rfl he
      | cons c t =>
        simp only [Bool.false_eq_true, if_false, List.nil_append, List.cons_append]
        split
        · rename_i heq; cases heq; exact absurd (by simp) hh
        · rfl
    · rfl
  have ht : (head ++ rest).takeWhile (· != '@') = head ∧ (head ++ rest).dropWhile (· != '@') = rest := by
    rcases hr with rfl | ⟨r, rfl⟩
    · have hp : ∀ c ∈ head, (c != '@') = true := fun c hc => by simp only [bne_iff_ne, ne_eq]; rintro rfl; exact hh hc
      have h1 := List.takeWhile_append_of_pos (l₂ := []) hp
      have h2 := List.dropWhile_append_of_pos (l₂ := []) hp
      simpa using And.intro h1 h2
    · exact cut_at '@' hh
  have body : ∀ X Y : Str, (match X with | '@' :: n => n | n => n) = Y → nameSuffix X =
      (let tail := ((Y.dropWhile (· != '@')).tail.dropWhile (· != '/')).tail
       let suffix := pathSuffix (if tail ≠ [] then tail else Y.takeWhile (· != '@'))
       if suffix ≠ [] then suffix else ['.', 'j', 's']) := by
    intro X Y h; subst h; rfl
  rw [body _ _ hs, ht.1, ht.2]

/-- **C64** (partial: as above).  The file of a module is its name with an extension: that of the path after the version if there
is one, else that of the path of the package, and `js` if it has none; the dots of a version are not taken for an extension. -/
theorem C64_extension_partial (dir : List Str) (atSign : Bool) (package version path e : Str) (hp : '@' ∉ package) (hne : package ≠ [])
    (hv : '/' ∉ version) :
    let full (rest : Str) := (if atSign then ['@'] else []) ++ package ++ rest
    (Extension package e → Ordinary (full []) → moduleFile dir (full []) = dir ++ splitOn '/' (full [] ++ '.' :: e)) ∧
    (Extension package e → Ordinary (full ('@' :: version)) →
      moduleFile dir (full ('@' :: version)) = dir ++ splitOn '/' (full ('@' :: version) ++ '.' :: e)) ∧
    (path ≠ [] → Extension path e → Ordinary (full ('@' :: version ++ '/' :: path)) →
      moduleFile dir (full ('@' :: version ++ '/' :: path)) = dir ++ splitOn '/' (full ('@' :: version ++ '/' :: path) ++ '.' :: e)) := by
  simp only
  refine ⟨fun hx ho => ?_, fun hx ho => ?_, fun hpn hx ho => ?_⟩
  · rw [moduleFile_ordinary dir ho, nameSuffix_of atSign package [] hp (.inl rfl) hne]
    have := pathSuffix_ext hx
    simp only [List.tail_nil, List.dropWhile_nil, ne_eq, not_true_eq_false, if_false]
    rw [show (if ¬ pathSuffix package = [] then pathSuffix package else ['.', 'j', 's']) = '.' :: e from this]
  · rw [moduleFile_ordinary dir ho, nameSuffix_of atSign package _ hp (.inr ⟨_, rfl⟩) hne]
    have := pathSuffix_ext hx
    have hd : version.dropWhile (· != '/') = [] := by
      have hall : ∀ c ∈ version, (c != '/') = true := fun c hc => by simp only [bne_iff_ne, ne_eq]; rintro rfl; exact hv hc
      have := List.dropWhile_append_of_pos (l₂ := []) hall
      simpa using this
    simp only [List.tail_cons, hd, List.tail_nil, ne_eq, not_true_eq_false, if_false]
    rw [show (if ¬ pathSuffix package = [] then pathSuffix package else ['.', 'j', 's']) = '.' :: e from this]
  · rw [moduleFile_ordinary dir ho, nameSuffix_of atSign package ('@' :: version ++ '/' :: path) hp (.inr ⟨_, rfl⟩) hne]
    have := pathSuffix_ext hx
    have hd : (version ++ '/' :: path).dropWhile (· != '/') = '/' :: path := (cut_at '/' hv).2
    simp only [List.cons_append, List.tail_cons, hd, ne_eq, hpn, not_false_eq_true, if_true]
    rw [show (if ¬ pathSuffix path = [] then pathSuffix path else ['.', 'j', 's']) = '.' :: e from this]

/-- A version with two dots; a style sheet. -/
example : Extension "dist/pkg".toList ['j', 's'] ∧ Extension "dist/theme.min.css".toList "css".toList ∧
    moduleFile [] "dist/pkg@1.2.3".toList = ["dist".toList, "pkg@1.2.3.js".toList] :=
  ⟨.inr ⟨by decide, rfl⟩, .inl ⟨"dist/".toList, "theme.min".toList, by decide +kernel, .inr ⟨"dist".toList, by decide +kernel⟩, by decide +kernel, by decide +kernel, by decide +kernel, by decide +kernel, by decide +kernel⟩,
    by decide +kernel⟩

/-- **C64, violated.**  A name with `..` is written outside the modules directory, and names that differ in empty parts have
one file. -/
theorem C64_escape_violated :
    moduleFile ["srv".toList, "modules".toList] "../app/main".toList = ["srv".toList, "app".toList, "main.js".toList] ∧
    moduleFile [] "a//b".toList = moduleFile [] "a/b".toList := by decide +kernel

end Verif.Reactjs.Cache
