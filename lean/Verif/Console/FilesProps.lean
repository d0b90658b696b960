import Verif.Console.Files
/-! # C100: the files that the rewriting commands change -/
namespace Verif.Console
variable {β : Type}

/-! ## Specification -/

/-- What `rglob("*.py")` finds: everything below the directory, at any depth, whose name ends in `.py`. -/
def GlobOk (glob : Path → List Path) (fs : Files β) : Prop :=
  ∀ p q, q ∈ glob p ↔ fs p = some .dir ∧ fs q ≠ none ∧ (∃ mid name, q = p ++ mid ++ [name] ∧ ".py".toList <:+ name)

/-- The path is one of those given, and a file, or it is below one of those given and has a name ending in `.py`. -/
def Target (fs : Files β) (paths : List Path) (q : Path) : Prop :=
  (q ∈ paths ∧ ∃ b, fs q = some (.file b)) ∨
    ∃ p ∈ paths, fs p = some .dir ∧ fs q ≠ none ∧ ∃ mid name, q = p ++ mid ++ [name] ∧ ".py".toList <:+ name

/-- The file has been dealt with: nothing had to be changed and it is as before, or it holds what the rewriting gave. -/
def Done (m : Machine β) (gen : Str → Option (Option Str)) (fs fs' : Files β) (q : Path) : Prop :=
  ∃ s, readText m fs q = some s ∧ ((gen s = some none ∧ fs' q = fs q) ∨
    ∃ new b, gen s = some (some new) ∧ m.encode (native m.linesep new) = some b ∧ fs' q = some (.file b))

/-- The file cannot be dealt with: it cannot be read, or not be parsed, or what the rewriting gives cannot be written. -/
def Fails (m : Machine β) (gen : Str → Option (Option Str)) (fs : Files β) (q : Path) : Prop :=
  readText m fs q = none ∨ ∃ s, readText m fs q = some s ∧ (gen s = none ∨
    ∃ new, gen s = some (some new) ∧ m.encode (native m.linesep new) = none)

/-- What has been written is read back. -/
def Machine.Faithful (m : Machine β) : Prop :=
  (∀ s b, m.encode s = some b → m.decode b = some s) ∧ (m.linesep = "\n".toList ∨ m.linesep = "\r\n".toList)

/-! ## Lemmas -/

theorem Files.set_other (fs : Files β) {f q : Path} (b : β) (h : q ≠ f) : fs.set f b q = fs q := by simp [Files.set, h]
theorem Files.set_same (fs : Files β) (f : Path) (b : β) : fs.set f b f = some (.file b) := by simp [Files.set]

theorem writeText_other (m : Machine β) (fs : Files β) (f : Path) (s : Str) {q : Path} (h : q ≠ f) : (writeText m fs f s).1 q = fs q := by
  unfold writeText
  split <;> exact Files.set_other _ _ h

theorem rewriteFile_other (m : Machine β) (gen) (fs : Files β) (f : Path) {q : Path} (h : q ≠ f) : (rewriteFile m gen fs f).1 q = fs q := by
  unfold rewriteFile
  split
  · rfl
  · split
    · rfl
    · rfl
    · exact writeText_other _ _ _ _ h

/-- Files stay files, and nothing else becomes one. -/
theorem rewriteFile_kind (m : Machine β) (gen) (fs : Files β) (f q : Path) :
    ((rewriteFile m gen fs f).1 q = some .dir ↔ fs q = some .dir) ∧ ((rewriteFile m gen fs f).1 q = none ↔ fs q = none) := by
  by_cases h : q = f
  · subst h
    unfold rewriteFile
    split
    · simp
    · rename_i s hs
      have hf : ∃ b, fs q = some (.file b) := by
        unfold readText at hs
        split at hs
        · rename_i b hb; exact ⟨b, hb⟩
        · simp at hs
      obtain ⟨b, hb⟩ := hf
      split
      · simp
      · simp
      · unfold writeText
        split <;> simp [Files.set_same, hb]
  · rw [rewriteFile_other _ _ _ _ h]; simp

theorem rewriteFiles_other (m : Machine β) (gen) (fs : Files β) (l : List Path) {q : Path} (h : q ∉ l) : (rewriteFiles m gen fs l).1 q = fs q := by
  induction l generalizing fs with
  | nil => rfl
  | cons f l ih =>
    simp only [List.mem_cons, not_or] at h
    rw [rewriteFiles]
    have h1 := rewriteFile_other m gen fs f h.1
    rcases hr : rewriteFile m gen fs f with ⟨fs1, b⟩
    rw [hr] at h1
    cases b
    · exact h1
    · simp only; rw [ih fs1 h.2]; exact h1

theorem rewriteFiles_kind (m : Machine β) (gen) (fs : Files β) (l : List Path) (q : Path) :
    ((rewriteFiles m gen fs l).1 q = some .dir ↔ fs q = some .dir) ∧ ((rewriteFiles m gen fs l).1 q = none ↔ fs q = none) := by
  induction l generalizing fs with
  | nil => simp [rewriteFiles]
  | cons f l ih =>
    rw [rewriteFiles]
    have h1 := rewriteFile_kind m gen fs f q
    rcases hr : rewriteFile m gen fs f with ⟨fs1, b⟩
    rw [hr] at h1
    cases b
    · exact h1
    · simp only; exact ⟨(ih fs1).1.trans h1.1, (ih fs1).2.trans h1.2⟩

theorem filesAt_kind (glob) {fs fs' : Files β} (h : ∀ q, (fs' q = some .dir ↔ fs q = some .dir) ∧ (fs' q = none ↔ fs q = none)) (p : Path) :
    filesAt glob fs' p = filesAt glob fs p := by
  unfold filesAt
  have h := h p
  rcases e : fs p with _ | ⟨b⟩ | _ <;> rcases e' : fs' p with _ | ⟨b'⟩ | _ <;> simp_all

theorem rewriteFiles_append (m : Machine β) (gen) (fs : Files β) (a b : List Path) :
    rewriteFiles m gen fs (a ++ b) = match rewriteFiles m gen fs a with
      | (fs, true) => rewriteFiles m gen fs b
      | (fs, false) => (fs, false) := by
  induction a generalizing fs with
  | nil => rfl
  | cons f a ih =>
    rw [List.cons_append, rewriteFiles, rewriteFiles]
    rcases rewriteFile m gen fs f with ⟨fs1, _ | _⟩
    · rfl
    · exact ih fs1

/-- The two loops visit one list of files. -/
theorem rewritePaths_flat (m : Machine β) (gen) (glob) (fs fs0 : Files β) (paths : List Path)
    (h : ∀ q, (fs q = some .dir ↔ fs0 q = some .dir) ∧ (fs q = none ↔ fs0 q = none)) :
    rewritePaths m gen glob fs paths = rewriteFiles m gen fs (paths.flatMap (filesAt glob fs0)) := by
  induction paths generalizing fs with
  | nil => rfl
  | cons p ps ih =>
    rw [rewritePaths, List.flatMap_cons, rewriteFiles_append, filesAt_kind glob h]
    have hk := rewriteFiles_kind m gen fs (filesAt glob fs0 p)
    rcases hr : rewriteFiles m gen fs (filesAt glob fs0 p) with ⟨fs1, _ | _⟩
    · rfl
    · rw [hr] at hk
      exact ih fs1 (fun q => ⟨(hk q).1.trans (h q).1, (hk q).2.trans (h q).2⟩)

theorem command_flat (m : Machine β) (gen) (glob) (fs : Files β) (paths : List Path) (hp : ∀ p ∈ paths, fs p ≠ none) :
    command m gen glob fs paths = rewriteFiles m gen fs (paths.flatMap (filesAt glob fs)) := by
  rw [command, if_pos]
  · exact rewritePaths_flat m gen glob fs fs paths (fun _ => ⟨Iff.rfl, Iff.rfl⟩)
  · rw [List.all_eq_true]
    intro p h
    rw [Option.isSome_iff_ne_none]
    exact hp p h

theorem mem_targets {glob : Path → List Path} {fs : Files β} (hg : GlobOk glob fs) (paths : List Path) (q : Path) :
    q ∈ paths.flatMap (filesAt glob fs) ↔ Target fs paths q := by
  simp only [List.mem_flatMap, Target]
  constructor
  · rintro ⟨p, hp, hq⟩
    unfold filesAt at hq
    split at hq
    · rename_i b hb
      simp only [List.mem_singleton] at hq
      subst hq
      exact .inl ⟨hp, b, hb⟩
    · exact .inr ⟨p, hp, (hg p q).1 hq⟩
  · rintro (⟨hp, b, hb⟩ | ⟨p, hp, h⟩)
    · exact ⟨q, hp, by unfold filesAt; rw [hb]; simp⟩
    · refine ⟨p, hp, ?_⟩
      unfold filesAt
      rw [h.1]
      exact (hg p q).2 h

theorem rewriteFile_done {m : Machine β} {gen} {fs fs' : Files β} {f : Path} (h : rewriteFile m gen fs f = (fs', true)) : Done m gen fs fs' f := by
  unfold rewriteFile at h
  split at h
  · simp at h
  · rename_i s hs
    refine ⟨s, hs, ?_⟩
    split at h
    · simp at h
    · rename_i hgn
      simp only [Prod.mk.injEq, and_true] at h
      exact .inl ⟨hgn, by rw [h]⟩
    · rename_i new hgn
      unfold writeText at h
      split at h
      · rename_i b hb
        simp only [Prod.mk.injEq, and_true] at h
        exact .inr ⟨new, b, hgn, hb, by rw [← h, Files.set_same]⟩
      · simp at h

theorem rewriteFile_ok (m : Machine β) (gen) (fs : Files β) (f : Path) : (rewriteFile m gen fs f).2 = true ↔ ¬ Fails m gen fs f := by
  unfold rewriteFile Fails
  cases readText m fs f with
  | none => simp
  | some s =>
    rcases hg : gen s with _ | _ | new
    · simp [hg]
    · simp [hg]
    · simp only [writeText]
      cases he : m.encode (native m.linesep new) <;> simp [hg, he]

theorem rewriteFile_failed {m : Machine β} {gen} {fs fs' : Files β} {f : Path} (h : rewriteFile m gen fs f = (fs', false)) :
    fs' f = fs f ∨ ∃ s new, readText m fs f = some s ∧ gen s = some (some new) ∧ m.encode (native m.linesep new) = none ∧
      fs' f = some (.file m.empty) := by
  unfold rewriteFile at h
  split at h
  · simp only [Prod.mk.injEq, and_true] at h; exact .inl (by rw [h])
  · rename_i s hs
    split at h
    · simp only [Prod.mk.injEq, and_true] at h; exact .inl (by rw [h])
    · simp at h
    · rename_i new hgn
      unfold writeText at h
      split at h
      · simp at h
      · rename_i he
        simp only [Prod.mk.injEq, and_true] at h
        exact .inr ⟨s, new, hs, hgn, he, by rw [← h, Files.set_same]⟩

theorem readText_congr (m : Machine β) {fs fs1 : Files β} {q : Path} (h : fs1 q = fs q) : readText m fs1 q = readText m fs q := by
  unfold readText; rw [h]

theorem Done.congr {m : Machine β} {gen} {fs fs1 fs' fs2 : Files β} {q : Path} (h : Done m gen fs fs' q) (h1 : fs1 q = fs q) (h2 : fs2 q = fs' q) :
    Done m gen fs1 fs2 q := by
  obtain ⟨s, hs, h⟩ := h
  refine ⟨s, by rw [readText_congr m h1]; exact hs, ?_⟩
  rcases h with ⟨a, b⟩ | ⟨new, b, h⟩
  · exact .inl ⟨a, by rw [h1, h2, b]⟩
  · exact .inr ⟨new, b, h.1, h.2.1, by rw [h2]; exact h.2.2⟩

theorem rewriteFiles_done {m : Machine β} {gen} {fs fs' : Files β} {l : List Path} (hn : l.Nodup) (h : rewriteFiles m gen fs l = (fs', true)) :
    ∀ q ∈ l, Done m gen fs fs' q := by
  induction l generalizing fs with
  | nil => simp
  | cons f l ih =>
    rw [List.nodup_cons] at hn
    rw [rewriteFiles] at h
    rcases hr : rewriteFile m gen fs f with ⟨fs1, _ | _⟩
    · rw [hr] at h; simp at h
    · rw [hr] at h
      simp only at h
      intro q hq
      have ho := rewriteFiles_other m gen fs1 l hn.1
      rw [h] at ho
      by_cases hf : q = f
      · subst hf
        exact (rewriteFile_done hr).congr rfl ho
      · have h1 := rewriteFile_other m gen fs f hf
        rw [hr] at h1
        exact (ih hn.2 h q ((List.mem_cons.1 hq).resolve_left hf)).congr h1.symm rfl

theorem rewriteFiles_failed {m : Machine β} {gen} {fs fs' : Files β} {l : List Path} (hn : l.Nodup) (h : rewriteFiles m gen fs l = (fs', false)) :
    ∃ a f b, l = a ++ f :: b ∧ (∀ q ∈ a, Done m gen fs fs' q) ∧ (∀ q ∈ b, fs' q = fs q) ∧ Fails m gen fs f ∧ (fs' f = fs f ∨
      ∃ s new, readText m fs f = some s ∧ gen s = some (some new) ∧ m.encode (native m.linesep new) = none ∧
        fs' f = some (.file m.empty)) := by
  induction l generalizing fs with
  | nil => simp [rewriteFiles] at h
  | cons f l ih =>
    rw [List.nodup_cons] at hn
    rw [rewriteFiles] at h
    have hok := rewriteFile_ok m gen fs f
    rcases hr : rewriteFile m gen fs f with ⟨fs1, _ | _⟩
    · rw [hr] at h hok
      simp only [Prod.mk.injEq, and_true] at h
      subst h
      refine ⟨[], f, l, rfl, by simp, fun q hq => ?_, by simpa using hok, rewriteFile_failed hr⟩
      have h1 := rewriteFile_other m gen fs f (q := q) (fun e => hn.1 (e ▸ hq))
      rw [hr] at h1
      exact h1
    · rw [hr] at h
      simp only at h
      have same : ∀ q, q ≠ f → fs1 q = fs q := fun q hq => by
        have h1 := rewriteFile_other m gen fs f hq
        rw [hr] at h1
        exact h1
      obtain ⟨a, g, b, rfl, ha, hb, hf, hg⟩ := ih hn.2 h
      have hmem : ∀ q ∈ a ++ g :: b, q ≠ f := fun q hq e => hn.1 (e ▸ hq)
      have hgf := same g (hmem g (by simp))
      refine ⟨f :: a, g, b, rfl, fun q hq => ?_, fun q hq => ?_, ?_, ?_⟩
      · rcases List.mem_cons.1 hq with rfl | hq
        · have ho := rewriteFiles_other m gen fs1 _ hn.1
          rw [h] at ho
          exact (rewriteFile_done hr).congr rfl ho
        · exact (ha q hq).congr (same q (hmem q (by simp [hq]))).symm rfl
      · rw [hb q hq, same q (hmem q (by simp [hq]))]
      · unfold Fails at hf ⊢; rw [readText_congr m hgf] at hf; exact hf
      · rw [readText_congr m hgf, hgf] at hg; exact hg

theorem universal_cons {c : Char} (h : c ≠ '\r') (l : Str) : universal (c :: l) = c :: universal l := by
  simp [universal, h]

theorem universal_native_lf (s : Str) (h : '\r' ∉ s) : universal (native "\n".toList s) = s := by
  induction s with
  | nil => rfl
  | cons c s ih =>
    simp only [List.mem_cons, not_or] at h
    rw [native, List.flatMap_cons]
    by_cases hc : c = '\n'
    · subst hc
      exact congrArg _ (ih h.2)
    · rw [if_neg hc, List.singleton_append, universal_cons (Ne.symm h.1)]
      exact congrArg _ (ih h.2)

theorem universal_native_crlf (s : Str) (h : '\r' ∉ s) : universal (native "\r\n".toList s) = s := by
  induction s with
  | nil => rfl
  | cons c s ih =>
    simp only [List.mem_cons, not_or] at h
    rw [native, List.flatMap_cons]
    by_cases hc : c = '\n'
    · subst hc
      exact congrArg _ (ih h.2)
    · rw [if_neg hc, List.singleton_append, universal_cons (Ne.symm h.1)]
      exact congrArg _ (ih h.2)

theorem rewriteFiles_fixed (m : Machine β) (gen) (fs : Files β) (l : List Path) (h : ∀ q ∈ l, rewriteFile m gen fs q = (fs, true)) :
    rewriteFiles m gen fs l = (fs, true) := by
  induction l with
  | nil => rfl
  | cons f l ih =>
    rw [rewriteFiles, h f (by simp)]
    exact ih (fun q hq => h q (by simp [hq]))

theorem Done.read {m : Machine β} (hm : m.Faithful) {gen} (hr : ∀ s new, gen s = some (some new) → '\r' ∉ new) {fs fs' : Files β} {q : Path}
    (h : Done m gen fs fs' q) : ∃ s, readText m fs q = some s ∧
      ((gen s = some none ∧ fs' q = fs q) ∨ ∃ new, gen s = some (some new) ∧ readText m fs' q = some new) := by
  obtain ⟨s, hs, h | ⟨new, b, h1, h2, h3⟩⟩ := h
  · exact ⟨s, hs, .inl h⟩
  · refine ⟨s, hs, .inr ⟨new, h1, ?_⟩⟩
    unfold readText
    rw [h3]
    simp only
    rw [hm.1 _ _ h2]
    simp only [Option.map_some, Option.some.injEq]
    rcases hm.2 with e | e <;> rw [e]
    · exact universal_native_lf new (hr s new h1)
    · exact universal_native_crlf new (hr s new h1)

theorem universal_line (l : Str) (h : '\r' ∉ l) (r : Str) : universal (l ++ r) = l ++ universal r := by
  induction l with
  | nil => rfl
  | cons c l ih =>
    simp only [List.mem_cons, not_or] at h
    rw [List.cons_append, universal_cons (Ne.symm h.1), ih h.2]; rfl

/-! ## C100 -/

/-- C100: the text is read with `\n` at the ends of the lines, whichever of the three line ends the file has. -/
theorem C100_line_ends_read (sep : Str) (hs : sep = "\n".toList ∨ sep = "\r\n".toList ∨ sep = "\r".toList) (lines : List Str)
    (h : ∀ l ∈ lines, '\r' ∉ l ∧ '\n' ∉ l) : universal (lines.flatMap (· ++ sep)) = lines.flatMap (· ++ "\n".toList) := by
  induction lines with
  | nil => rfl
  | cons l ls ih =>
    rw [List.flatMap_cons, List.flatMap_cons, List.append_assoc, universal_line l (h l (by simp)).1, List.append_assoc]
    congr 1
    have ih := ih (fun l hl => h l (by simp [hl]))
    rcases hs with rfl | rfl | rfl
    · exact congrArg _ ih
    · exact congrArg _ ih
    · have hh : ∀ l', (ls.flatMap (· ++ "\r".toList)) ≠ '\n' :: l' := by
        intro l' e
        cases ls with
        | nil => simp at e
        | cons a as =>
          rw [List.flatMap_cons] at e
          cases a with
          | nil => simp at e
          | cons c cs =>
            simp only [List.cons_append, List.cons.injEq] at e
            exact (h (c :: cs) (by simp)).2 (by rw [e.1]; simp)
      show universal ('\r' :: _) = '\n' :: _
      rw [← ih]
      generalize ls.flatMap (· ++ "\r".toList) = t at hh
      cases t with
      | nil => rfl
      | cons c t =>
        have hc : c ≠ '\n' := fun e => hh t (by rw [e])
        simp [universal, hc]

variable {m : Machine β} {gen : Str → Option (Option Str)} {glob : Path → List Path} {fs : Files β} {paths : List Path}

/-- **C100**: whatever happens, nothing but the files given, and those with names ending in `.py` below the directories given, is changed. -/
theorem C100_others (hg : GlobOk glob fs) (q : Path) (h : ¬ Target fs paths q) : (command m gen glob fs paths).1 q = fs q := by
  by_cases hp : ∀ p ∈ paths, fs p ≠ none
  · rw [command_flat m gen glob fs paths hp]
    exact rewriteFiles_other _ _ _ _ (fun hm => h ((mem_targets hg paths q).1 hm))
  · rw [command, if_neg]
    intro ha
    rw [List.all_eq_true] at ha
    exact hp (fun p hpm => Option.isSome_iff_ne_none.1 (ha p hpm))

/-- C100: nothing is created or deleted, and files stay files. -/
theorem C100_kinds (q : Path) : ((command m gen glob fs paths).1 q = none ↔ fs q = none) ∧
    ((command m gen glob fs paths).1 q = some .dir ↔ fs q = some .dir) := by
  unfold command
  split
  · rw [rewritePaths_flat m gen glob fs fs paths (fun _ => ⟨Iff.rfl, Iff.rfl⟩)]
    exact ⟨(rewriteFiles_kind m gen fs _ q).2, (rewriteFiles_kind m gen fs _ q).1⟩
  · simp

/-- **C100** (partial): the command succeeds exactly if every file can be dealt with, and then every file is dealt with: either there was
nothing to change and its bytes are as before, or what is read from it is what the rewriting gave.  Missing: machines where the encoding
is not UTF-8, and paths that name a file more than once. -/
theorem C100_done_partial (hg : GlobOk glob fs) (hp : ∀ p ∈ paths, fs p ≠ none) (hn : (paths.flatMap (filesAt glob fs)).Nodup) :
    ((command m gen glob fs paths).2 = true ↔ ∀ q, Target fs paths q → ¬ Fails m gen fs q) ∧
    ((command m gen glob fs paths).2 = true → m.Faithful → (∀ s new, gen s = some (some new) → '\r' ∉ new) → ∀ q, Target fs paths q →
      ∃ s, readText m fs q = some s ∧ ((gen s = some none ∧ (command m gen glob fs paths).1 q = fs q) ∨
        ∃ new, gen s = some (some new) ∧ readText m (command m gen glob fs paths).1 q = some new)) := by
  rw [command_flat m gen glob fs paths hp]
  rcases hr : rewriteFiles m gen fs (paths.flatMap (filesAt glob fs)) with ⟨fs', _ | _⟩
  · obtain ⟨a, f, b, e, _, _, hf, _⟩ := rewriteFiles_failed hn hr
    refine ⟨⟨by simp, fun h => ?_⟩, by simp⟩
    exact absurd hf (h f ((mem_targets hg paths f).1 (by rw [e]; simp)))
  · have hd := rewriteFiles_done hn hr
    refine ⟨⟨fun _ q hq => ?_, fun _ => rfl⟩, fun _ hm hr q hq => ?_⟩
    · obtain ⟨s, hs, h⟩ := hd q ((mem_targets hg paths q).2 hq)
      rintro (h1 | ⟨s', h1, h2⟩)
      · rw [hs] at h1; simp at h1
      · rw [hs] at h1
        simp only [Option.some.injEq] at h1
        subst h1
        rcases h with ⟨h, _⟩ | ⟨new, b, h3, h4, _⟩
        · rw [h] at h2; simp at h2
        · rw [h3] at h2; simp [h4] at h2
    · exact (hd q ((mem_targets hg paths q).2 hq)).read hm hr

/-- **C100** (partial): if the command fails, then because of one file, which cannot be dealt with; every other file is dealt with or as it was; and
if the encoding can encode every text, so is that file. -/
theorem C100_failed_partial (hg : GlobOk glob fs) (hp : ∀ p ∈ paths, fs p ≠ none) (hn : (paths.flatMap (filesAt glob fs)).Nodup)
    (h : (command m gen glob fs paths).2 = false) : ∃ f, Target fs paths f ∧ Fails m gen fs f ∧
      (∀ q, Target fs paths q → q ≠ f → Done m gen fs (command m gen glob fs paths).1 q ∨ (command m gen glob fs paths).1 q = fs q) ∧
      ((∀ s, m.encode s ≠ none) → (command m gen glob fs paths).1 f = fs f) := by
  rw [command_flat m gen glob fs paths hp] at h ⊢
  rcases hr : rewriteFiles m gen fs (paths.flatMap (filesAt glob fs)) with ⟨fs', _ | _⟩
  · obtain ⟨a, f, b, e, ha, hb, hf, hl⟩ := rewriteFiles_failed hn hr
    refine ⟨f, (mem_targets hg paths f).1 (by rw [e]; simp), hf, fun q hq hqf => ?_, fun he => ?_⟩
    · have hm := (mem_targets hg paths q).2 hq
      rw [e] at hm
      simp only [List.mem_append, List.mem_cons, hqf, false_or] at hm
      exact hm.imp (ha q) (hb q)
    · rcases hl with h | ⟨_, _, _, _, h, _⟩
      · exact h
      · exact absurd h (he _)
  · rw [hr] at h; simp at h

/-- **C100** (partial): where rewriting what was rewritten gives nothing to change (see C53 and C79), a second run changes nothing. -/
theorem C100_second_run_partial (hm : m.Faithful) (hr : ∀ s new, gen s = some (some new) → '\r' ∉ new ∧ gen new = some none)
    (hg : GlobOk glob fs) (hp : ∀ p ∈ paths, fs p ≠ none) (hn : (paths.flatMap (filesAt glob fs)).Nodup)
    (h : (command m gen glob fs paths).2 = true) :
    command m gen glob (command m gen glob fs paths).1 paths = ((command m gen glob fs paths).1, true) := by
  have hk := fun q => C100_kinds (m := m) (gen := gen) (glob := glob) (fs := fs) (paths := paths) q
  rw [command_flat m gen glob _ paths (fun p h => (fun e => hp p h ((hk p).1.1 e)))]
  rw [show filesAt glob (command m gen glob fs paths).1 = filesAt glob fs from
    funext fun p => filesAt_kind glob (fun q => ⟨(hk q).2, (hk q).1⟩) p]
  apply rewriteFiles_fixed
  intro q hq
  obtain ⟨s, hs, ⟨h1, h2⟩ | ⟨new, h1, h2⟩⟩ :=
    (C100_done_partial hg hp hn).2 h hm (fun s new e => (hr s new e).1) q ((mem_targets hg paths q).1 hq)
  · unfold rewriteFile
    rw [readText_congr m h2, hs]
    simp only [h1]
  · unfold rewriteFile
    rw [h2]
    simp only [(hr s new h1).2]

/-! ## Examples -/

/-- UTF-8 for characters of one or two bytes. -/
def utf8Decode : List Nat → Option Str
  | [] => some []
  | a :: l =>
    if a < 128 then (utf8Decode l).map (Char.ofNat a :: ·)
    else match l with
      | b :: l => if 194 ≤ a ∧ a < 224 ∧ 128 ≤ b ∧ b < 192 then (utf8Decode l).map (Char.ofNat ((a - 192) * 64 + (b - 128)) :: ·) else none
      | [] => none

/-- UTF-8 for characters of one or two bytes. -/
def utf8Encode : Str → Option (List Nat)
  | [] => some []
  | c :: l =>
    if c.toNat < 128 then (utf8Encode l).map (c.toNat :: ·)
    else if c.toNat < 2048 then (utf8Encode l).map (fun r => (c.toNat / 64 + 192) :: (c.toNat % 64 + 128) :: r)
    else none

/-- Encodings of one byte per character: ASCII for 128, Latin-1 for 256. -/
def narrow (limit : Nat) : Str → Option (List Nat)
  | [] => some []
  | c :: l => if c.toNat < limit then (narrow limit l).map (c.toNat :: ·) else none

/-- A machine where UTF-8 is used everywhere. -/
def unix : Machine (List Nat) := ⟨utf8Decode, utf8Encode, "\n".toList, []⟩

/-- A `generate_rewrite`: a text with a `?` cannot be parsed; every `_` is dropped. -/
def dropMarks (s : Str) : Option (Option Str) :=
  if '?' ∈ s then none else if '_' ∈ s then some (some (s.filter (fun c => c ≠ '_' ∧ c ≠ '\r'))) else some none

/-- Four files, two of them in the directory `d`. -/
def exampleFiles : Files (List Nat) := fun q =>
  if q = [['d']] then some .dir
  else if q = [['d'], "a.py".toList] then (utf8Encode "x_\n".toList).map .file
  else if q = [['d'], "b.py".toList] then (utf8Encode "yé\n".toList).map .file
  else if q = [['d'], ['c']] then (utf8Encode "_".toList).map .file
  else if q = [['e']] then (utf8Encode "z_é".toList).map .file
  else none

/-- What is found below `d`. -/
def exampleGlob : Path → List Path := fun p => if p = [['d']] then [[['d'], "b.py".toList], [['d'], "a.py".toList]] else []

theorem dropMarks_ok (s new : Str) (h : dropMarks s = some (some new)) : '\r' ∉ new ∧ dropMarks new = some none := by
  unfold dropMarks at h
  split at h
  · simp at h
  · rename_i hq
    split at h
    · simp only [Option.some.injEq] at h
      subst h
      refine ⟨by simp, ?_⟩
      unfold dropMarks
      rw [if_neg (by simp [hq]), if_neg (by simp)]
    · simp at h

theorem unix_faithful : unix.Faithful := by
  refine ⟨?_, .inl rfl⟩
  intro s
  show ∀ b, utf8Encode s = some b → utf8Decode b = some s
  induction s with
  | nil => intro b h; simp only [utf8Encode, Option.some.injEq] at h; subst h; rfl
  | cons c s ih =>
    intro b h
    rw [utf8Encode] at h
    split at h
    · rename_i hc
      obtain ⟨r, hr, rfl⟩ := Option.map_eq_some_iff.1 h
      rw [utf8Decode.eq_def]
      simp only [if_pos hc, ih r hr]
      simp
    · rename_i hc
      split at h
      · rename_i hc2
        obtain ⟨r, hr, rfl⟩ := Option.map_eq_some_iff.1 h
        rw [utf8Decode.eq_def]
        simp only
        rw [if_neg (by omega), if_pos (by omega), ih r hr]
        have : (c.toNat / 64 + 192 - 192) * 64 + (c.toNat % 64 + 128 - 128) = c.toNat := by omega
        rw [this]
        simp
      · simp at h

theorem exampleGlob_ok : GlobOk exampleGlob exampleFiles := by
  intro p q
  constructor
  · intro h
    unfold exampleGlob at h
    split at h
    · rename_i hp
      subst hp
      simp only [List.mem_cons, List.not_mem_nil, or_false] at h
      rcases h with rfl | rfl
      · exact ⟨rfl, by decide +kernel, [], "b.py".toList, rfl, by decide +kernel⟩
      · exact ⟨rfl, by decide +kernel, [], "a.py".toList, rfl, by decide +kernel⟩
    · simp at h
  · rintro ⟨hp, hq, mid, name, rfl, hs⟩
    have hp' : p = [['d']] := by
      unfold exampleFiles at hp
      repeat' split at hp
      all_goals first | assumption | simp at hp
    subst hp'
    unfold exampleFiles at hq
    repeat' split at hq
    · rename_i h; simp at h
    · rename_i h; rw [h]; decide +kernel
    · rename_i h; rw [h]; decide +kernel
    · rename_i h
      have : mid = [] ∧ name = ['c'] := by
        have h : mid ++ [name] = [] ++ [['c']] := by simpa using h
        have := List.append_inj' h rfl
        exact ⟨this.1, by simpa using this.2⟩
      rw [this.2] at hs
      exact absurd hs (by decide +kernel)
    · rename_i h; simp at h
    · exact absurd rfl hq

/-- The hypotheses hold, and the files `a.py` and `e` are rewritten. -/
example : GlobOk exampleGlob exampleFiles ∧ (∀ p ∈ [[['d']], [['e']]], exampleFiles p ≠ none) ∧
    ([[['d']], [['e']]].flatMap (filesAt exampleGlob exampleFiles)).Nodup ∧
    (command unix dropMarks exampleGlob exampleFiles [[['d']], [['e']]]).2 = true ∧
    readText unix (command unix dropMarks exampleGlob exampleFiles [[['d']], [['e']]]).1 [['e']] = some "zé".toList ∧
    readText unix (command unix dropMarks exampleGlob exampleFiles [[['d']], [['e']]]).1 [['d'], "a.py".toList] = some "x\n".toList ∧
    readText unix (command unix dropMarks exampleGlob exampleFiles [[['d']], [['e']]]).1 [['d'], ['c']] = some "_".toList :=
  ⟨exampleGlob_ok, by decide +kernel, by decide +kernel, by decide +kernel, by decide +kernel, by decide +kernel, by decide +kernel⟩

/-! ## Violations -/

/-- C100 is violated: if the encoding of the locale does not have a character of the rewritten text, the command empties the file. -/
theorem C100_emptied_violated : ∃ (m : Machine (List Nat)) (fs : Files (List Nat)) (f : Path),
    readText m fs f = some "z_é".toList ∧ command m dropMarks (fun _ => []) fs [f] = (fs.set f [], false) :=
  ⟨⟨utf8Decode, narrow 128, "\n".toList, []⟩, exampleFiles, [['e']], by decide +kernel, rfl⟩

/-- C100 is violated: if it has the character but is not UTF-8, the command succeeds and leaves a file that it, and Python, cannot read. -/
theorem C100_encoding_violated : ∃ (m : Machine (List Nat)) (fs : Files (List Nat)) (f : Path),
    readText m fs f = some "z_é".toList ∧ (command m dropMarks (fun _ => []) fs [f]).2 = true ∧
      readText m (command m dropMarks (fun _ => []) fs [f]).1 f = none :=
  ⟨⟨utf8Decode, narrow 256, "\n".toList, []⟩, exampleFiles, [['e']], by decide +kernel, by decide +kernel, by decide +kernel⟩

/-- C100 is violated: a change in one line changes the end of every line, if the file's line ends are not those of the system. -/
theorem C100_line_ends_violated : ∃ (fs : Files (List Nat)) (f : Path),
    fs f = some (.file [97, 13, 10, 98, 95, 13, 10]) ∧ (command unix dropMarks (fun _ => []) fs [f]).2 = true ∧
      (command unix dropMarks (fun _ => []) fs [f]).1 f = some (.file [97, 10, 98, 10]) := by
  refine ⟨fun q => if q = [['f']] then some (.file [97, 13, 10, 98, 95, 13, 10]) else none, [['f']], rfl, by decide +kernel, ?_⟩
  decide +kernel

/-- C100 is violated: a directory whose name ends in `.py` makes the command fail, although every file can be dealt with. -/
theorem C100_directory_violated : ∃ (glob : Path → List Path) (fs : Files (List Nat)), GlobOk glob fs ∧
    (∀ q b, fs q = some (.file b) → ¬ Fails unix dropMarks fs q) ∧ (command unix dropMarks glob fs [[]]).2 = false := by
  refine ⟨fun p => if p = [] then [["x.py".toList]] else [],
    fun q => if q = [] ∨ q = ["x.py".toList] then some .dir else none, ?_, ?_, by decide +kernel⟩
  · intro p q
    constructor
    · intro h
      simp only at h
      split at h
      · rename_i hp
        subst hp
        simp only [List.mem_cons, List.not_mem_nil, or_false] at h
        subst h
        exact ⟨by simp, by simp, [], "x.py".toList, rfl, by decide +kernel⟩
      · simp at h
    · rintro ⟨hp, hq, mid, name, rfl, _⟩
      simp only at hp hq ⊢
      split at hp
      · rename_i h
        rcases h with rfl | rfl
        · split at hq
          · rename_i h; simpa using h
          · exact absurd rfl hq
        · split at hq
          · rename_i h; simp at h
          · exact absurd rfl hq
      · simp at hp
  · intro q b h
    simp only at h
    split at h <;> simp at h

/-! ### Cases that meet the hypotheses -/

example := C100_line_ends_read "\r\n".toList (.inr (.inl rfl)) ["a = 1".toList, [], "b".toList] (by decide +kernel)

end Verif.Console
