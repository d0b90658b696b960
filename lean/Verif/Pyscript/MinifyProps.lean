import Verif.Pyscript.Props
/-! # Minified sources with comments and docstrings: property C62 -/
namespace Verif.Pyscript
open Verif.Markup (splitOn joinWith)

section
variable {isSpace : Char → Bool}

/-! ## Specification -/

/-- Specification: a text with the rest of each line from the first `#` taken away. -/
def uncomment (s : Str) : Str := joinWith '\n' ((splitOn '\n' s).map fun l => l.takeWhile (· ≠ '#'))

/-- Specification: a docstring on a line of its own and the code that follows it. -/
structure Section where
  indent : Str
  body : Str
  code : Str

/-- Specification: a file: code, docstrings and code. -/
def fileText (code : Str) (sections : List Section) : Str :=
  code ++ sections.flatMap fun d => '\n' :: d.indent ++ ['"', '"', '"'] ++ d.body ++ ['"', '"', '"'] ++ d.code

/-- Specification: the code of a file, without comments and docstrings. -/
def fileCode (code : Str) (sections : List Section) : Str := uncomment code ++ sections.flatMap fun d => uncomment d.code

/-- Specification: no triple quotes. -/
def NoTriple (s : Str) : Prop := ¬ ['"', '"', '"'] <:+: s

/-- Specification: a well-formed docstring: indented, closed by the first triple quotes, without `#`, alone on its lines. -/
structure Section.Ok (isSpace : Char → Bool) (d : Section) : Prop where
  indent : ∀ c ∈ d.indent, isSpace c = true
  closed : NoTriple (d.body ++ ['"', '"'])
  body : '#' ∉ d.body
  code : NoTriple (uncomment d.code)
  alone : d.code = [] ∨ ∃ r, d.code = '\n' :: r

/-- Specification: there is no `#` on the last line. -/
def LastPlain (s : Str) : Prop := ∀ l, (splitOn '\n' s).getLast? = some l → '#' ∉ l

/-! ## Comments -/

theorem dropComment_line : ∀ (p s : Str), '\n' ∉ p → dropComments.dropComment (p ++ '\n' :: s) = '\n' :: dropComments s
  | [], s, _ => by simp [dropComments.dropComment]
  | c :: p, s, h => by
    simp only [List.mem_cons, not_or] at h
    rw [List.cons_append, dropComments.dropComment, if_neg (Ne.symm h.1), dropComment_line p s h.2]

theorem dropComments_line : ∀ (p s : Str), '\n' ∉ p →
    dropComments (p ++ '\n' :: s) = p.takeWhile (· ≠ '#') ++ '\n' :: dropComments s
  | [], s, _ => by simp [dropComments]
  | c :: p, s, h => by
    simp only [List.mem_cons, not_or] at h
    rw [List.cons_append, dropComments]
    by_cases hc : c = '#'
    · subst hc
      rw [if_pos ⟨rfl, by simp⟩, dropComment_line p s h.2]
      simp
    · rw [if_neg (fun hh => hc hh.1), dropComments_line p s h.2, List.takeWhile_cons_of_pos (by simpa using hc)]
      rfl

theorem takeWhile_hash {l : Str} (h : '#' ∉ l) : l.takeWhile (· ≠ '#') = l := by
  induction l with
  | nil => rfl
  | cons c l ih =>
    simp only [List.mem_cons, not_or] at h
    rw [List.takeWhile_cons_of_pos (by simpa using Ne.symm h.1), ih h.2]

theorem dropComments_eq (s : Str) (h : LastPlain s) : dropComments s = uncomment s := by
  have key : ∀ ls : List Str, (∀ l ∈ ls, '\n' ∉ l) → (∀ l, ls.getLast? = some l → '#' ∉ l) →
      dropComments (joinWith '\n' ls) = joinWith '\n' (ls.map fun l => l.takeWhile (· ≠ '#')) := by
    intro ls
    induction ls with
    | nil => intro _ _; rfl
    | cons l ls ih =>
      intro h1 h2
      cases ls with
      | nil =>
        have := h2 l rfl
        simp only [joinWith, List.map_cons, List.map_nil]
        rw [dropComments_id this, takeWhile_hash this]
      | cons m ls =>
        have := ih (fun x hx => h1 x (by simp [hx])) (fun x hx => h2 x (by rw [List.getLast?_cons_cons]; exact hx))
        simp only [joinWith, List.map_cons] at this ⊢
        rw [dropComments_line _ _ (h1 l (by simp)), this]
  have := key (splitOn '\n' s) (Verif.Markup.splitOn_no_sep '\n' s) h
  rw [Verif.Markup.joinWith_splitOn] at this
  exact this

theorem joinWith_append_line (a : List Str) (p : Str) (b : List Str) (hb : b ≠ []) :
    joinWith '\n' (a ++ [p] ++ b) = joinWith '\n' (a ++ [p]) ++ '\n' :: joinWith '\n' b := by
  induction a with
  | nil =>
    cases b with
    | nil => exact absurd rfl hb
    | cons x b => simp [joinWith]
  | cons x a ih =>
    have h1 : a ++ [p] ≠ [] := by simp
    have h2 : a ++ [p] ++ b ≠ [] := by simp
    rw [List.cons_append, List.cons_append, Verif.Markup.joinWith_cons _ _ h2, ih, Verif.Markup.joinWith_cons _ _ h1]
    simp

theorem uncomment_newline (x y : Str) : uncomment (x ++ '\n' :: y) = uncomment x ++ '\n' :: uncomment y := by
  obtain ⟨init, last, first, rest, h1, h2, h3⟩ := splitOn_append x ('\n' :: y)
  have e : splitOn '\n' ('\n' :: y) = [] :: splitOn '\n' y := by simp [splitOn]
  rw [e] at h2
  simp only [List.cons.injEq] at h2
  rw [uncomment, h3, ← h2.1, ← h2.2, uncomment, uncomment, h1]
  simp only [List.map_append, List.map_cons, List.map_nil, List.append_nil]
  have := joinWith_append_line (init.map fun l => l.takeWhile (· ≠ '#')) (last.takeWhile (· ≠ '#'))
    ((splitOn '\n' y).map fun l => l.takeWhile (· ≠ '#')) (by simp [Verif.Markup.splitOn_ne_nil])
  simpa using this

/-- Text without `#` stays, and what follows it. -/
theorem uncomment_plain : ∀ (x y : Str), '#' ∉ x → uncomment (x ++ y) = x ++ uncomment y
  | [], _, _ => rfl
  | c :: x, y, h => by
    simp only [List.mem_cons, not_or] at h
    have ih := uncomment_plain x y h.2
    by_cases hc : c = '\n'
    · subst hc
      have := uncomment_newline [] (x ++ y)
      simp only [List.nil_append] at this
      rw [List.cons_append, this, ih]
      simp [uncomment, splitOn, joinWith]
    · obtain ⟨l, ls, e1, e2⟩ := splitOn_cons_ne hc (x ++ y)
      have hu : uncomment (c :: (x ++ y)) = c :: uncomment (x ++ y) := by
        rw [uncomment, uncomment, e1, e2]
        simp only [List.map_cons]
        rw [List.takeWhile_cons_of_pos (by simpa using Ne.symm h.1)]
        cases ls <;> simp [joinWith]
      rw [List.cons_append, hu, ih]; rfl

/-- Comments are taken out of the code of a file only. -/
theorem uncomment_file (hh : isSpace '#' = false) : ∀ (sections : List Section) (code : Str), (∀ d ∈ sections, d.Ok isSpace) →
    uncomment (fileText code sections) = fileText (uncomment code) (sections.map fun d => { d with code := uncomment d.code })
  | [], code, _ => by simp [fileText]
  | d :: l, code, h => by
    have hd := h d (by simp)
    have ih := uncomment_file hh l d.code (fun x hx => h x (by simp [hx]))
    have e : fileText code (d :: l) = code ++ '\n' :: ((d.indent ++ ['"', '"', '"'] ++ d.body ++ ['"', '"', '"']) ++ fileText d.code l) := by
      simp [fileText]
    have hno : '#' ∉ d.indent ++ ['"', '"', '"'] ++ d.body ++ ['"', '"', '"'] := by
      simp only [List.mem_append, not_or]
      refine ⟨⟨⟨fun hm => ?_, by decide⟩, hd.body⟩, by decide⟩
      have := hd.indent _ hm
      rw [hh] at this; cases this
    rw [e, uncomment_newline, uncomment_plain _ _ hno, ih]
    simp [fileText]

/-! ## Docstrings -/

theorem afterQuotes_body (body rest : Str) (h : NoTriple (body ++ ['"', '"'])) :
    afterQuotes (body ++ ['"', '"', '"'] ++ rest) = some rest := by
  induction body with
  | nil => simp [afterQuotes, quotes, List.isPrefixOf]
  | cons c b ih =>
    have hb : NoTriple (b ++ ['"', '"']) := fun hh => h (hh.trans (List.suffix_cons c _).isInfix)
    have hp : quotes.isPrefixOf (c :: (b ++ ['"', '"', '"'] ++ rest)) = false := by
      rw [Bool.eq_false_iff]
      intro hp
      have := List.isPrefixOf_iff_prefix.1 hp
      apply h
      have hx : quotes <+: c :: (b ++ ['"', '"']) := by
        have h1 : c :: (b ++ ['"', '"']) <+: c :: (b ++ ['"', '"', '"'] ++ rest) := ⟨'"' :: rest, by simp⟩
        exact List.prefix_of_prefix_length_le this h1 (by simp [quotes])
      exact hx.isInfix
    simp only [List.cons_append, afterQuotes]
    rw [if_neg (by rw [hp]; decide)]
    exact ih hb

theorem docstringAt_section (hq : isSpace '"' = false) (d : Section) (hd : d.Ok isSpace) (w rest : Str) (hw : ∀ c ∈ w, isSpace c = true) :
    docstringAt isSpace ('\n' :: (w ++ (d.indent ++ ['"', '"', '"'] ++ d.body ++ ['"', '"', '"'] ++ rest))) = some rest := by
  have hdrop : ∀ (w : Str), (∀ c ∈ w, isSpace c = true) → ∀ r, (w ++ '"' :: r).dropWhile isSpace = '"' :: r := by
    intro w
    induction w with
    | nil => intro _ r; rw [List.nil_append, List.dropWhile_cons, hq]; rfl
    | cons c w ih =>
      intro hw r
      rw [List.cons_append, List.dropWhile_cons, hw c (by simp), if_pos rfl]
      exact ih (fun x hx => hw x (by simp [hx])) r
  have e : w ++ (d.indent ++ ['"', '"', '"'] ++ d.body ++ ['"', '"', '"'] ++ rest) =
      (w ++ d.indent) ++ '"' :: ('"' :: '"' :: (d.body ++ ['"', '"', '"'] ++ rest)) := by simp
  have hwi : ∀ c ∈ w ++ d.indent, isSpace c = true := by
    intro c hc
    rcases List.mem_append.1 hc with hc | hc
    · exact hw c hc
    · exact hd.indent c hc
  simp only [docstringAt]
  rw [e, hdrop _ hwi]
  have hp : quotes.isPrefixOf ('"' :: '"' :: '"' :: (d.body ++ ['"', '"', '"'] ++ rest)) = true := by
    simp [quotes, List.isPrefixOf]
  rw [if_pos hp]
  simp only [List.drop_succ_cons, List.drop_zero]
  exact afterQuotes_body _ _ hd.closed

/-- A character of the code: no docstring starts there, or only white space separates it from the next docstring. -/
theorem docstringAt_code (c : Char) (t rest : Str) (h : NoTriple (c :: t)) (hr : rest = [] ∨ ∃ r, rest = '\n' :: r) :
    docstringAt isSpace (c :: (t ++ rest)) = none ∨ (c = '\n' ∧ ∀ x ∈ t, isSpace x = true) := by
  by_cases hc : c = '\n'
  · by_cases ht : ∀ x ∈ t, isSpace x = true
    · exact .inr ⟨hc, ht⟩
    · refine .inl ?_
      subst hc
      simp only [docstringAt]
      rw [if_neg]
      intro hp
      have hp := List.isPrefixOf_iff_prefix.1 hp
      -- the first character that is not white space lies in the code
      have key : ∀ t : Str, (¬ ∀ x ∈ t, isSpace x = true) → (t ++ rest).dropWhile isSpace = t.dropWhile isSpace ++ rest ∧
          t.dropWhile isSpace <:+ t := by
        intro t
        induction t with
        | nil => intro h; exact absurd (by simp) h
        | cons x t ih =>
          intro h
          by_cases hx : isSpace x = true
          · have hih := ih (fun h' => h (fun y hy => by rcases List.mem_cons.1 hy with rfl | hy; exact hx; exact h' y hy))
            rw [List.cons_append, List.dropWhile_cons, List.dropWhile_cons, hx, if_pos rfl, if_pos rfl]
            exact ⟨hih.1, hih.2.trans (List.suffix_cons x t)⟩
          · rw [List.cons_append, List.dropWhile_cons, List.dropWhile_cons, if_neg hx, if_neg hx]
            exact ⟨rfl, List.suffix_refl _⟩
      obtain ⟨e1, e2⟩ := key t ht
      rw [e1] at hp
      have hin : ∀ u : Str, u <:+ t → quotes <+: u ++ rest → False := by
        intro u hu hq
        by_cases hlen : 3 ≤ u.length
        · have : quotes <+: u := List.prefix_of_prefix_length_le hq (List.prefix_append u rest) (by simpa [quotes] using hlen)
          exact h (this.isInfix.trans (hu.isInfix.trans (List.suffix_cons _ t).isInfix))
        · -- the third quote would be in the rest, which starts with a line end
          obtain ⟨v, hv⟩ := hq
          rcases hr with rfl | ⟨r, rfl⟩
          · have := congrArg List.length hv
            simp [quotes] at this
            omega
          · match u, hlen with
            | [], _ => simp [quotes] at hv
            | [a], _ => simp [quotes] at hv
            | [a, b], _ => simp [quotes] at hv
            | _ :: _ :: _ :: _, hlen => simp at hlen
      exact hin _ e2 hp
  · refine .inl ?_
    simp only [docstringAt]
    split
    · rename_i heq
      simp only [List.cons.injEq] at heq
      exact absurd heq.1 hc
    · rfl

/-- Code after docstrings is nothing or starts on a new line. -/
def Tail (s : Str) : Prop := s = [] ∨ ∃ r, s = '\n' :: r

theorem content_gap (pre w r : Str) (hw : ∀ c ∈ w, isSpace c = true) (hr : Tail r) :
    content isSpace (pre ++ w ++ r) = content isSpace (pre ++ r) := by
  rcases hr with rfl | ⟨r, rfl⟩
  · simp only [List.append_nil]; exact content_spaces _ _ hw
  · rw [content_newline, content_newline, content_spaces _ _ hw]

/-- Taking out the docstrings of a file leaves the lines of the code. -/
theorem dropDocstrings_file (hnl : isSpace '\n' = true) (hq : isSpace '"' = false) : ∀ (sections : List Section),
    (∀ d ∈ sections, (∀ c ∈ d.indent, isSpace c = true) ∧ NoTriple (d.body ++ ['"', '"']) ∧ '#' ∉ d.body ∧ NoTriple d.code ∧ Tail d.code ∧ d.Ok isSpace) →
    ∀ (code : Str), NoTriple code → ∀ (n : Nat) (pre : Str), (fileText code sections).length ≤ n →
      content isSpace (pre ++ dropDocstrings isSpace n (fileText code sections)) =
        content isSpace (pre ++ code ++ sections.flatMap (·.code))
  | [], _, code, hc, n, pre, _ => by
    have e : fileText code [] = code := by simp [fileText]
    rw [e, dropDocstrings_id _ hc]
    simp
  | d :: l, h, code, hc, n, pre, hn => by
    have hd := h d (by simp)
    have hl : ∀ x ∈ l, _ := fun x hx => h x (by simp [hx])
    have ihl := dropDocstrings_file hnl hq l hl d.code hd.2.2.2.1
    have hrest : ∀ l : List Section, (∀ d ∈ l, Tail d.code) → Tail (l.flatMap (·.code)) := by
      intro l
      induction l with
      | nil => intro _; exact .inl rfl
      | cons x l ih =>
        intro hx
        rw [List.flatMap_cons]
        rcases hx x (by simp) with e | ⟨r, e⟩
        · rw [e, List.nil_append]; exact ih (fun y hy => hx y (by simp [hy]))
        · rw [e]; exact .inr ⟨_, rfl⟩
    have htail : Tail (d.code ++ l.flatMap (·.code)) := by
      have := hrest (d :: l) (fun x hx => (h x hx).2.2.2.2.1)
      rwa [List.flatMap_cons] at this
    induction code generalizing n pre with
    | nil =>
      have e : fileText [] (d :: l) = '\n' :: ([] ++ (d.indent ++ ['"', '"', '"'] ++ d.body ++ ['"', '"', '"'] ++ fileText d.code l)) := by
        simp [fileText]
      rw [e] at hn ⊢
      match n, hn with
      | n + 1, hn =>
        rw [dropDocstrings, docstringAt_section hq d hd.2.2.2.2.2 [] _ (by simp)]
        simp only
        rw [ihl n pre (by simp at hn; omega)]
        simp
    | cons c code ih =>
      have e : fileText (c :: code) (d :: l) = c :: fileText code (d :: l) := by simp [fileText]
      have e' : ∃ r, fileText code (d :: l) = code ++ '\n' :: r := ⟨_, by simp only [fileText, List.flatMap_cons, List.cons_append]; rfl⟩
      rw [e] at hn ⊢
      match n, hn with
      | n + 1, hn =>
        have hn' : (fileText code (d :: l)).length ≤ n := by simp at hn; exact hn
        have hstep := ih (fun hh => hc (hh.trans (List.suffix_cons c code).isInfix)) n (pre ++ [c]) hn'
        rcases (by
            obtain ⟨r, hr⟩ := e'
            have := docstringAt_code (isSpace := isSpace) c code ('\n' :: r) hc (.inr ⟨r, rfl⟩)
            rw [← hr] at this
            exact this : docstringAt isSpace (c :: fileText code (d :: l)) = none ∨ (c = '\n' ∧ ∀ x ∈ code, isSpace x = true)) with hnone | ⟨rfl, hw⟩
        · rw [dropDocstrings, hnone]
          simp only [List.append_assoc, List.singleton_append] at hstep ⊢
          rw [hstep]
        · have eat : fileText code (d :: l) = (code ++ ['\n']) ++ (d.indent ++ ['"', '"', '"'] ++ d.body ++ ['"', '"', '"'] ++ fileText d.code l) := by
            simp [fileText]
          have hw' : ∀ x ∈ code ++ ['\n'], isSpace x = true := by
            intro x hx
            rcases List.mem_append.1 hx with hx | hx
            · exact hw x hx
            · rw [List.mem_singleton.1 hx]; exact hnl
          have hdoc := docstringAt_section hq d hd.2.2.2.2.2 (code ++ ['\n']) (fileText d.code l) hw'
          rw [← eat] at hdoc
          rw [dropDocstrings, hdoc]
          simp only
          rw [ihl n pre (by rw [eat] at hn'; simp at hn' ⊢; omega)]
          have hsp : ∀ x ∈ '\n' :: code, isSpace x = true := by
            intro x hx
            rcases List.mem_cons.1 hx with rfl | hx
            · exact hnl
            · exact hw x hx
          rw [List.flatMap_cons, content_gap _ _ _ hsp htail]
          simp

/-! ## The whole -/

/-- Stripping loses nothing but the indentation of the first line. -/
theorem content_strip (hnl : isSpace '\n' = true) (x : Str)
    (h : ∀ l ls, content isSpace x = l :: ls → ∀ c, l.head? = some c → isSpace c = false) :
    content isSpace (strip isSpace x) = content isSpace x := by
  obtain ⟨a, b, hs, ha, hb⟩ := strip_split (isSpace := isSpace) x
  have hhead := strip_head (isSpace := isSpace) x
  generalize strip isSpace x = y at *
  have hx : content isSpace x = content isSpace (a ++ y) := by
    rw [hs, content_spaces _ _ hb]
  rw [hx] at h ⊢
  -- white space before: only its last line matters
  have key : ∀ a : Str, (∀ c ∈ a, isSpace c = true) →
      ∃ a2, (∀ c ∈ a2, isSpace c = true) ∧ '\n' ∉ a2 ∧ content isSpace (a ++ y) = content isSpace (a2 ++ y) := by
    intro a
    induction a with
    | nil => intro _; exact ⟨[], by simp, by simp, rfl⟩
    | cons c a ih =>
      intro ha
      obtain ⟨a2, h1, h2, h3⟩ := ih (fun x hx => ha x (by simp [hx]))
      by_cases hn : '\n' ∈ a
      · refine ⟨a2, h1, h2, ?_⟩
        rw [← h3]
        obtain ⟨u, v, rfl⟩ := List.append_of_mem hn
        have e1 : c :: (u ++ '\n' :: v) ++ y = (c :: u) ++ '\n' :: (v ++ y) := by simp
        have e2 : u ++ '\n' :: v ++ y = u ++ '\n' :: (v ++ y) := by simp
        have hu : content isSpace (c :: u) = content isSpace u := by
          have g1 := content_spaces (isSpace := isSpace) [] (c :: u) (fun x hx => ha x (by
            rcases List.mem_cons.1 hx with rfl | hx
            · simp
            · simp [hx]))
          have g2 := content_spaces (isSpace := isSpace) [] u (fun x hx => ha x (by simp [hx]))
          simp only [List.nil_append] at g1 g2
          rw [g1, g2]
        rw [e1, e2, content_newline, content_newline, hu]
      · by_cases hcn : c = '\n'
        · refine ⟨a, fun x hx => ha x (by simp [hx]), hn, ?_⟩
          subst hcn
          have := content_newline (isSpace := isSpace) [] (a ++ y)
          simpa [content, splitOn] using this
        · refine ⟨c :: a, ha, ?_, rfl⟩
          simp only [List.mem_cons, not_or]
          exact ⟨Ne.symm hcn, hn⟩
  obtain ⟨a2, h1, h2, h3⟩ := key a ha
  rw [h3] at h ⊢
  cases hy : y with
  | nil =>
    have := content_spaces (isSpace := isSpace) [] a2 h1
    simp only [List.nil_append] at this
    rw [List.append_nil, this]
  | cons c t =>
    have hcs := hhead c (by rw [hy]; rfl)
    have hcn : c ≠ '\n' := by rintro rfl; rw [hnl] at hcs; cases hcs
    cases a2 with
    | nil => rfl
    | cons d a2 =>
      exfalso
      -- the first line starts with white space
      have hl : ∀ a2 : Str, '\n' ∉ a2 → ∃ l ls, splitOn '\n' (a2 ++ y) = (a2 ++ c :: l) :: ls := by
        intro a2
        induction a2 with
        | nil =>
          intro _
          obtain ⟨l, ls, _, e2⟩ := splitOn_cons_ne hcn t
          exact ⟨l, ls, by rw [hy]; exact e2⟩
        | cons z a2 ih =>
          intro hz
          simp only [List.mem_cons, not_or] at hz
          obtain ⟨l, ls, e⟩ := ih hz.2
          obtain ⟨l', ls', e1, e2⟩ := splitOn_cons_ne (Ne.symm hz.1) (a2 ++ y)
          rw [e] at e1
          simp only [List.cons.injEq] at e1
          exact ⟨l, ls, by rw [List.cons_append, e2, ← e1.1, ← e1.2]; rfl⟩
      obtain ⟨l, ls, e⟩ := hl (d :: a2) h2
      have hne : ∃ m, ((d :: a2 ++ c :: l).reverse.dropWhile isSpace).reverse = d :: m := by
        have hmem : ∃ u v, (d :: a2 ++ c :: l).reverse.dropWhile isSpace = u ++ c :: v ∧ v = (d :: a2).reverse := by
          have : (d :: a2 ++ c :: l).reverse = l.reverse ++ c :: (d :: a2).reverse := by simp
          rw [this]
          generalize (d :: a2).reverse = v
          induction l.reverse with
          | nil => exact ⟨[], v, by rw [List.nil_append, List.dropWhile_cons, hcs]; rfl, rfl⟩
          | cons z zs ihz =>
            by_cases hz : isSpace z = true
            · rw [List.cons_append, List.dropWhile_cons, hz, if_pos rfl]; exact ihz
            · rw [List.cons_append, List.dropWhile_cons, if_neg hz]; exact ⟨z :: zs, v, rfl, rfl⟩
        obtain ⟨u, v, e1, e2⟩ := hmem
        rw [e1, e2]
        exact ⟨_, by simp only [List.reverse_append, List.reverse_cons, List.reverse_reverse, List.cons_append]; rfl⟩
      obtain ⟨m, hm⟩ := hne
      have hcont : ∃ ls', content isSpace (d :: a2 ++ y) = (d :: m) :: ls' := by
        rw [content, e]
        simp only [List.map_cons, hm]
        exact ⟨_, List.filter_cons_of_pos (by simp)⟩
      obtain ⟨ls', hc'⟩ := hcont
      have := h _ _ hc' d rfl
      rw [h1 d (by simp)] at this
      cases this

/-- A text between white space. -/
theorem strip_between {a t b : Str} (ha : ∀ c ∈ a, isSpace c = true) (hb : ∀ c ∈ b, isSpace c = true)
    (h1 : ∀ c, t.head? = some c → isSpace c = false) (h2 : ∀ c, t.getLast? = some c → isSpace c = false) : strip isSpace (a ++ t ++ b) = t := by
  have drop : ∀ (a s : Str), (∀ c ∈ a, isSpace c = true) → (a ++ s).dropWhile isSpace = s.dropWhile isSpace := by
    intro a s
    induction a with
    | nil => intro _; rfl
    | cons c a ih =>
      intro ha
      rw [List.cons_append, List.dropWhile_cons, ha c (by simp), if_pos rfl, ih (fun x hx => ha x (by simp [hx]))]
  have stay : ∀ s : Str, (∀ c, s.head? = some c → isSpace c = false) → s.dropWhile isSpace = s := by
    intro s hs
    cases s with
    | nil => rfl
    | cons c s => rw [List.dropWhile_cons, hs c rfl]; rfl
  simp only [strip]
  rw [List.append_assoc, drop _ _ ha]
  cases ht : t with
  | nil =>
    have := drop b [] hb
    simp only [List.append_nil] at this
    rw [List.nil_append, this]
    rfl
  | cons c t' =>
    rw [stay (c :: t' ++ b) (by rw [← ht]; intro d hd; rw [ht] at hd; exact h1 d (by rw [ht]; exact hd)), List.reverse_append,
      drop _ _ (fun x hx => hb x (List.mem_reverse.1 hx)), stay]
    · exact List.reverse_reverse _
    · intro d hd
      rw [List.head?_reverse] at hd
      exact h2 d (by rw [ht]; exact hd)

/-- **C62** (partial: files without `#` and without triple quotes).  The code sent to the browser has the lines of the file,
in order and with their indentation; only blank lines and the white space at the ends of lines and of the file are gone. -/
theorem C62_lines_partial (hnl : isSpace '\n' = true) (a t b : Str) (ha : ∀ c ∈ a, isSpace c = true) (hb : ∀ c ∈ b, isSpace c = true)
    (hfirst : ∀ c, t.head? = some c → isSpace c = false) (hlast : ∀ c, t.getLast? = some c → isSpace c = false)
    (h1 : '#' ∉ a ++ t ++ b) (h2 : NoTriple (a ++ t ++ b)) :
    content isSpace (fetchFile isSpace (a ++ t ++ b)) = content isSpace t := by
  rw [minified_lines hnl _ h1 h2, strip_between ha hb hfirst hlast]

/-- **C62** (partial: every `#` outside docstrings starts a comment, the last line has none; triple quotes only in docstrings,
which are alone on their lines and have no `#`).  The code sent to the browser has the lines of the file, in order and with
their indentation; only comments, docstrings, blank lines and trailing white space are gone. -/
theorem C62_code_partial (hnl : isSpace '\n' = true) (hq : isSpace '"' = false) (hh : isSpace '#' = false)
    (a b code : Str) (sections : List Section) (ha : ∀ c ∈ a, isSpace c = true) (hb : ∀ c ∈ b, isSpace c = true)
    (hfirst : ∀ c, (fileText code sections).head? = some c → isSpace c = false)
    (hlast : ∀ c, (fileText code sections).getLast? = some c → isSpace c = false)
    (hcode : NoTriple (uncomment code)) (hsec : ∀ d ∈ sections, d.Ok isSpace) (hplain : LastPlain (fileText code sections))
    (hindent : ∀ l ls, content isSpace (fileCode code sections) = l :: ls → ∀ c, l.head? = some c → isSpace c = false) :
    content isSpace (fetchFile isSpace (a ++ fileText code sections ++ b)) = content isSpace (fileCode code sections) := by
  have hstrip := strip_between ha hb hfirst hlast
  have hsec' : ∀ d ∈ sections.map (fun d => { d with code := uncomment d.code }),
      (∀ c ∈ d.indent, isSpace c = true) ∧ NoTriple (d.body ++ ['"', '"']) ∧ '#' ∉ d.body ∧ NoTriple d.code ∧ Tail d.code ∧ d.Ok isSpace := by
    intro d hd
    obtain ⟨e, he, rfl⟩ := List.mem_map.1 hd
    have ho := hsec e he
    have htail : Tail (uncomment e.code) := by
      rcases ho.alone with h | ⟨r, h⟩
      · rw [h]; exact .inl rfl
      · rw [h]
        have := uncomment_newline [] r
        simp only [List.nil_append] at this
        rw [this]
        exact .inr ⟨_, rfl⟩
    have huu : uncomment (uncomment e.code) = uncomment e.code := by
      have hno : '#' ∉ uncomment e.code := by
        rw [uncomment]
        have : ∀ ls : List Str, (∀ l ∈ ls, '#' ∉ l) → '#' ∉ joinWith '\n' ls := by
          intro ls
          induction ls with
          | nil => intro _; simp [joinWith]
          | cons l ls ih =>
            intro h
            cases ls with
            | nil => simpa [joinWith] using h l (by simp)
            | cons m ls =>
              have := ih (fun x hx => h x (by simp [hx]))
              simp only [joinWith, List.mem_append, List.mem_cons, not_or] at this ⊢
              exact ⟨h l (by simp), by decide, this⟩
        refine this _ ?_
        intro l hl
        obtain ⟨m, _, rfl⟩ := List.mem_map.1 hl
        intro hm
        have := List.all_eq_true.1 (List.all_takeWhile) '#' hm
        simp at this
      have := uncomment_plain (uncomment e.code) [] hno
      simpa [uncomment, splitOn, joinWith] using this
    exact ⟨ho.indent, ho.closed, ho.body, ho.code, htail, ⟨ho.indent, ho.closed, ho.body, by simpa [huu] using ho.code, htail⟩⟩
  have hfetch : fetchFile isSpace (a ++ fileText code sections ++ b) = minify isSpace (fileText code sections) := by
    simp only [fetchFile, hstrip]
  rw [hfetch]
  simp only [minify, dropComments_eq _ hplain, uncomment_file hh sections code hsec]
  generalize hs : fileText (uncomment code) (sections.map fun d => { d with code := uncomment d.code }) = s
  have hcont : content isSpace (dropBlank isSpace [] (joinNewlines false (dropDocstrings isSpace s.length s))) =
      content isSpace (fileCode code sections) := by
    have e1 := dropBlank_content (isSpace := isSpace) [] [] (joinNewlines false (dropDocstrings isSpace s.length s)) (by simp)
    have e2 := (joinNewlines_content (isSpace := isSpace) (dropDocstrings isSpace s.length s) []).1
    have e3 := dropDocstrings_file hnl hq _ hsec' (uncomment code) hcode s.length [] (by rw [hs]; exact Nat.le_refl _)
    simp only [List.nil_append] at e1 e2 e3
    rw [e1, e2, ← hs] at *
    rw [e3]
    simp [fileCode, List.flatMap_map]
  rw [content_strip hnl _ (by rw [hcont]; exact hindent), hcont]

end

/-- A file with a comment and two docstrings. -/
def demoCode : Str := "import x  # why\ndef root():".toList
def demoSections : List Section :=
  [⟨"    ".toList, "The root.\n\n    More of it.".toList, "\n    # nothing\n    return f()\n\ndef f():".toList⟩, ⟨"\t".toList, "F".toList, "\n\treturn 1".toList⟩]

example : fileText demoCode demoSections =
    "import x  # why\ndef root():\n    \"\"\"The root.\n\n    More of it.\"\"\"\n    # nothing\n    return f()\n\ndef f():\n\t\"\"\"F\"\"\"\n\treturn 1".toList := by
  decide +kernel
example : fetchFile asciiSpace (fileText demoCode demoSections) = "import x\ndef root():\n    return f()\ndef f():\n\treturn 1".toList ∧
    content asciiSpace (fileCode demoCode demoSections) =
      ["import x".toList, "def root():".toList, "    return f()".toList, "def f():".toList, "\treturn 1".toList] := by decide +kernel
example : ∀ d ∈ demoSections, d.Ok asciiSpace := by
  intro d hd
  simp only [demoSections, List.mem_cons, List.not_mem_nil, or_false] at hd
  rcases hd with rfl | rfl <;> exact ⟨by decide +kernel, by unfold NoTriple; decide +kernel, by decide +kernel, by unfold NoTriple; decide +kernel, .inr ⟨_, rfl⟩⟩

/-- **C62, violated.**  A `#` in a string is taken for a comment: the rest of the line is cut off, and with it the closing
quote. -/
theorem C62_string_violated : fetchFile asciiSpace "c = \"#fff\"\nd = 1".toList = "c = \"\nd = 1".toList := by decide +kernel

/-- **C62, violated.**  A text in triple quotes on a line of its own is taken for a docstring, also where it is an
argument. -/
theorem C62_text_violated : fetchFile asciiSpace "f(\n  \"\"\"hi\"\"\"\n)".toList = "f(\n)".toList := by decide +kernel

end Verif.Pyscript
