import Verif.Console.Lines
/-! # C80: rewriting commands change only what they rewrite -/
namespace Verif.Console.Lines

/-! ## Specification -/

/-- What is written in place of the lines `region` of a node: the printed node, with the comments of those lines above it, what stood
before it in the first line and what stood after it in the last one. -/
def newText (sp : Char → Bool) (comments : List Str → List Str) (region : List Str) (n : Placed) : Str :=
  let b := lstrip sp ((region.headD []).take n.span.col)
  let a := strip sp ((region.getLastD []).drop n.span.endCol)
  indent sp (n.span.col - b.length) (b ++ joinNl (comments region ++ [n.text]) ++ a)

/-- `Rewritten k ls ns out`: in the lines `ls`, the first of which has the number `k`, the lines of each of the nodes `ns`, and no
others, are replaced by the text for that node. -/
inductive Rewritten (sp : Char → Bool) (comments : List Str → List Str) : Nat → List Str → List Placed → List Str → Prop
  | done {k ls} : Rewritten sp comments k ls [] ls
  | node {k pre region rest n ns out} : k + pre.length = n.span.line → n.span.line + region.length = n.span.endLine + 1 →
      Rewritten sp comments (n.span.endLine + 1) rest ns out →
      Rewritten sp comments k (pre ++ region ++ rest) (n :: ns) (pre ++ [newText sp comments region n] ++ out)

/-- The node is within the source. -/
def Valid (lines : List Str) (n : Placed) : Prop :=
  1 ≤ n.span.line ∧ n.span.line ≤ n.span.endLine ∧ n.span.endLine ≤ lines.length

/-! ## Lemmas -/

/-- Each ends before the next begins. -/
inductive Apart : Nat → List Placed → Prop
  | nil {k} : Apart k []
  | cons {k n l} : k < n.span.line → Apart n.span.endLine l → Apart k (n :: l)

theorem writeAll_cons (sp : Char → Bool) (cm : List Str → List Str) (lines : List Str) (n : Placed) (l : List Placed) :
    writeAll sp cm lines (n :: l) = writeNode sp cm (writeAll sp cm lines l) n := by
  simp [writeAll, List.foldl_append]

theorem replacement_region (sp : Char → Bool) (cm : List Str → List Str) (lines out : List Str) (n : Placed) (h : Valid lines n) :
    replacement sp cm (lines.take n.span.endLine ++ out) n =
      newText sp cm ((lines.take n.span.endLine).drop (n.span.line - 1)) n := by
  obtain ⟨h1, h2, h3⟩ := h
  have hlen : (lines.take n.span.endLine).length = n.span.endLine := by simp [h3]
  have hb : (lines.take n.span.endLine ++ out).getD (n.span.line - 1) [] =
      ((lines.take n.span.endLine).drop (n.span.line - 1)).headD [] := by
    rw [List.getD_eq_getElem?_getD, List.getElem?_append_left (by omega), List.headD_eq_head?_getD, List.head?_drop]
  have ha : (lines.take n.span.endLine ++ out).getD (n.span.endLine - 1) [] =
      ((lines.take n.span.endLine).drop (n.span.line - 1)).getLastD [] := by
    rw [List.getD_eq_getElem?_getD, List.getElem?_append_left (by omega), List.getLastD_eq_getLast?, List.getLast?_drop]
    rw [if_neg (by omega), List.getLast?_eq_getElem?, hlen]
  have hr : (lines.take n.span.endLine ++ out).take n.span.endLine = lines.take n.span.endLine := by
    rw [List.take_append_of_le_length (by omega), List.take_of_length_le (by omega)]
  simp only [replacement, newText, before, after, hb, ha, hr]

theorem writeAll_rewritten (sp : Char → Bool) (cm : List Str → List Str) (lines : List Str) (ns : List Placed) :
    ∀ k, k ≤ lines.length → Apart k ns → (∀ n ∈ ns, Valid lines n) →
      ∃ out, writeAll sp cm lines ns = lines.take k ++ out ∧ Rewritten sp cm (k + 1) (lines.drop k) ns out := by
  induction ns with
  | nil => intro k hk _ _; exact ⟨lines.drop k, by simp [writeAll], .done⟩
  | cons n l ih =>
    intro k hk ha hv
    obtain ⟨hkn, hl⟩ : k < n.span.line ∧ Apart n.span.endLine l := by cases ha; exact ⟨‹_›, ‹_›⟩
    have hn := hv n (by simp)
    have ⟨h1, h2, h3⟩ := hn
    obtain ⟨out, hw, hr⟩ := ih n.span.endLine h3 hl (fun m hm => hv m (by simp [hm]))
    have hlen : (lines.take n.span.endLine).length = n.span.endLine := by simp [h3]
    have hrep := replacement_region sp cm lines out n hn
    refine ⟨(lines.drop k).take (n.span.line - 1 - k) ++ [newText sp cm ((lines.take n.span.endLine).drop (n.span.line - 1)) n] ++ out,
      ?_, ?_⟩
    · rw [writeAll_cons, hw, writeNode, hrep]
      have e1 : (lines.take n.span.endLine ++ out).take (n.span.line - 1) = lines.take (n.span.line - 1) := by
        rw [List.take_append_of_le_length (by omega), List.take_take, Nat.min_eq_left (by omega)]
      have e2 : (lines.take n.span.endLine ++ out).drop n.span.endLine = out := by
        rw [List.drop_append_of_le_length (by omega), List.drop_of_length_le (by omega)]; rfl
      have e3 : lines.take (n.span.line - 1) = lines.take k ++ (lines.drop k).take (n.span.line - 1 - k) := by
        rw [← List.take_add]; congr 1; omega
      rw [e1, e2, e3]
      simp
    · have e4 : lines.drop k = (lines.drop k).take (n.span.line - 1 - k) ++
          (lines.take n.span.endLine).drop (n.span.line - 1) ++ lines.drop n.span.endLine := by
        have a1 : lines.drop k = (lines.drop k).take (n.span.line - 1 - k) ++ (lines.drop k).drop (n.span.line - 1 - k) :=
          (List.take_append_drop _ _).symm
        have a2 : (lines.drop k).drop (n.span.line - 1 - k) = lines.drop (n.span.line - 1) := by
          rw [List.drop_drop]; congr 1; omega
        have a3 : lines.drop (n.span.line - 1) = (lines.take n.span.endLine).drop (n.span.line - 1) ++ lines.drop n.span.endLine := by
          conv => lhs; rw [← List.take_append_drop n.span.endLine lines]
          rw [List.drop_append_of_le_length (by omega)]
        rw [a2, a3] at a1
        rw [List.append_assoc]; exact a1
      have hR : Rewritten sp cm (k + 1) ((lines.drop k).take (n.span.line - 1 - k) ++
          (lines.take n.span.endLine).drop (n.span.line - 1) ++ lines.drop n.span.endLine) (n :: l) _ :=
        .node (by simp; omega) (by simp; omega) hr
      rw [← e4] at hR
      exact hR

theorem insert_mem (n m : Placed) (l : List Placed) : m ∈ insertByLine n l ↔ m = n ∨ m ∈ l := by
  induction l with
  | nil => simp [insertByLine]
  | cons a l ih =>
    unfold insertByLine
    split
    · simp
    · simp only [List.mem_cons, ih]
      constructor
      · rintro (h | h | h) <;> simp [h]
      · rintro (h | h | h) <;> simp [h]

theorem sort_mem (m : Placed) (l : List Placed) : m ∈ sortByLine l ↔ m ∈ l := by
  induction l with
  | nil => simp [sortByLine]
  | cons a l ih => simp [sortByLine, insert_mem, ih]

theorem insert_sorted (n : Placed) (l : List Placed) (h : l.Pairwise (fun a b => a.span.line ≤ b.span.line)) :
    (insertByLine n l).Pairwise (fun a b => a.span.line ≤ b.span.line) := by
  induction l with
  | nil => simp [insertByLine]
  | cons a l ih =>
    rw [List.pairwise_cons] at h
    unfold insertByLine
    split
    next hle =>
      rw [List.pairwise_cons, List.pairwise_cons]
      refine ⟨?_, h⟩
      intro b hb
      rcases List.mem_cons.1 hb with rfl | hb
      · exact hle
      · have := h.1 b hb; omega
    next hle =>
      rw [List.pairwise_cons]
      refine ⟨?_, ih h.2⟩
      intro b hb
      rcases (insert_mem n b l).1 hb with rfl | hb
      · omega
      · exact h.1 b hb

theorem sort_sorted (l : List Placed) : (sortByLine l).Pairwise (fun a b => a.span.line ≤ b.span.line) := by
  induction l with
  | nil => simp [sortByLine]
  | cons a l ih => exact insert_sorted a _ ih

theorem outer_sub (cur : Placed) (l : List Placed) : ∀ n ∈ outer cur l, n ∈ l := by
  induction l generalizing cur with
  | nil => simp [outer]
  | cons a l ih =>
    intro n hn
    unfold outer at hn
    split at hn
    · rcases List.mem_cons.1 hn with rfl | hn
      · simp
      · simp [ih a n hn]
    · simp [ih cur n hn]

theorem outer_apart (cur : Placed) (l : List Placed) : Apart cur.span.endLine (outer cur l) := by
  induction l generalizing cur with
  | nil => exact .nil
  | cons a l ih =>
    unfold outer
    split
    next h => exact .cons h (ih a)
    · exact ih cur

theorem outermost_sub (ns : List Placed) : ∀ n ∈ outermost ns, n ∈ ns := by
  intro n hn
  unfold outermost at hn
  split at hn
  · simp at hn
  next a l hs =>
    rw [← sort_mem, hs]
    rcases List.mem_cons.1 hn with rfl | hn
    · simp
    · simp [outer_sub a l n hn]

theorem outermost_apart (ns : List Placed) (h : ∀ n ∈ ns, 1 ≤ n.span.line) : Apart 0 (outermost ns) := by
  unfold outermost
  split
  · exact .nil
  next a l hs =>
    refine .cons ?_ (outer_apart a l)
    have := h a (by rw [← sort_mem, hs]; simp)
    omega

/-- Every node is one that is kept, or begins on a line of one that comes before it. -/
theorem outer_cover (cur : Placed) (l : List Placed) (h : (cur :: l).Pairwise (fun a b => a.span.line ≤ b.span.line)) :
    ∀ n ∈ l, n ∈ outer cur l ∨
      ∃ o ∈ cur :: outer cur l, o.span.line ≤ n.span.line ∧ n.span.line ≤ o.span.endLine ∧ List.Sublist [o, n] (cur :: l) := by
  induction l generalizing cur with
  | nil => simp
  | cons a l ih =>
    rw [List.pairwise_cons] at h
    intro n hn
    unfold outer
    split
    next hlt =>
      rcases List.mem_cons.1 hn with rfl | hn
      · left; simp
      · rcases ih a h.2 n hn with h' | ⟨o, ho, h1, h2, h3⟩
        · left; simp [h']
        · right; exact ⟨o, List.mem_cons_of_mem _ ho, h1, h2, h3.cons _⟩
    next hlt =>
      rcases List.mem_cons.1 hn with rfl | hn
      · right
        refine ⟨cur, by simp, h.1 n (by simp), by omega, ?_⟩
        exact List.Sublist.cons_cons _ (List.Sublist.cons_cons _ (List.nil_sublist _))
      · have hp : (cur :: l).Pairwise (fun a b => a.span.line ≤ b.span.line) := by
          rw [List.pairwise_cons]
          exact ⟨fun b hb => h.1 b (by simp [hb]), (List.pairwise_cons.1 h.2).2⟩
        rcases ih cur hp n hn with h' | ⟨o, ho, h1, h2, h3⟩
        · exact .inl h'
        · right
          refine ⟨o, ho, h1, h2, h3.trans ?_⟩
          exact List.Sublist.cons_cons _ (List.sublist_cons_self _ _)

theorem allClosest_mem (cs : List Change) (ns : List Placed) (h : allClosest cs = some ns) :
    ∀ n, n ∈ ns ↔ ∃ c ∈ cs, closest c = some n := by
  induction cs generalizing ns with
  | nil => simp [allClosest] at h; subst h; simp
  | cons c cs ih =>
    unfold allClosest at h
    split at h
    next n' ns' hc hcs =>
      simp only [Option.some.injEq] at h
      subst h
      intro n
      simp only [List.mem_cons, ih ns' hcs]
      constructor
      · rintro (rfl | ⟨c', h1, h2⟩)
        · exact ⟨c, .inl rfl, hc⟩
        · exact ⟨c', .inr h1, h2⟩
      · rintro ⟨c', rfl | h1, h2⟩
        · rw [hc] at h2; simp only [Option.some.injEq] at h2; exact .inl h2.symm
        · exact .inr ⟨c', h1, h2⟩
    · simp at h

theorem allClosest_each (cs : List Change) (ns : List Placed) (h : allClosest cs = some ns) : ∀ c ∈ cs, ∃ n, closest c = some n := by
  induction cs generalizing ns with
  | nil => simp
  | cons c cs ih =>
    unfold allClosest at h
    split at h
    next n' ns' hc hcs =>
      intro c' hc'
      rcases List.mem_cons.1 hc' with rfl | hc'
      · exact ⟨n', hc⟩
      · exact ih ns' hcs c' hc'
    · simp at h

theorem allClosest_sublist (cs : List Change) (ns : List Placed) (h : allClosest cs = some ns) (o n : Placed)
    (hs : List.Sublist [o, n] ns) : ∃ a b, List.Sublist [a, b] cs ∧ closest a = some o ∧ closest b = some n := by
  induction cs generalizing ns with
  | nil => simp [allClosest] at h; subst h; simp at hs
  | cons c cs ih =>
    have hmem := allClosest_mem cs
    unfold allClosest at h
    split at h
    next n' ns' hc hcs =>
      simp only [Option.some.injEq] at h
      subst h
      cases hs with
      | cons _ hs =>
        obtain ⟨a, b, h1, h2, h3⟩ := ih ns' hcs hs
        exact ⟨a, b, h1.cons _, h2, h3⟩
      | cons_cons _ hs =>
        have hn : n ∈ ns' := by simpa using hs
        obtain ⟨b, hb, hbn⟩ := (hmem ns' hcs n).1 hn
        exact ⟨c, b, List.Sublist.cons_cons _ (by simpa using hb), hc, hbn⟩
    · simp at h

theorem insert_filter (n : Placed) (l : List Placed) (k : Nat) :
    (insertByLine n l).filter (fun a => a.span.line = k) = (n :: l).filter (fun a => a.span.line = k) := by
  induction l with
  | nil => rfl
  | cons a l ih =>
    unfold insertByLine
    split
    · rfl
    next hle =>
      simp only [List.filter_cons] at ih ⊢
      rw [ih]
      by_cases h1 : a.span.line = k
      · have h2 : ¬ n.span.line = k := by omega
        simp [h1, h2]
      · simp [h1]

theorem sort_filter (l : List Placed) (k : Nat) :
    (sortByLine l).filter (fun a => a.span.line = k) = l.filter (fun a => a.span.line = k) := by
  induction l with
  | nil => rfl
  | cons a l ih => rw [sortByLine, insert_filter, List.filter_cons, List.filter_cons, ih]

/-- The sort is stable. -/
theorem sort_stable (o n : Placed) (l : List Placed) (h : List.Sublist [o, n] (sortByLine l)) (he : o.span.line = n.span.line) :
    List.Sublist [o, n] l := by
  have h1 := h.filter (fun a => decide (a.span.line = n.span.line))
  rw [sort_filter] at h1
  simp only [List.filter_cons, he, decide_true, if_true, List.filter_nil] at h1
  exact h1.trans List.filter_sublist

theorem outermost_cover (ns : List Placed) : ∀ n ∈ ns, n ∈ outermost ns ∨
    ∃ o ∈ outermost ns, o.span.line ≤ n.span.line ∧ n.span.line ≤ o.span.endLine ∧
      (o.span.line < n.span.line ∨ List.Sublist [o, n] ns) := by
  intro n hn
  rw [← sort_mem] at hn
  have hs := sort_sorted ns
  have hst := sort_stable
  unfold outermost
  cases hl : sortByLine ns with
  | nil => simp [hl] at hn
  | cons a l =>
    rw [hl] at hn hs
    rcases List.mem_cons.1 hn with rfl | hn
    · left; simp
    · rcases outer_cover a l hs n hn with h | ⟨o, ho, h1, h2, h3⟩
      · left; simp [h]
      · right
        refine ⟨o, ho, h1, h2, ?_⟩
        rcases Nat.lt_or_eq_of_le h1 with h | h
        · exact .inl h
        · exact .inr (hst o n ns (hl ▸ h3) h)

/-! ## C80 -/

/-- C80: in the new source exactly the lines of some nodes are replaced, each by the text for that node, which depends on those
lines alone; every other line stays as it was and where it was. The nodes are changed calls or nodes around them, and each changed
call is in one of them or in a node that begins on a line of one of them. -/
theorem C80_lines (sp : Char → Bool) (comments : List Str → List Str) (lines : List Str) (cs : List Change) (out : List Str)
    (hv : ∀ c ∈ cs, ∀ n, closest c = some n → Valid lines n) (h : rewrite sp comments lines cs = some out) :
    ∃ ns, Rewritten sp comments 1 lines ns out ∧ (∀ n ∈ ns, ∃ c ∈ cs, closest c = some n) ∧
      ∀ c ∈ cs, ∃ n, closest c = some n ∧ ∃ o ∈ ns, o = n ∨ (o.span.line ≤ n.span.line ∧ n.span.line ≤ o.span.endLine) := by
  unfold rewrite at h
  cases hc : allClosest cs with
  | none => simp [hc] at h
  | some ms =>
    simp only [hc, Option.map_some, Option.some.injEq] at h
    have hm := allClosest_mem cs ms hc
    have hvm : ∀ n ∈ ms, Valid lines n := by
      intro n hn
      obtain ⟨c, h1, h2⟩ := (hm n).1 hn
      exact hv c h1 n h2
    have hsub := outermost_sub ms
    refine ⟨outermost ms, ?_, fun n hn => (hm n).1 (hsub n hn), ?_⟩
    · obtain ⟨out', h1, h2⟩ := writeAll_rewritten sp comments lines (outermost ms) 0 (Nat.zero_le _)
        (outermost_apart ms (fun n hn => (hvm n hn).1)) (fun n hn => hvm n (hsub n hn))
      simp only [List.take_zero, List.nil_append, List.drop_zero] at h1 h2
      rw [← h, h1]
      exact h2
    · intro c hcm
      obtain ⟨n, hn⟩ := allClosest_each cs ms hc c hcm
      refine ⟨n, hn, ?_⟩
      rcases outermost_cover ms n ((hm n).2 ⟨c, hcm, hn⟩) with h1 | ⟨o, ho, h1, h2, _⟩
      · exact ⟨n, h1, .inl rfl⟩
      · exact ⟨o, ho, .inr ⟨h1, h2⟩⟩

/-- C80 (partial): every changed call is rewritten, as (part of) one of the nodes replaced, if of the nodes chosen for two changes,
the second of which begins on a line of the first, the second is always inside the first. Missing: programs with unrelated changed
calls that share a line, see `C80_same_line_violated`. -/
theorem C80_each_partial (sp : Char → Bool) (comments : List Str → List Str) (lines : List Str) (cs : List Change) (out : List Str)
    (inside : Placed → Placed → Prop) (hr : ∀ n, inside n n)
    (hi : ∀ a ∈ cs, ∀ b ∈ cs, ∀ n m, closest a = some n → closest b = some m → n.span.line < m.span.line →
      m.span.line ≤ n.span.endLine → inside m n)
    (hj : ∀ a b n m, List.Sublist [a, b] cs → closest a = some n → closest b = some m → n.span.line = m.span.line → inside m n)
    (hv : ∀ c ∈ cs, ∀ n, closest c = some n → Valid lines n) (h : rewrite sp comments lines cs = some out) :
    ∃ ns, Rewritten sp comments 1 lines ns out ∧ ∀ c ∈ cs, ∃ n, closest c = some n ∧ ∃ o ∈ ns, inside n o := by
  unfold rewrite at h
  cases hc : allClosest cs with
  | none => simp [hc] at h
  | some ms =>
    simp only [hc, Option.map_some, Option.some.injEq] at h
    have hm := allClosest_mem cs ms hc
    have hvm : ∀ n ∈ ms, Valid lines n := by
      intro n hn
      obtain ⟨c, h1, h2⟩ := (hm n).1 hn
      exact hv c h1 n h2
    have hsub := outermost_sub ms
    refine ⟨outermost ms, ?_, ?_⟩
    · obtain ⟨out', h1, h2⟩ := writeAll_rewritten sp comments lines (outermost ms) 0 (Nat.zero_le _)
        (outermost_apart ms (fun n hn => (hvm n hn).1)) (fun n hn => hvm n (hsub n hn))
      simp only [List.take_zero, List.nil_append, List.drop_zero] at h1 h2
      rw [← h, h1]
      exact h2
    · intro c hcm
      obtain ⟨n, hn⟩ := allClosest_each cs ms hc c hcm
      refine ⟨n, hn, ?_⟩
      rcases outermost_cover ms n ((hm n).2 ⟨c, hcm, hn⟩) with h1 | ⟨o, ho, h1, h2, h3⟩
      · exact ⟨n, h1, hr n⟩
      · refine ⟨o, ho, ?_⟩
        rcases Nat.lt_or_eq_of_le h1 with hlt | heq
        · obtain ⟨a, ha, han⟩ := (hm o).1 (hsub o ho)
          exact hi a ha c hcm o n han hn hlt h2
        · obtain ⟨a, b, hab, ha, hb⟩ := allClosest_sublist cs ms hc o n (by rcases h3 with h3 | h3; · omega
                                                                            · exact h3)
          exact hj a b o n hab ha hb heq

/-- C80: the node chosen for a changed call is the call or the highest node around it that begins on the same line and is reached
without passing a function or class definition or a node without a place; there is one whenever the outermost node has no place
(it is the module). -/
theorem C80_closest (c : Change) (hm : ∃ n ∈ c.parents, n.span = none)
    (ha : ∀ n ∈ c.parents, ∀ s, n.span = some s → s.line ≤ c.node.span.line) :
    ∃ below stop above n, c.parents = below ++ stop :: above ∧ closest c = some n ∧
      (∀ m ∈ below, m.isDef = false ∧ ∃ s, m.span = some s ∧ s.line = c.node.span.line) ∧
      (stop.span = none ∨ stop.isDef = true ∨ ∃ s, stop.span = some s ∧ s.line < c.node.span.line) ∧
      some n = (below.getLast?.getD ⟨some c.node.span, false, c.node.text⟩).placed ∧ n.span.line = c.node.span.line := by
  obtain ⟨⟨sp, text⟩, parents⟩ := c
  simp only at hm ha ⊢
  suffices H : ∀ (ps : List Node) (cur : Node) (s0 : Span), cur.span = some s0 → s0.line = sp.line →
      (∃ n ∈ ps, n.span = none) → (∀ n ∈ ps, ∀ s, n.span = some s → s.line ≤ sp.line) →
      ∃ below stop above n, ps = below ++ stop :: above ∧ (climb sp.line cur ps).bind Node.placed = some n ∧
        (∀ m ∈ below, m.isDef = false ∧ ∃ s, m.span = some s ∧ s.line = sp.line) ∧
        (stop.span = none ∨ stop.isDef = true ∨ ∃ s, stop.span = some s ∧ s.line < sp.line) ∧
        some n = (below.getLast?.getD cur).placed ∧ n.span.line = sp.line by
    exact H parents ⟨some sp, false, text⟩ sp rfl rfl hm ha
  intro ps
  induction ps with
  | nil => intro cur s0 _ _ hm; simp at hm
  | cons p ps ih =>
    intro cur s0 hc hl hm ha
    unfold climb
    by_cases hs : stops sp.line p = true
    · rw [if_pos hs]
      refine ⟨[], p, ps, ⟨s0, cur.text⟩, rfl, by simp [Node.placed, hc], by simp, ?_, by simp [Node.placed, hc], hl⟩
      unfold stops at hs
      split at hs
      next h => exact .inl h
      next s h =>
        simp only [Bool.or_eq_true, decide_eq_true_eq] at hs
        rcases hs with hs | hs
        · exact .inr (.inr ⟨s, h, hs⟩)
        · exact .inr (.inl hs)
    · rw [if_neg hs]
      unfold stops at hs
      split at hs
      · simp at hs
      next s h =>
        simp only [Bool.or_eq_true, decide_eq_true_eq, not_or] at hs
        have hle := ha p (by simp) s h
        have hline : s.line = sp.line := by omega
        have hm' : ∃ n ∈ ps, n.span = none := by
          obtain ⟨n, hn, hnn⟩ := hm
          rcases List.mem_cons.1 hn with rfl | hn
          · rw [h] at hnn; simp at hnn
          · exact ⟨n, hn, hnn⟩
        obtain ⟨below, stop, above, n, h1, h2, h3, h4, h5, h6⟩ := ih p s h hline hm' (fun n hn => ha n (by simp [hn]))
        refine ⟨p :: below, stop, above, n, by simp [h1], h2, ?_, h4, ?_, h6⟩
        · intro m hm
          rcases List.mem_cons.1 hm with rfl | hm
          · exact ⟨by simpa using hs.2, s, h, hline⟩
          · exact h3 m hm
        · rw [h5]
          cases below with
          | nil => rfl
          | cons b bs => simp [List.getLast?_cons]

/-- The number of bytes of a text (UTF-8), in which columns are counted. -/
def bytes (s : Str) : Nat := (s.map Char.utf8Size).sum

theorem bytes_ascii (s : Str) (h : ∀ c ∈ s, c.utf8Size = 1) : bytes s = s.length := by
  unfold bytes
  induction s with
  | nil => rfl
  | cons c s ih =>
    simp only [List.map_cons, List.sum_cons, List.length_cons]
    rw [ih (fun c hc => h c (by simp [hc])), h c (by simp)]
    omega

theorem splitNl_one (s : Str) (h : '\n' ∉ s) : splitNl s = [s] := by
  induction s with
  | nil => rfl
  | cons c s ih =>
    simp only [List.mem_cons, not_or] at h
    unfold splitNl
    rw [if_neg (fun hc => h.1 hc.symm), ih h.2]

theorem dropWhile_all (sp : Char → Bool) (l r : Str) (h : ∀ c ∈ l, sp c = true) : (l ++ r).dropWhile sp = r.dropWhile sp := by
  induction l with
  | nil => rfl
  | cons c l ih =>
    simp only [List.cons_append]
    rw [List.dropWhile_cons_of_pos (h c (by simp))]
    exact ih (fun c hc => h c (by simp [hc]))

theorem splitNl_clean (s : Str) : ∀ l ∈ splitNl s, '\n' ∉ l := by
  induction s with
  | nil => simp [splitNl]
  | cons c s ih =>
    unfold splitNl
    split
    · intro l hl
      rcases List.mem_cons.1 hl with rfl | hl
      · simp
      · exact ih l hl
    next hc =>
      split
      · simp [Ne.symm hc]
      next w ws hw =>
        rw [hw] at ih
        intro l hl
        rcases List.mem_cons.1 hl with rfl | hl
        · simp only [List.mem_cons, not_or]
          exact ⟨fun h => hc h.symm, ih w (by simp)⟩
        · exact ih l (by simp [hl])

theorem splitNl_ne (s : Str) : splitNl s ≠ [] := by
  cases s with
  | nil => simp [splitNl]
  | cons c s =>
    unfold splitNl
    split
    · simp
    · split <;> simp

theorem splitNl_append (l s : Str) (h : '\n' ∉ l) : splitNl (l ++ '\n' :: s) = l :: splitNl s := by
  induction l with
  | nil => simp [splitNl]
  | cons c l ih =>
    simp only [List.mem_cons, not_or] at h
    simp only [List.cons_append]
    rw [splitNl, if_neg (fun hc => h.1 hc.symm), ih h.2]

theorem splitNl_join (ls : List Str) (hne : ls ≠ []) (h : ∀ l ∈ ls, '\n' ∉ l) : splitNl (joinNl ls) = ls := by
  induction ls with
  | nil => exact absurd rfl hne
  | cons l ls ih =>
    cases ls with
    | nil => exact splitNl_one l (h l (by simp))
    | cons m ls =>
      simp only [joinNl]
      rw [splitNl_append _ _ (h l (by simp)), ih (by simp) (fun x hx => h x (by simp [hx]))]

/-- C80 (partial): what stands before and after a rewritten node on its lines stays, but for white space at the end: if the first
line is indented by `k` spaces, has `b` before the node, and the last line has `a` after it, then the new lines are those of `b`, the
comments, the printed node and `a`, each indented by `k` spaces unless it is blank. Missing: lines with other than ASCII characters
before the beginning or the end of the node, and indents with tabs, which are refuted below. -/
theorem C80_around_partial (sp : Char → Bool) (comments : List Str → List Str) (region : List Str) (n : Placed) (k : Nat)
    (b x y a : Str) (hsp : sp ' ' = true)
    (hfirst : region.headD [] = List.replicate k ' ' ++ b ++ x) (hlast : region.getLastD [] = y ++ a)
    (hcol : n.span.col = bytes (List.replicate k ' ' ++ b)) (hend : n.span.endCol = bytes y)
    (hb : ∀ c ∈ b, c.utf8Size = 1) (hy : ∀ c ∈ y, c.utf8Size = 1) (hb' : b.head?.all (fun c => !sp c) = true) :
    splitNl (newText sp comments region n) =
      (splitNl (b ++ joinNl (comments region ++ [n.text]) ++ strip sp a)).map
        (fun l => if l.all sp then l else List.replicate k ' ' ++ l) := by
  have h1 : n.span.col = (List.replicate k ' ' ++ b).length := by
    rw [hcol]; apply bytes_ascii
    intro c hc
    rcases List.mem_append.1 hc with hc | hc
    · rw [List.eq_of_mem_replicate hc]; decide
    · exact hb c hc
  have h2 : n.span.endCol = y.length := by rw [hend]; exact bytes_ascii y hy
  have hbef : lstrip sp ((region.headD []).take n.span.col) = b := by
    rw [hfirst, h1, List.take_left']
    · unfold lstrip
      rw [dropWhile_all sp _ _ (by intro c hc; rw [List.eq_of_mem_replicate hc]; exact hsp)]
      cases b with
      | nil => rfl
      | cons c b => simp at hb'; rw [List.dropWhile_cons_of_neg (by simp [hb'])]
    · rfl
  have haft : strip sp ((region.getLastD []).drop n.span.endCol) = strip sp a := by
    rw [hlast, h2, List.drop_left']; rfl
  have hk : n.span.col - b.length = k := by rw [h1]; simp
  simp only [newText, hbef, haft, hk, indent]
  apply splitNl_join
  · simp [splitNl_ne]
  · intro l hl
    rw [List.mem_map] at hl
    obtain ⟨l', hl', rfl⟩ := hl
    have := splitNl_clean _ l' hl'
    split
    · exact this
    · simp only [List.mem_append, not_or]
      refine ⟨?_, this⟩
      intro hm
      exact absurd (List.eq_of_mem_replicate hm) (by decide)

/-- C80 (partial): in particular, for a node printed on one line and lines without comments the new line is the indent, `b`, the
printed node and `a`. -/
theorem C80_one_line_partial (sp : Char → Bool) (comments : List Str → List Str) (region : List Str) (n : Placed) (k : Nat)
    (b x y a : Str) (hsp : sp ' ' = true)
    (hfirst : region.headD [] = List.replicate k ' ' ++ b ++ x) (hlast : region.getLastD [] = y ++ a)
    (hcol : n.span.col = bytes (List.replicate k ' ' ++ b)) (hend : n.span.endCol = bytes y)
    (hb : ∀ c ∈ b, c.utf8Size = 1) (hy : ∀ c ∈ y, c.utf8Size = 1) (hb' : b.head?.all (fun c => !sp c) = true)
    (hc : comments region = []) (hnl : '\n' ∉ b ∧ '\n' ∉ n.text ∧ '\n' ∉ a) (ht : n.text.all sp = false) :
    splitNl (newText sp comments region n) = [List.replicate k ' ' ++ b ++ n.text ++ strip sp a] := by
  rw [C80_around_partial sp comments region n k b x y a hsp hfirst hlast hcol hend hb hy hb']
  have hstrip : '\n' ∉ strip sp a := by
    intro hmem
    unfold strip at hmem
    rw [List.mem_reverse] at hmem
    have := (List.dropWhile_sublist _).mem hmem
    rw [List.mem_reverse] at this
    exact hnl.2.2 ((List.dropWhile_sublist _).mem this)
  have hsplit : splitNl (b ++ n.text ++ strip sp a) = [b ++ n.text ++ strip sp a] := by
    apply splitNl_one
    simp only [List.mem_append, not_or]
    exact ⟨⟨hnl.1, hnl.2.1⟩, hstrip⟩
  have hall : (b ++ n.text ++ strip sp a).all sp = false := by
    simp [List.all_append, ht]
  simp only [hc, List.nil_append, joinNl, hsplit, List.map_cons, List.map_nil, hall]
  simp

/-! ## Examples and refutations -/

/-- White space (the part that matters here). -/
def space (c : Char) : Bool := c == ' ' || c == '\t'

/-- The module around everything. -/
def root : Node := ⟨none, false, []⟩

/-- A source of five lines; the second and third are a call with a key, in a larger call. -/
def exLines : List Str := ["def f():", "    return html.div(", "        html.p({}, key=1), 2", "    )", "f()"].map String.toList

/-- The change in it: the call, then the call around it, the return statement, the function, the module. -/
def exChange : Change where
  node := ⟨⟨3, 3, 8, 25⟩, "html.p({'key': 1})".toList⟩
  parents := [⟨some ⟨2, 4, 11, 5⟩, false, []⟩, ⟨some ⟨2, 4, 4, 5⟩, false, []⟩, ⟨some ⟨1, 4, 0, 5⟩, true, []⟩, root]

example : (∀ c ∈ [exChange], ∀ n, closest c = some n → Valid exLines n) ∧
    rewrite space (fun _ => []) exLines [exChange] =
      some (["def f():", "    return html.div(", "        html.p({'key': 1}), 2", "    )", "f()"].map String.toList) := by
  refine ⟨?_, by decide +kernel⟩
  intro c hc n hn
  simp only [List.mem_singleton] at hc
  subst hc
  have : closest exChange = some exChange.node := by decide +kernel
  rw [this] at hn
  simp only [Option.some.injEq] at hn
  subst hn
  exact ⟨by decide, by decide, by decide⟩

example : (∃ n ∈ exChange.parents, n.span = none) ∧
    (∀ n ∈ exChange.parents, ∀ s, n.span = some s → s.line ≤ exChange.node.span.line) := by
  refine ⟨⟨root, by decide, rfl⟩, by decide⟩

/-- `C80_each_partial` applies to a changed call with a changed call inside it. -/
example : ∃ out ns, Rewritten space (fun _ => []) 1 exLines ns out ∧ ∀ c ∈ [⟨⟨⟨2, 4, 11, 5⟩, []⟩, exChange.parents.drop 1⟩, exChange],
    ∃ n, closest c = some n ∧ ∃ o ∈ ns, o.span.line ≤ n.span.line ∧ n.span.endLine ≤ o.span.endLine := by
  refine ⟨(rewrite space (fun _ => []) exLines [⟨⟨⟨2, 4, 11, 5⟩, []⟩, exChange.parents.drop 1⟩, exChange]).getD [], ?_⟩
  have e1 : closest ⟨⟨⟨2, 4, 11, 5⟩, []⟩, exChange.parents.drop 1⟩ = some ⟨⟨2, 4, 4, 5⟩, []⟩ := by decide +kernel
  have e2 : closest exChange = some exChange.node := by decide +kernel
  have e3 : exChange.node = ⟨⟨3, 3, 8, 25⟩, "html.p({'key': 1})".toList⟩ := rfl
  refine C80_each_partial space (fun _ => []) exLines _ _ (fun m n => n.span.line ≤ m.span.line ∧ m.span.endLine ≤ n.span.endLine)
    (fun n => ⟨Nat.le_refl _, Nat.le_refl _⟩) ?_ ?_ ?_ ?_
  · intro a ha b hb n m hn hm
    simp only [List.mem_cons, List.not_mem_nil, or_false] at ha hb
    rcases ha with rfl | rfl <;> rcases hb with rfl | rfl <;>
      simp only [e1, e2, Option.some.injEq] at hn hm <;> subst hn <;> subst hm <;> simp [e3]
  · intro a b n m hs hn hm
    have ha := hs.mem (a := a) (by simp)
    have hb := hs.mem (a := b) (by simp)
    simp only [List.mem_cons, List.not_mem_nil, or_false] at ha hb
    rcases ha with rfl | rfl <;> rcases hb with rfl | rfl <;>
      simp only [e1, e2, Option.some.injEq] at hn hm <;> subst hn <;> subst hm <;> simp [e3]
  · intro c hc n hn
    simp only [List.mem_cons, List.not_mem_nil, or_false] at hc
    rcases hc with rfl | rfl <;> simp only [e1, e2, Option.some.injEq] at hn <;> subst hn <;>
      exact ⟨by decide, by decide, by decide⟩
  · have : (rewrite space (fun _ => []) exLines [⟨⟨⟨2, 4, 11, 5⟩, []⟩, exChange.parents.drop 1⟩, exChange]).isSome = true := by
      decide +kernel
    obtain ⟨o, ho⟩ := Option.isSome_iff_exists.1 this
    rw [ho]; rfl

/-- The hypotheses of `C80_around_partial` and `C80_one_line_partial` hold of it. -/
example : splitNl (newText space (fun _ => []) ["        html.p({}, key=1), 2".toList] exChange.node) =
    [List.replicate 8 ' ' ++ [] ++ "html.p({'key': 1})".toList ++ strip space ", 2".toList] :=
  C80_one_line_partial space (fun _ => []) _ exChange.node 8 [] "html.p({}, key=1), 2".toList "        html.p({}, key=1)".toList
    ", 2".toList rfl (by decide +kernel) (by decide +kernel) (by decide +kernel) (by decide +kernel) (by decide) (by decide +kernel)
    rfl rfl (by decide +kernel) (by decide +kernel)

/-- C80 is violated: of two changed calls in separate statements on one line only the first is rewritten. -/
theorem C80_same_line_violated :
    rewrite space (fun _ => []) ["html.p({}, key=1); html.b({}, key=2)".toList]
      [⟨⟨⟨1, 1, 0, 17⟩, "html.p({'key': 1})".toList⟩, [⟨some ⟨1, 1, 0, 17⟩, false, "html.p({'key': 1})".toList⟩, root]⟩,
       ⟨⟨⟨1, 1, 19, 36⟩, "html.b({'key': 2})".toList⟩, [⟨some ⟨1, 1, 19, 36⟩, false, "html.b({'key': 2})".toList⟩, root]⟩] =
    some ["html.p({'key': 1}); html.b({}, key=2)".toList] := by decide +kernel

/-- The place of a changed call in a larger one that begins on the line before. -/
def inner (s : Span) (text : String) : Change :=
  ⟨⟨s, text.toList⟩, [⟨some ⟨1, 3, 0, 1⟩, false, []⟩, root]⟩

/-- C80 is violated: columns are counted in bytes but used to count characters, so after an accented letter inside the call the
comma that follows is lost, and the new source is not a program. -/
theorem C80_bytes_violated :
    rewrite space (fun _ => []) (["html.div(", "    html.p({'a': 'é'}, key=1), 2", ")"].map String.toList)
      [inner ⟨2, 2, 4, 4 + bytes "html.p({'a': 'é'}, key=1)".toList⟩ "html.p({'a': 'é', 'key': 1})"] =
    some (["html.div(", "    html.p({'a': 'é', 'key': 1})2", ")"].map String.toList) := by decide +kernel

/-- C80 is violated: a tab before the call becomes a space. -/
theorem C80_tabs_violated :
    rewrite space (fun _ => []) (["html.div(", "\thtml.p({}, key=1)", ")"].map String.toList)
      [inner ⟨2, 2, 1, 18⟩ "html.p({'key': 1})"] =
    some (["html.div(", " html.p({'key': 1})", ")"].map String.toList) := by decide +kernel

/-- C80 is violated: a comment at the end of the line is written twice. -/
theorem C80_comment_violated :
    rewrite space (fun _ => ["# c".toList]) (["html.div(", "  html.p({}, key=1)  # c", ")"].map String.toList)
      [inner ⟨2, 2, 2, 19⟩ "html.p({'key': 1})"] =
    some (["html.div(", "  # c\n  html.p({'key': 1})# c", ")"].map String.toList) := by decide +kernel

/-! ### Cases that meet the hypotheses -/

example := C80_closest exChange (by decide +kernel) (by decide +kernel)

end Verif.Console.Lines
