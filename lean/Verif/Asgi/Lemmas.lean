import Verif.Asgi.Spec
/-! # Lemmas about patterns and dicts -/
namespace Verif.Asgi
open Verif.Markup (splitOn put get)

theorem matchText_some {p s r : Str} (h : matchText p s = some r) : ∃ q, s = q ++ r ∧ Stands p q := by
  induction p generalizing s with
  | nil => simp only [matchText, Option.some.injEq] at h; exact ⟨[], by simp [h], trivial⟩
  | cons a p ih =>
    cases s with
    | nil => simp [matchText] at h
    | cons c cs =>
      simp only [matchText] at h
      by_cases hc : (if a = '.' then c ≠ '\n' else a = c)
      · rw [if_pos hc] at h
        obtain ⟨q, rfl, hq⟩ := ih h
        refine ⟨c :: q, rfl, ?_, hq⟩
        split at hc
        · rename_i ha; exact .inr ⟨ha, hc⟩
        · exact .inl hc
      · rw [if_neg hc] at h; cases h

theorem matchText_stands {p q : Str} (r : Str) (h : Stands p q) : matchText p (q ++ r) = some r := by
  induction p generalizing q with
  | nil =>
    cases q with
    | nil => rfl
    | cons c cs => exact h.elim
  | cons a p ih =>
    cases q with
    | nil => exact h.elim
    | cons c cs =>
      simp only [List.cons_append, matchText]
      rw [if_pos]
      · exact ih h.2
      · split
        · rename_i ha
          rcases h.1 with h1 | h1
          · rw [← h1, ha]; decide
          · exact h1.2
        · rename_i ha
          rcases h.1 with h1 | h1
          · exact h1
          · exact absurd h1.1 ha

theorem isDotted_iff {d : Str} : d.all isDotted = true ↔ ∀ c ∈ d, NameChar c := by
  simp [List.all_eq_true, isDotted, NameChar, or_assoc]

/-- A pattern without `.` stands for itself only. -/
theorem stands_lit {p q : Str} (h : Stands p q) (hp : '.' ∉ p) : q = p := by
  induction p generalizing q with
  | nil =>
    cases q with
    | nil => rfl
    | cons c cs => exact h.elim
  | cons a p ih =>
    cases q with
    | nil => exact h.elim
    | cons c cs =>
      simp only [List.mem_cons, not_or] at hp
      rw [ih h.2 hp.2]
      rcases h.1 with h1 | h1
      · rw [h1]
      · exact absurd h1.1.symm hp.1

theorem matchText_self (p r : Str) (hp : '.' ∉ p) : matchText p (p ++ r) = some r := by
  induction p with
  | nil => rfl
  | cons a p ih =>
    simp only [List.mem_cons, not_or] at hp
    simp only [List.cons_append, matchText]
    rw [if_pos (by simp [Ne.symm hp.1]), ih hp.2]

theorem takeWhile_dotted {d r : Str} (hd : d.all isDotted = true) : (d ++ '/' :: r).takeWhile isDotted = d := by
  rw [List.takeWhile_append_of_pos (by simpa using hd)]
  simp [show isDotted '/' = false by decide]

theorem dropWhile_dotted {d r : Str} (hd : d.all isDotted = true) : (d ++ '/' :: r).dropWhile isDotted = '/' :: r := by
  rw [List.dropWhile_append_of_pos (by simpa using hd)]
  simp [show isDotted '/' = false by decide]

theorem all_takeWhile (s : Str) : (s.takeWhile isDotted).all isDotted = true := by
  induction s with
  | nil => rfl
  | cons c cs ih =>
    simp only [List.takeWhile_cons]
    split
    · rename_i h; simp [h, ih]
    · rfl

theorem atEnd_iff {r : Str} : atEnd r = true ↔ r = [] ∨ r = ['\n'] := by simp [atEnd]

/-- What a match of the dispatcher's pattern is. -/
theorem dispatcherMatch_some {pre path d : Str} (h : dispatcherMatch pre path = some d) :
    d ≠ [] ∧ d.all isDotted = true ∧ ∃ q r, Stands pre q ∧ atEnd r = true ∧ path = q ++ d ++ '/' :: r := by
  simp only [dispatcherMatch] at h
  cases hm : matchText pre path with
  | none => rw [hm] at h; cases h
  | some rest =>
    rw [hm] at h
    obtain ⟨q, rfl, hq⟩ := matchText_some hm
    simp only at h
    cases hd : rest.dropWhile isDotted with
    | nil => rw [hd] at h; cases h
    | cons c cs =>
      rw [hd] at h
      by_cases hc : c = '/'
      · subst hc
        simp only at h
        by_cases ht : List.takeWhile isDotted rest ≠ [] ∧ atEnd cs = true
        · rw [if_pos ht] at h
          cases h
          refine ⟨ht.1, all_takeWhile rest, q, cs, hq, ht.2, ?_⟩
          rw [List.append_assoc, ← hd, List.takeWhile_append_dropWhile]
        · rw [if_neg ht] at h; cases h
      · revert h; split
        · rename_i h; exact absurd (by injection h) hc
        · intro h; cases h

theorem dispatcherMatch_lit {pre d r : Str} (hp : '.' ∉ pre) (hne : d ≠ []) (hd : d.all isDotted = true) (hr : atEnd r = true) :
    dispatcherMatch pre (pre ++ d ++ '/' :: r) = some d := by
  simp only [dispatcherMatch, List.append_assoc]
  rw [matchText_self pre _ hp]
  simp only [dropWhile_dotted hd, takeWhile_dotted hd]
  rw [if_pos ⟨hne, hr⟩]

theorem dispatcherMatch_iff {pre path d : Str} (hp : '.' ∉ pre) :
    dispatcherMatch pre path = some d ↔
      d ≠ [] ∧ d.all isDotted = true ∧ (path = pre ++ d ++ ['/'] ∨ path = pre ++ d ++ ['/', '\n']) := by
  constructor
  · intro h
    obtain ⟨h1, h2, q, r, hq, hr, rfl⟩ := dispatcherMatch_some h
    rw [stands_lit hq hp]
    refine ⟨h1, h2, ?_⟩
    rcases atEnd_iff.1 hr with rfl | rfl
    · exact .inl rfl
    · exact .inr rfl
  · rintro ⟨h1, h2, rfl | rfl⟩
    · exact dispatcherMatch_lit hp h1 h2 rfl
    · exact dispatcherMatch_lit hp h1 h2 (by decide)

/-- Some match exists exactly at the paths described by `Spec`. -/
theorem dispatcherMatch_isSome {pre path : Str} :
    (dispatcherMatch pre path).isSome = true ↔ ∃ q d, Stands pre q ∧ d ≠ [] ∧ (∀ c ∈ d, NameChar c) ∧
      (path = q ++ d ++ ['/'] ∨ path = q ++ d ++ ['/', '\n']) := by
  constructor
  · intro h
    obtain ⟨d, hd⟩ := Option.isSome_iff_exists.1 h
    obtain ⟨h1, h2, q, r, hq, hr, rfl⟩ := dispatcherMatch_some hd
    refine ⟨q, d, hq, h1, isDotted_iff.1 h2, ?_⟩
    rcases atEnd_iff.1 hr with rfl | rfl
    · exact .inl rfl
    · exact .inr rfl
  · rintro ⟨q, d, hq, h1, h2, h3⟩
    have key : ∀ r, atEnd r = true → dispatcherMatch pre (q ++ d ++ '/' :: r) = some d := by
      intro r hr
      simp only [dispatcherMatch, List.append_assoc]
      rw [matchText_stands _ hq]
      simp only [dropWhile_dotted (isDotted_iff.2 h2), takeWhile_dotted (isDotted_iff.2 h2)]
      rw [if_pos ⟨h1, hr⟩]
    rcases h3 with rfl | rfl
    · rw [key [] rfl]; rfl
    · rw [key ['\n'] (by decide)]; rfl

variable {C A : Type}

theorem matchDispatch_iff (s : Server C A) (path : Str) : s.matchDispatch path = true ↔ s.DispatchPath path := by
  unfold Server.matchDispatch Server.DispatchPath
  cases s.kind with
  | middleware => exact dispatcherMatch_isSome
  | standalone r => simp
  | csr => simp

theorem find_first {α β} (p : α → Bool) (f : α → β) (l : List α) (b : β) :
    (l.find? p).map f = some b ↔ ∃ pre a post, l = pre ++ a :: post ∧ p a = true ∧ (∀ x ∈ pre, p x = false) ∧ f a = b := by
  constructor
  · intro h
    obtain ⟨a, ha, rfl⟩ := Option.map_eq_some_iff.1 h
    obtain ⟨hp, pre, post, rfl, hpre⟩ := List.find?_eq_some_iff_append.1 ha
    exact ⟨pre, a, post, rfl, hp, fun x hx => by simpa using hpre x hx, rfl⟩
  · rintro ⟨pre, a, post, rfl, hp, hpre, rfl⟩
    have : (pre ++ a :: post).find? p = some a := List.find?_eq_some_iff_append.2 ⟨hp, pre, post, rfl, fun x hx => by simp [hpre x hx]⟩
    rw [this]; rfl

theorem firstRoute_iff (table : List (String × A)) (path : Str) (a : A) :
    (table.find? (fun r => reMatch r.1.toList path)).map (·.2) = some a ↔ FirstRoute table path a := by
  rw [find_first]
  constructor
  · rintro ⟨pre, ⟨p, b⟩, post, h1, h2, h3, rfl⟩
    exact ⟨pre, p, post, h1, h2, h3⟩
  · rintro ⟨pre, p, post, h1, h2, h3⟩
    exact ⟨pre, (p, a), post, h1, h2, h3, rfl⟩

theorem matchExtra_some (s : Server C A) (sc : Scope) (a : A) : s.matchExtra sc = some a ↔ s.OwnRoute sc a := by
  unfold Server.matchExtra Server.OwnRoute
  cases hk : s.kind <;> cases ht : sc.type <;> simp only [firstRoute_iff, false_and, true_and, reduceCtorEq]

theorem matchExtra_none (s : Server C A) (sc : Scope) : s.matchExtra sc = none ↔ ∀ a, ¬ s.OwnRoute sc a := by
  constructor
  · intro h a ha
    rw [(matchExtra_some s sc a).2 ha] at h; cases h
  · intro h
    cases hm : s.matchExtra sc with
    | none => rfl
    | some a => exact absurd ((matchExtra_some s sc a).1 hm) (h a)

theorem foldl_find (f : Str → C) (d : Str) (l : List Str) (acc : List (Str × C))
    (hacc : ∀ p ∈ acc, p.2 = f p.1) :
    ((l.foldl (fun a p => (a.filter (fun q => !(q.1 == p))) ++ [(p, f p)]) acc).find? (fun r => r.1 == d)).map (·.2) =
      if d ∈ l ∨ d ∈ acc.map (·.1) then some (f d) else none := by
  induction l generalizing acc with
  | nil =>
    simp only [List.foldl_nil, List.not_mem_nil, false_or]
    split
    · rename_i h
      obtain ⟨p, hp, rfl⟩ := List.mem_map.1 h
      cases hf : acc.find? (fun r => r.1 == p.1) with
      | none =>
        rw [List.find?_eq_none] at hf
        exact absurd (beq_self_eq_true p.1) (hf p hp)
      | some q =>
        have h1 := List.mem_of_find?_eq_some hf
        have h2 := List.find?_some hf
        simp only [beq_iff_eq] at h2
        simp only [Option.map_some]
        rw [hacc q h1, h2]
    · rename_i h
      have : acc.find? (fun r => r.1 == d) = none := by
        rw [List.find?_eq_none]
        intro p hp he
        simp only [beq_iff_eq] at he
        exact h (List.mem_map.2 ⟨p, hp, he⟩)
      rw [this]; rfl
  | cons p l ih =>
    rw [List.foldl_cons, ih]
    · have : (d ∈ l ∨ d ∈ ((acc.filter (fun q => !(q.1 == p))) ++ [(p, f p)]).map (·.1)) ↔ (d ∈ p :: l ∨ d ∈ acc.map (·.1)) := by
        simp only [List.map_append, List.mem_append, List.mem_cons, List.map_cons, List.map_nil, List.not_mem_nil, or_false]
        constructor
        · rintro (h | h | h)
          · exact .inl (.inr h)
          · obtain ⟨q, hq, rfl⟩ := List.mem_map.1 h
            exact .inr (List.mem_map.2 ⟨q, (List.mem_filter.1 hq).1, rfl⟩)
          · exact .inl (.inl h)
        · rintro ((h | h) | h)
          · exact .inr (.inr h)
          · exact .inl h
          · by_cases hp : d = p
            · exact .inr (.inr hp)
            · obtain ⟨q, hq, rfl⟩ := List.mem_map.1 h
              exact .inr (.inl (List.mem_map.2 ⟨q, List.mem_filter.2 ⟨hq, by simpa using hp⟩, rfl⟩))
      by_cases h : d ∈ p :: l ∨ d ∈ acc.map (·.1)
      · rw [if_pos h, if_pos (this.2 h)]
      · rw [if_neg h, if_neg (fun h' => h (this.1 h'))]
    · intro q hq
      simp only [List.mem_append, List.mem_singleton] at hq
      rcases hq with hq | rfl
      · exact hacc q (List.mem_filter.1 hq).1
      · rfl

theorem find_root (s : Server C A) (d : Str) :
    (s.rootComponents.find? (fun r => r.1 == d)).map (·.2) = if d ∈ s.rootPaths then some (s.importPath d) else none := by
  rw [Server.rootComponents, foldl_find s.importPath d s.rootPaths [] (by simp)]
  simp

end Verif.Asgi
