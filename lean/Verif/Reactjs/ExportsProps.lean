import Verif.Reactjs.Exports
/-! # Names exported by JavaScript modules: property C63 -/
namespace Verif.Reactjs.Exports
open Verif.Markup (splitOn joinWith)

/-- Specification: export statements of JavaScript. -/
inductive Stmt where
  /-- `export { a, b as c };` -/
  | list (items : List (Str × Option Str))
  /-- `export { a, b as c } from 'ref';` -/
  | listFrom (items : List (Str × Option Str)) (ref : Str)
  /-- `export * from 'ref';` -/
  | all (ref : Str)
  /-- `export * as name from 'ref';` -/
  | allAs (name ref : Str)
  /-- `export let a, b;` -/
  | vars (names : List Str)
  /-- `export const a = expr;` -/
  | const (name expr : Str)
  /-- `export default expr;` -/
  | default (expr : Str)
  /-- `export function name…;` or `export class name…;` -/
  | declare (isClass : Bool) (name rest : Str)

/-- Specification: the text of an item of a list. -/
def itemText : Str × Option Str → Str
  | (x, none) => x
  | (x, some y) => x ++ ' ' :: 'a' :: 's' :: ' ' :: y

/-- Specification: texts with `, ` between them. -/
def commas : List Str → Str
  | [] => []
  | [x] => x
  | x :: l => x ++ ',' :: ' ' :: commas l

/-- Specification: what follows `export`, without the semicolon. -/
def body : Stmt → Str
  | .list l => [' ', '{', ' '] ++ commas (l.map itemText) ++ [' ', '}']
  | .listFrom l r => [' ', '{', ' '] ++ commas (l.map itemText) ++ [' ', '}', ' ', 'f', 'r', 'o', 'm', ' ', '\''] ++ r ++ ['\'']
  | .all r => [' ', '*', ' ', 'f', 'r', 'o', 'm', ' ', '\''] ++ r ++ ['\'']
  | .allAs n r => [' ', '*', ' ', 'a', 's', ' '] ++ n ++ [' ', 'f', 'r', 'o', 'm', ' ', '\''] ++ r ++ ['\'']
  | .vars l => [' ', 'l', 'e', 't', ' '] ++ commas l
  | .const n e => [' ', 'c', 'o', 'n', 's', 't', ' '] ++ n ++ [' ', '=', ' '] ++ e
  | .default e => [' ', 'd', 'e', 'f', 'a', 'u', 'l', 't', ' '] ++ e
  | .declare k n e => (if k then [' ', 'c', 'l', 'a', 's', 's', ' '] else [' ', 'f', 'u', 'n', 'c', 't', 'i', 'o', 'n', ' ']) ++ n ++ e

/-- Specification: a line of a module: an export statement that may be indented and have more after its semicolon, or other
code. -/
inductive Row where
  | code (text : Str)
  | export (indent : Str) (st : Stmt) (tail : Str)

/-- Specification: the text of a line. -/
def Row.text : Row → Str
  | .code t => t
  | .export i st t => i ++ ['e', 'x', 'p', 'o', 'r', 't'] ++ body st ++ t

/-- Specification: the text of a module. -/
def source : List Row → Str
  | [] => []
  | r :: l => r.text ++ ['\n'] ++ source l

/-- Specification: the export statements of a module. -/
def stmts : List Row → List Stmt
  | [] => []
  | .code _ :: l => stmts l
  | .export _ st _ :: l => st :: stmts l

/-- Specification: the names a statement exports. -/
def exported : Stmt → List Str
  | .list l | .listFrom l _ => l.map fun p => p.2.getD p.1
  | .all _ => []
  | .allAs n _ => [n]
  | .vars l => l
  | .const n _ => [n]
  | .default _ => [['d', 'e', 'f', 'a', 'u', 'l', 't']]
  | .declare _ n _ => [n]

/-- Specification: the modules all of whose names a statement exports. -/
def referred : Stmt → List Str
  | .all r => [r]
  | _ => []

/-- Specification: an identifier: letters, digits, `_` and `$`. -/
def Ident (s : Str) : Prop := s ≠ [] ∧ ∀ c ∈ s, (c.isAlphanum || c == '_' || c == '$') = true

/-- Specification: white space. -/
def white (c : Char) : Bool := c == ' ' || c == '\t' || c == '\n' || c == '\r'

/-- Specification: a reference: without quotes, spaces, line ends and semicolons. -/
def Ref (s : Str) : Prop := s ≠ [] ∧ ∀ c ∈ s, (c == '\'' || c == '"') = false ∧ white c = false ∧ c ≠ ';'

/-- Specification: an expression on one line, without a semicolon. -/
def Expr (s : Str) : Prop := s ≠ [] ∧ (∀ c ∈ s, c ≠ ';' ∧ c ≠ '\n') ∧ (∀ c, s.getLast? = some c → white c = false)

/-- Specification: an item of a list: not one of the names that stand between the parts of a statement. -/
def Item (p : Str × Option Str) : Prop :=
  (Ident p.1 ∧ p.1 ≠ ['a', 's'] ∧ p.1 ≠ ['f', 'r', 'o', 'm']) ∧ ∀ y, p.2 = some y → Ident y ∧ y ≠ ['f', 'r', 'o', 'm']

/-- Specification: well-formed statements. -/
def Wf : Stmt → Prop
  | .list l => l ≠ [] ∧ ∀ p ∈ l, Item p
  | .listFrom l r => (l ≠ [] ∧ ∀ p ∈ l, Item p) ∧ Ref r
  | .all r => Ref r
  | .allAs n r => Ident n ∧ Ref r
  | .vars l => l ≠ [] ∧ ∀ x ∈ l, Ident x
  | .const n e => Ident n ∧ Expr e
  | .default e => Expr e
  | .declare _ n e => (Ident n ∧ ∀ c, n.head? = some c → c.isDigit = false) ∧ Expr e ∧ ∀ c, e.head? = some c → (c.isAlphanum || c == '_' || c == '$') = false

/-- Specification: a piece of a line without the word `export`. -/
def Other (s : Str) : Prop := '\n' ∉ s ∧ ¬ ['e', 'x', 'p', 'o', 'r', 't'] <:+: s

/-- Specification: well-formed lines; a statement is ended by a semicolon or by the end of the line. -/
def Row.Ok : Row → Prop
  | .code t => Other t
  | .export i st t => (∀ c ∈ i, c = ' ' ∨ c = '\t') ∧ Wf st ∧ Other t ∧ (t = [] ∨ ∃ u, t = ';' :: u)

/-! ### Scanning -/

/-- What ends a group. -/
def stop (c : Char) : Bool := c == ';' || c == '\n'

theorem span_stop (b : Str) (hb : ∀ c ∈ b, c ≠ ';' ∧ c ≠ '\n') {d : Char} (hd : d = ';' ∨ d = '\n') (rest : Str) :
    (b ++ d :: rest).takeWhile (fun c => c != ';' && c != '\n') = b ∧ (b ++ d :: rest).dropWhile (fun c => c != ';' && c != '\n') = d :: rest := by
  induction b with
  | nil => rcases hd with rfl | rfl <;> simp
  | cons c b ih =>
    have h := hb c (by simp)
    have hc : (c != ';' && c != '\n') = true := by simp [h.1, h.2]
    have := ih (fun d hd => hb d (by simp [hd]))
    simp only [List.cons_append, List.takeWhile_cons, List.dropWhile_cons, hc, if_true]
    exact ⟨by rw [this.1], this.2⟩

theorem exportAt_stmt (i b rest : Str) {d : Char} (hi : ∀ c ∈ i, c = ' ' ∨ c = '\t') (hsp : ∃ t, b = ' ' :: t) (hb : ∀ c ∈ b, c ≠ ';' ∧ c ≠ '\n')
    (hd : d = ';' ∨ d = '\n') :
    exportAt (i ++ (kwExport ++ (b ++ d :: rest))) = some (b, d :: rest) := by
  obtain ⟨t, ht⟩ := hsp
  have h := span_stop b hb hd rest
  subst ht
  have e : (i ++ (kwExport ++ (' ' :: t ++ d :: rest))).dropWhile isSpace = kwExport ++ (' ' :: t ++ d :: rest) := by
    rw [List.dropWhile_append_of_pos]
    · simp [kwExport, isSpace]
    · intro c hc
      rcases hi c hc with rfl | rfl <;> decide
  have e2 : (kwExport ++ (' ' :: t ++ d :: rest)).drop 6 = ' ' :: t ++ d :: rest := rfl
  have e3 : kwExport.isPrefixOf (kwExport ++ (' ' :: t ++ d :: rest)) = true := by
    rw [List.isPrefixOf_iff_prefix]; exact List.prefix_append _ _
  simp only [exportAt, e, e2, e3, if_true]
  simp only [List.cons_append] at h ⊢
  rw [h.1, h.2]
  rfl

theorem exportAt_space {c : Char} (hc : isSpace c = true) (s : Str) : exportAt (c :: s) = exportAt s := by
  have : (c :: s).dropWhile isSpace = s.dropWhile isSpace := by
    rw [List.dropWhile_cons_of_pos hc]
  simp only [exportAt, this]

theorem exportAt_nil : exportAt [] = none := by decide +kernel

theorem exportAt_length {s g r : Str} (h : exportAt s = some (g, r)) : r.length < s.length := by
  have h1 : (s.dropWhile isSpace).length ≤ s.length := (List.dropWhile_suffix _).length_le
  simp only [exportAt] at h
  generalize s.dropWhile isSpace = u at *
  split at h
  · rename_i hp
    have h2 : 6 ≤ u.length := by
      have := (List.isPrefixOf_iff_prefix.1 hp).length_le
      simpa [kwExport] using this
    split at h
    · cases h
    · rename_i c v hv
      split at h
      · simp only [Option.some.injEq, Prod.mk.injEq] at h
        rw [← h.2]
        have h3 := (List.dropWhile_suffix (l := u.drop 6) (fun c => c != ';' && c != '\n')).length_le
        have h4 : (u.drop 6).length = u.length - 6 := List.length_drop
        omega
      · cases h
  · cases h

theorem prefix_stop {w s r : Str} {d : Char} (hd : d ∉ w) (h : w <+: s ++ d :: r) : w <+: s := by
  induction w generalizing s with
  | nil => exact List.nil_prefix
  | cons c w ih =>
    simp only [List.mem_cons, not_or] at hd
    cases s with
    | nil =>
      obtain ⟨t, ht⟩ := h
      simp only [List.cons_append, List.nil_append, List.cons.injEq] at ht
      exact absurd ht.1.symm hd.1
    | cons x s =>
      rw [List.cons_append, List.cons_prefix_cons] at h
      rw [List.cons_prefix_cons]
      exact ⟨h.1, ih hd.2 h.2⟩

theorem exportAt_other {y : Str} (rest : Str) (h : ¬ kwExport <:+: y) :
    exportAt (y ++ '\n' :: rest) = none ∨ exportAt (y ++ '\n' :: rest) = exportAt rest := by
  induction y with
  | nil => exact .inr (exportAt_space (by decide) rest)
  | cons c y ih =>
    have ih := ih (fun hh => h (hh.trans (List.suffix_cons c y).isInfix))
    rw [List.cons_append]
    cases hc : isSpace c with
    | true => rw [exportAt_space hc]; exact ih
    | false =>
      refine .inl ?_
      have e : (c :: (y ++ '\n' :: rest)).dropWhile isSpace = c :: (y ++ '\n' :: rest) := by
        rw [List.dropWhile_cons_of_neg]; simp [hc]
      simp only [exportAt, e]
      rw [if_neg]
      intro hp
      exact h (prefix_stop (s := c :: y) (d := '\n') (by decide) (List.isPrefixOf_iff_prefix.1 hp)).isInfix

/-- What is matched at a place. -/
def hit (b : Bool) (c : Char) (s : Str) : Option (Str × Str) :=
  (if b then exportAt (c :: s) else none).or (if c == ';' || c == '}' then exportAt s else none)

theorem scan_hit {n : Nat} {b : Bool} {c : Char} {s g r : Str} (h : hit b c s = some (g, r)) : scan (n + 1) b (c :: s) = g :: scan n false r := by
  simp only [hit] at h
  simp only [scan, h]

theorem scan_miss {n : Nat} {b : Bool} {c : Char} {s : Str} (h : hit b c s = none) : scan (n + 1) b (c :: s) = scan n (c == '\n') s := by
  simp only [hit] at h
  simp only [scan, h]

theorem hit_cases {b : Bool} {c : Char} {s : Str} {x : Str × Str} (h : hit b c s = some x) : exportAt (c :: s) = some x ∨ exportAt s = some x := by
  simp only [hit, Option.or_eq_some_iff] at h
  rcases h with h | ⟨_, h⟩
  · split at h
    · exact .inl h
    · cases h
  · split at h
    · exact .inr h
    · cases h

theorem hit_length {b : Bool} {c : Char} {s g r : Str} (h : hit b c s = some (g, r)) : r.length ≤ s.length := by
  rcases hit_cases h with h | h
  · have := exportAt_length h
    simp only [List.length_cons] at this
    omega
  · have := exportAt_length h
    omega

/-- The bound on the number of steps does not matter. -/
theorem scan_fuel : ∀ (n m : Nat) (b : Bool) (s : Str), s.length ≤ n → s.length ≤ m → scan n b s = scan m b s
  | n, m, b, [], _, _ => by cases n <;> cases m <;> rfl
  | 0, _, _, _ :: _, h, _ => by simp at h
  | _, 0, _, _ :: _, _, h => by simp at h
  | n + 1, m + 1, b, c :: s, hn, hm => by
    simp only [List.length_cons, Nat.add_le_add_iff_right] at hn hm
    cases h : hit b c s with
    | none => rw [scan_miss h, scan_miss h, scan_fuel n m _ s hn hm]
    | some x =>
      obtain ⟨g, r⟩ := x
      have := hit_length h
      rw [scan_hit h, scan_hit h, scan_fuel n m _ r (by omega) (by omega)]

/-- The search goes on after the line. -/
theorem scan_other : ∀ (y : Str) (b : Bool) (n m : Nat) (rest : Str), '\n' ∉ y → ¬ kwExport <:+: y → (y ++ '\n' :: rest).length ≤ n → rest.length ≤ m →
    scan n b (y ++ '\n' :: rest) = scan m true rest := by
  have found : ∀ (n m : Nat) (b : Bool) (c : Char) (u rest : Str) (x : Str × Str), hit b c u = some x → exportAt rest = some x → (c :: u).length ≤ n →
      rest.length ≤ m → scan n b (c :: u) = scan m true rest := by
    intro n m b c u rest x hx hr hn hm
    obtain ⟨g, r⟩ := x
    match n, m, rest, hn, hm with
    | 0, _, _, hn, _ => simp at hn
    | _, _, [], _, _ => rw [exportAt_nil] at hr; cases hr
    | _, 0, _ :: _, _, hm => simp at hm
    | n + 1, m + 1, d :: rest, hn, hm =>
      have h2 : hit true d rest = some (g, r) := by simp only [hit, if_true, hr, Option.some_or]
      have l1 := hit_length hx
      have l2 := hit_length h2
      simp only [List.length_cons, Nat.add_le_add_iff_right] at hn hm
      rw [scan_hit hx, scan_hit h2, scan_fuel n m _ r (by omega) (by omega)]
  intro y
  induction y with
  | nil =>
    intro b n m rest _ _ hn hm
    rw [List.nil_append] at hn ⊢
    cases hh : hit b '\n' rest with
    | some x =>
      refine found n m b _ _ _ x hh ?_ hn hm
      rcases hit_cases hh with h | h
      · rw [exportAt_space (by decide)] at h; exact h
      · exact h
    | none =>
      cases n with
      | zero => simp at hn
      | succ n =>
        rw [scan_miss hh]
        simp only [List.length_cons, Nat.add_le_add_iff_right] at hn
        exact scan_fuel n m _ rest hn hm
  | cons c y ih =>
    intro b n m rest hnl hex hn hm
    simp only [List.mem_cons, not_or] at hnl
    have hex' : ¬ kwExport <:+: y := fun hh => hex (hh.trans (List.suffix_cons c y).isInfix)
    rw [List.cons_append] at hn ⊢
    cases hh : hit b c (y ++ '\n' :: rest) with
    | some x =>
      refine found n m b _ _ _ x hh ?_ hn hm
      rcases hit_cases hh with h | h
      · rcases exportAt_other rest hex with e | e
        · rw [List.cons_append] at e; rw [e] at h; cases h
        · rw [List.cons_append] at e; rw [← e]; exact h
      · rcases exportAt_other rest hex' with e | e
        · rw [e] at h; cases h
        · rw [← e]; exact h
    | none =>
      cases n with
      | zero => simp at hn
      | succ n =>
        rw [scan_miss hh]
        simp only [List.length_cons, Nat.add_le_add_iff_right] at hn
        exact ih _ n m rest hnl.2 hex' hn hm

/-- The bodies of statements: they start with a space and have no semicolon and no line end. -/
def Body (b : Str) : Prop := (∃ t, b = ' ' :: t) ∧ ∀ c ∈ b, c ≠ ';' ∧ c ≠ '\n'

/-- The search at a line with a statement. -/
theorem scan_stmt {i b t rest : Str} (hi : ∀ c ∈ i, c = ' ' ∨ c = '\t') (hb : Body b) (ht : Other t) (ht' : t = [] ∨ ∃ u, t = ';' :: u) {n m : Nat}
    (hn : (i ++ (kwExport ++ (b ++ (t ++ '\n' :: rest)))).length ≤ n) (hm : rest.length ≤ m) :
    scan n true (i ++ (kwExport ++ (b ++ (t ++ '\n' :: rest)))) = b :: scan m true rest := by
  have hex : exportAt (i ++ (kwExport ++ (b ++ (t ++ '\n' :: rest)))) = some (b, t ++ '\n' :: rest) := by
    rcases ht' with rfl | ⟨u, rfl⟩
    · exact exportAt_stmt i b rest hi hb.1 hb.2 (.inr rfl)
    · exact exportAt_stmt i b (u ++ '\n' :: rest) hi hb.1 hb.2 (.inl rfl)
  have hlen := exportAt_length hex
  generalize i ++ (kwExport ++ (b ++ (t ++ '\n' :: rest))) = s at *
  match n, s, hn with
  | _, [], _ => rw [exportAt_nil] at hex; cases hex
  | 0, _ :: _, hn => simp at hn
  | n + 1, c :: s, hn =>
    have hh : hit true c s = some (b, t ++ '\n' :: rest) := by simp only [hit, if_true, hex, Option.some_or]
    rw [scan_hit hh, scan_other t false n m rest ht.1 ht.2 ?_ hm]
    have := hit_length hh
    simp only [List.length_cons] at hn
    omega

/-! ### Splitting -/

theorem splitFirst_spec (sep : Str) (x y : Str) (h : ∀ u v w, x = u ++ v → v ≠ [] → ¬ sep <+: v ++ w) (hs : sep ≠ []) :
    splitFirst sep (x ++ (sep ++ y)) = some (x, y) := by
  induction x with
  | nil =>
    cases sep with
    | nil => exact absurd rfl hs
    | cons c sep =>
      have : (c :: sep).isPrefixOf ((c :: sep) ++ y) = true := by rw [List.isPrefixOf_iff_prefix]; exact List.prefix_append _ _
      simp only [List.nil_append, List.cons_append] at this ⊢
      rw [splitFirst, if_pos this]
      simp
  | cons c x ih =>
    have hno : sep.isPrefixOf (c :: (x ++ (sep ++ y))) = false := by
      rw [Bool.eq_false_iff]
      intro hh
      exact h [] (c :: x) (sep ++ y) rfl (by simp) (by rw [List.isPrefixOf_iff_prefix] at hh; simpa using hh)
    simp only [List.cons_append, splitFirst, hno, Bool.false_eq_true, if_false]
    rw [ih (fun u v w e => h (c :: u) v w (by rw [e]; rfl))]
    rfl

/-- The text before a separator whose first character does not occur in it. -/
theorem splitFirst_char (d : Char) (sep x y : Str) (h : d ∉ x) : splitFirst (d :: sep) (x ++ (d :: sep ++ y)) = some (x, y) := by
  refine splitFirst_spec _ _ _ ?_ (by simp)
  intro u v w e hv hp
  cases v with
  | nil => exact hv rfl
  | cons c v =>
    rw [List.cons_append, List.cons_prefix_cons] at hp
    exact h (by rw [e, hp.1]; simp)

theorem splitFirst_none (d : Char) (sep x : Str) (h : d ∉ x) : splitFirst (d :: sep) x = none := by
  induction x with
  | nil => rfl
  | cons c x ih =>
    simp only [List.mem_cons, not_or] at h
    have : (d :: sep).isPrefixOf (c :: x) = false := by
      simp [List.isPrefixOf, h.1]
    rw [splitFirst, this, ih h.2]; rfl

theorem dropWhile_id {p : Char → Bool} {s : Str} (h : ∀ c, s.head? = some c → p c = false) : s.dropWhile p = s := by
  cases s with
  | nil => rfl
  | cons c s => rw [List.dropWhile_cons_of_neg]; simp [h c rfl]

/-- Stripping a text with the characters to strip around it. -/
theorem stripBy_mid {p : Char → Bool} (a x b : Str) (ha : ∀ c ∈ a, p c = true) (hb : ∀ c ∈ b, p c = true)
    (h1 : ∀ c, x.head? = some c → p c = false) (h2 : ∀ c, x.getLast? = some c → p c = false) (hx : x ≠ []) : stripBy p (a ++ (x ++ b)) = x := by
  have e1 : (a ++ (x ++ b)).dropWhile p = x ++ b := by
    rw [List.dropWhile_append_of_pos ha]
    refine dropWhile_id ?_
    intro c hc
    cases x with
    | nil => exact absurd rfl hx
    | cons d x => exact h1 c hc
  rw [stripBy, e1, List.reverse_append, List.dropWhile_append_of_pos (by intro c hc; exact hb c (List.mem_reverse.1 hc)), dropWhile_id, List.reverse_reverse]
  intro c hc
  rw [List.head?_reverse] at hc
  exact h2 c hc

theorem ident_char {s : Str} (h : Ident s) : ∀ c ∈ s, c ≠ ';' ∧ c ≠ '\n' ∧ c ≠ ',' ∧ c ≠ ' ' ∧ c ≠ '=' ∧ c ≠ ':' ∧ isSpace c = false ∧ isBrace c = false := by
  intro c hc
  have := h.2 c hc
  refine ⟨?_, ?_, ?_, ?_, ?_, ?_, ?_, ?_⟩
  all_goals first
    | (rintro rfl; revert this; decide)
    | (cases hh : isSpace c with
       | false => rfl
       | true =>
         exfalso
         simp only [isSpace, Bool.or_eq_true, beq_iff_eq] at hh
         rcases hh with ((h | h) | h) | h <;> (rw [h] at this; revert this; decide))
    | (cases hh : isBrace c with
       | false => rfl
       | true =>
         exfalso
         simp only [isBrace, Bool.or_eq_true, beq_iff_eq] at hh
         rcases hh with h | h <;> (rw [h] at this; revert this; decide))

theorem splitFirst_pre (d : Char) (sep x r : Str) (h : d ∉ x) :
    splitFirst (d :: sep) (x ++ r) = (splitFirst (d :: sep) r).map fun q => (x ++ q.1, q.2) := by
  induction x with
  | nil => simp
  | cons c x ih =>
    simp only [List.mem_cons, not_or] at h
    have : (d :: sep).isPrefixOf (c :: (x ++ r)) = false := by simp [List.isPrefixOf, h.1]
    rw [List.cons_append, splitFirst, this, ih h.2]
    simp only [Bool.false_eq_true, if_false, Option.map_map]
    rfl

/-- Two words that start a text are the same. -/
theorem word_eq {w v r : Str} (hw : ' ' ∉ w) (hv : ' ' ∉ v) (h : w ++ [' '] <+: v ++ r) (hr : r = [] ∨ ∃ t, r = ' ' :: t) : w = v ∧ r ≠ [] := by
  induction w generalizing v with
  | nil =>
    cases v with
    | nil =>
      refine ⟨rfl, ?_⟩
      rintro rfl
      obtain ⟨t, ht⟩ := h
      simp at ht
    | cons c v =>
      simp only [List.nil_append, List.cons_append, List.cons_prefix_cons] at h
      exact absurd (by rw [h.1]; simp) hv
  | cons c w ih =>
    simp only [List.mem_cons, not_or] at hw
    cases v with
    | nil =>
      exfalso
      rcases hr with rfl | ⟨t, rfl⟩
      · obtain ⟨t, ht⟩ := h; simp at ht
      · simp only [List.cons_append, List.nil_append, List.cons_prefix_cons] at h
        exact hw.1 h.1.symm
    | cons c' v =>
      simp only [List.cons_append, List.cons_prefix_cons] at h
      simp only [List.mem_cons, not_or] at hv
      obtain ⟨h1, h2⟩ := ih hw.2 hv.2 h.2
      exact ⟨by rw [h.1, h1], h2⟩

theorem joinWith_cons2 (h v : Str) (ws : List Str) : joinWith ' ' (h :: v :: ws) = h ++ ' ' :: joinWith ' ' (v :: ws) := rfl

theorem joinWith_tail (v : Str) (ws : List Str) : ∃ r, joinWith ' ' (v :: ws) = v ++ r ∧ (r = [] ∨ ∃ t, r = ' ' :: t) ∧ (ws = [] → r = []) := by
  cases ws with
  | nil => exact ⟨[], by simp [joinWith], .inl rfl, fun _ => rfl⟩
  | cons u ws => exact ⟨' ' :: joinWith ' ' (u :: ws), rfl, .inr ⟨_, rfl⟩, fun h => by cases h⟩

/-- A text of words is split at the first word (not the first or last of the text) that is the one looked for. -/
theorem splitFirst_words {w : Str} (hw : ' ' ∉ w) : ∀ (ws : List Str) (h : Str) (rest : List Str), ' ' ∉ h → (∀ v ∈ ws, ' ' ∉ v ∧ v ≠ w) → rest ≠ [] →
    splitFirst (' ' :: (w ++ [' '])) (joinWith ' ' (h :: (ws ++ w :: rest))) = some (joinWith ' ' (h :: ws), joinWith ' ' rest)
  | [], h, rest, hh, _, hr => by
    cases rest with
    | nil => exact absurd rfl hr
    | cons u rest =>
      simp only [List.nil_append]
      rw [joinWith_cons2, joinWith_cons2]
      have e : h ++ ' ' :: (w ++ ' ' :: joinWith ' ' (u :: rest)) = h ++ (' ' :: (w ++ [' ']) ++ joinWith ' ' (u :: rest)) := by simp
      rw [e, splitFirst_char ' ' (w ++ [' ']) h _ hh]
      rfl
  | v :: ws, h, rest, hh, hv, hr => by
    have hv0 := hv v (by simp)
    simp only [List.cons_append]
    rw [joinWith_cons2, splitFirst_pre ' ' _ h _ hh]
    have hno : (' ' :: (w ++ [' '])).isPrefixOf (' ' :: joinWith ' ' (v :: (ws ++ w :: rest))) = false := by
      rw [Bool.eq_false_iff]
      intro hp
      rw [List.isPrefixOf_iff_prefix, List.cons_prefix_cons] at hp
      obtain ⟨r, h1, h2, _⟩ := joinWith_tail v (ws ++ w :: rest)
      rw [h1] at hp
      exact hv0.2 (word_eq hw hv0.1 hp.2 h2).1.symm
    rw [splitFirst, hno, splitFirst_words hw ws v rest hv0.1 (fun x hx => hv x (by simp [hx])) hr]
    rfl

theorem splitFirst_words_none {w : Str} (hw : ' ' ∉ w) : ∀ (ws : List Str) (h : Str), ' ' ∉ h → (∀ v ∈ ws, ' ' ∉ v) → (∀ v ∈ ws.dropLast, v ≠ w) →
    splitFirst (' ' :: (w ++ [' '])) (joinWith ' ' (h :: ws)) = none
  | [], h, hh, _, _ => splitFirst_none _ _ _ hh
  | v :: ws, h, hh, hv, hd => by
    have hv0 := hv v (by simp)
    rw [joinWith_cons2, splitFirst_pre ' ' _ h _ hh]
    have hno : (' ' :: (w ++ [' '])).isPrefixOf (' ' :: joinWith ' ' (v :: ws)) = false := by
      rw [Bool.eq_false_iff]
      intro hp
      rw [List.isPrefixOf_iff_prefix, List.cons_prefix_cons] at hp
      obtain ⟨r, h1, h2, h3⟩ := joinWith_tail v ws
      rw [h1] at hp
      obtain ⟨e, hr⟩ := word_eq hw hv0 hp.2 h2
      cases ws with
      | nil => exact hr (h3 rfl)
      | cons u ws => exact hd v (by simp) e.symm
    have hd' : ∀ x ∈ ws.dropLast, x ≠ w := by
      intro x hx
      cases ws with
      | nil => cases hx
      | cons u ws => exact hd x (by simp [hx])
    rw [splitFirst, hno, splitFirst_words_none hw ws v hv0 (fun x hx => hv x (by simp [hx])) hd']
    rfl

/-! ### Lists of items -/

theorem strip_around (a x b : Str) (ha : ∀ c ∈ a, c = ' ') (hb : ∀ c ∈ b, c = ' ') (hx : x ≠ []) (h : ∀ c ∈ x, isSpace c = false) :
    strip (a ++ (x ++ b)) = x :=
  stripBy_mid a x b (fun c hc => by rw [ha c hc]; rfl) (fun c hc => by rw [hb c hc]; rfl) (fun c hc => h c (List.mem_of_head? hc))
    (fun c hc => h c (List.mem_of_getLast? hc)) hx

/-- An item of a list, with spaces before and perhaps after it. -/
theorem item_name {p : Str × Option Str} (hp : Item p) (e : Str) (he : e = [] ∨ e = [' ']) :
    strip (after [' ', 'a', 's', ' '] (' ' :: (itemText p ++ e))) = p.2.getD p.1 := by
  obtain ⟨x, y⟩ := p
  obtain ⟨⟨hx, has, _⟩, hy⟩ := hp
  have hxs : ' ' ∉ x := fun h => (ident_char hx ' ' h).2.2.2.1 rfl
  have hsp : ∀ c ∈ e, c = ' ' := by rcases he with rfl | rfl <;> simp
  cases y with
  | none =>
    have hn : splitFirst [' ', 'a', 's', ' '] (' ' :: (x ++ e)) = none := by
      rcases he with rfl | rfl
      · have := splitFirst_words_none (w := ['a', 's']) (by decide) [x] [] (by simp) (by simpa using hxs) (by simp)
        simpa [joinWith] using this
      · have := splitFirst_words_none (w := ['a', 's']) (by decide) [x, []] [] (by simp) (by simpa using hxs) (by simpa using has)
        simpa [joinWith] using this
    simp only [itemText, after, hn, Option.map_none, Option.getD_none]
    exact strip_around [' '] x e (by simp) hsp hx.1 (fun c hc => (ident_char hx c hc).2.2.2.2.2.2.1)
  | some y =>
    have hy' := (hy y rfl).1
    have hf : splitFirst [' ', 'a', 's', ' '] (' ' :: (x ++ ' ' :: 'a' :: 's' :: ' ' :: y ++ e)) = some (' ' :: x, y ++ e) := by
      have e1 : ' ' :: (x ++ ' ' :: 'a' :: 's' :: ' ' :: y ++ e) = joinWith ' ' ([] :: ([x] ++ ['a', 's'] :: [y ++ e])) := by simp [joinWith]
      rw [e1]
      have := splitFirst_words (w := ['a', 's']) (by decide) [x] [] [y ++ e] (by simp) (by simpa using ⟨hxs, has⟩) (by simp)
      simpa [joinWith] using this
    simp only [itemText, after, hf, Option.map_some, Option.getD_some]
    have := strip_around [] y e (by simp) hsp hy'.1 (fun c hc => (ident_char hy' c hc).2.2.2.2.2.2.1)
    simpa using this

/-- Texts with a space before each, and something after the last. -/
def pad (e : Str) : List Str → List Str
  | [] => []
  | [t] => [' ' :: (t ++ e)]
  | t :: ts => (' ' :: t) :: pad e ts

theorem commas_pad (e : Str) : ∀ (ts : List Str), ts ≠ [] → ' ' :: (commas ts ++ e) = joinWith ',' (pad e ts)
  | [], h => absurd rfl h
  | [t], _ => by simp [commas, pad, joinWith]
  | t :: u :: ts, _ => by
    have ih := commas_pad e (u :: ts) (by simp)
    have hp : pad e (u :: ts) ≠ [] := by cases ts <;> simp [pad]
    obtain ⟨v, vs, hv⟩ : ∃ v vs, pad e (u :: ts) = v :: vs := by
      cases hh : pad e (u :: ts) with
      | nil => exact absurd hh hp
      | cons v vs => exact ⟨v, vs, rfl⟩
    have e1 : pad e (t :: u :: ts) = (' ' :: t) :: v :: vs := by rw [pad, hv]; simp
    rw [e1]
    show _ = (' ' :: t) ++ ',' :: joinWith ',' (v :: vs)
    rw [← hv, ← ih]
    simp [commas]

theorem pad_mem {e : Str} : ∀ {ts : List Str} {x : Str}, x ∈ pad e ts → ∃ t ∈ ts, x = ' ' :: t ∨ x = ' ' :: (t ++ e)
  | [], _, h => by cases h
  | [t], _, h => ⟨t, by simp, .inr (by simpa [pad] using h)⟩
  | t :: u :: ts, x, h => by
    rw [pad] at h
    · rcases List.mem_cons.1 h with h | h
      · exact ⟨t, by simp, .inl h⟩
      · obtain ⟨t', ht', h⟩ := pad_mem h
        exact ⟨t', by simp [ht'], h⟩
    · simp

theorem pad_map {e : Str} (f : Str → Str) (g : Str × Option Str → Str) : ∀ (l : List (Str × Option Str)),
    (∀ p ∈ l, f (' ' :: itemText p) = g p ∧ f (' ' :: (itemText p ++ e)) = g p) → (pad e (l.map itemText)).map f = l.map g
  | [], _ => rfl
  | [p], h => by simp [pad, (h p (by simp)).2]
  | p :: q :: l, h => by
    have ih := pad_map (e := e) f g (q :: l) (fun x hx => h x (by simp [hx]))
    simp only [List.map_cons] at ih ⊢
    rw [pad]
    · simp only [List.map_cons, (h p (by simp)).1, ih]
    · simp

theorem itemText_char {p : Str × Option Str} (hp : Item p) : itemText p ≠ [] ∧ ∀ c ∈ itemText p, c ≠ ';' ∧ c ≠ '\n' ∧ c ≠ ',' ∧ isBrace c = false := by
  obtain ⟨x, y⟩ := p
  obtain ⟨⟨hx, _⟩, hy⟩ := hp
  have cx := ident_char hx
  cases y with
  | none => exact ⟨hx.1, fun c hc => ⟨(cx c hc).1, (cx c hc).2.1, (cx c hc).2.2.1, (cx c hc).2.2.2.2.2.2.2⟩⟩
  | some y =>
    have cy := ident_char (hy y rfl).1
    refine ⟨by simp [itemText], ?_⟩
    intro c hc
    simp only [itemText, List.mem_append, List.mem_cons] at hc
    rcases hc with hc | rfl | rfl | rfl | rfl | hc
    · exact ⟨(cx c hc).1, (cx c hc).2.1, (cx c hc).2.2.1, (cx c hc).2.2.2.2.2.2.2⟩
    · decide
    · decide
    · decide
    · decide
    · exact ⟨(cy c hc).1, (cy c hc).2.1, (cy c hc).2.2.1, (cy c hc).2.2.2.2.2.2.2⟩

/-- The names of a list in braces. -/
theorem items_list {l : List (Str × Option Str)} (hl : l ≠ []) (h : ∀ p ∈ l, Item p) :
    (items ('{' :: ' ' :: (commas (l.map itemText) ++ [' ', '}']))).map strip = l.map fun p => p.2.getD p.1 := by
  have hs : stripBy isBrace ('{' :: ' ' :: (commas (l.map itemText) ++ [' ', '}'])) = ' ' :: (commas (l.map itemText) ++ [' ']) := by
    have := stripBy_mid (p := isBrace) ['{'] (' ' :: (commas (l.map itemText) ++ [' '])) ['}'] (by decide) (by decide)
      (by intro c hc; simp at hc; rw [← hc]; rfl)
      (by
        intro c hc
        rw [← List.cons_append, List.getLast?_append] at hc
        simp at hc; rw [← hc]; rfl) (by simp)
    rw [← this]
    simp
  have hne : l.map itemText ≠ [] := by simpa using hl
  have hpne : pad [' '] (l.map itemText) ≠ [] := by
    intro hh
    have := commas_pad [' '] _ hne
    rw [hh] at this; simp [joinWith] at this
  have hsep : ∀ t ∈ pad [' '] (l.map itemText), ',' ∉ t := by
    intro t ht
    obtain ⟨u, hu, ht⟩ := pad_mem ht
    obtain ⟨p, hp, rfl⟩ := List.mem_map.1 hu
    have hc : ',' ∉ itemText p := fun hh => ((itemText_char (h p hp)).2 ',' hh).2.2.1 rfl
    rcases ht with rfl | rfl <;> simp [hc]
  rw [items, hs, commas_pad [' '] _ hne, Verif.Markup.splitOn_joinWith ',' _ hpne hsep, List.map_map]
  refine pad_map _ _ l ?_
  intro p hp
  refine ⟨?_, item_name (h p hp) [' '] (.inr rfl)⟩
  have := item_name (h p hp) [] (.inl rfl)
  simpa using this

/-- The words of a list in braces. -/
def itemWords (c : Str) : Str × Option Str → List Str
  | (x, none) => [x ++ c]
  | (x, some y) => [x, ['a', 's'], y ++ c]

def listWords : List (Str × Option Str) → List Str
  | [] => []
  | [p] => itemWords [] p
  | p :: l => itemWords [','] p ++ listWords l

theorem joinWith_item (c : Str) (p : Str × Option Str) {rest : List Str} (hr : rest ≠ []) :
    joinWith ' ' (itemWords c p ++ rest) = itemText p ++ c ++ ' ' :: joinWith ' ' rest := by
  obtain ⟨x, y⟩ := p
  cases rest with
  | nil => exact absurd rfl hr
  | cons u rest => cases y <;> simp [itemWords, itemText, joinWith]

theorem joinWith_list {rest : List Str} (hr : rest ≠ []) : ∀ {l : List (Str × Option Str)}, l ≠ [] →
    joinWith ' ' (listWords l ++ rest) = commas (l.map itemText) ++ ' ' :: joinWith ' ' rest
  | [], h => absurd rfl h
  | [p], _ => by
    have := joinWith_item [] p hr
    simpa [listWords, commas] using this
  | p :: q :: l, _ => by
    have ih := joinWith_list (rest := rest) hr (l := q :: l) (by simp)
    have e : listWords (p :: q :: l) ++ rest = itemWords [','] p ++ (listWords (q :: l) ++ rest) := by
      rw [listWords]
      · simp
      · simp
    rw [e, joinWith_item _ _ (by simp [hr]), ih]
    simp [commas]

theorem listWords_mem : ∀ {l : List (Str × Option Str)} {v : Str}, v ∈ listWords l → ∃ p ∈ l, ∃ c, (c = [] ∨ c = [',']) ∧ v ∈ itemWords c p
  | [], _, h => by cases h
  | [p], v, h => ⟨p, by simp, [], .inl rfl, h⟩
  | p :: q :: l, v, h => by
    rw [listWords] at h
    · rcases List.mem_append.1 h with h | h
      · exact ⟨p, by simp, [','], .inr rfl, h⟩
      · obtain ⟨p', hp', h⟩ := listWords_mem h
        exact ⟨p', by simp [hp'], h⟩
    · simp

theorem listWords_ok {l : List (Str × Option Str)} (h : ∀ p ∈ l, Item p) : ∀ v ∈ listWords l, ' ' ∉ v ∧ v ≠ ['f', 'r', 'o', 'm'] := by
  intro v hv
  obtain ⟨⟨x, y⟩, hp, c, hc, hv⟩ := listWords_mem hv
  obtain ⟨⟨hx, _, hfrom⟩, hy⟩ := h _ hp
  have cx := ident_char hx
  have hxs : ' ' ∉ x := fun hh => (cx ' ' hh).2.2.2.1 rfl
  have word : ∀ z : Str, Ident z → z ≠ ['f', 'r', 'o', 'm'] → ' ' ∉ z ++ c ∧ z ++ c ≠ ['f', 'r', 'o', 'm'] := by
    intro z hz hne
    have hzs : ' ' ∉ z := fun hh => (ident_char hz ' ' hh).2.2.2.1 rfl
    rcases hc with rfl | rfl
    · simpa using ⟨hzs, hne⟩
    · refine ⟨by simp [hzs], ?_⟩
      intro hh
      have : ',' ∈ ['f', 'r', 'o', 'm'] := by rw [← hh]; simp
      revert this; decide
  cases y with
  | none =>
    simp only [itemWords, List.mem_singleton] at hv
    subst hv
    exact word x hx hfrom
  | some y =>
    simp only [itemWords, List.mem_cons, List.not_mem_nil, or_false] at hv
    rcases hv with rfl | rfl | rfl
    · exact ⟨hxs, hfrom⟩
    · decide
    · exact word y (hy y rfl).1 (hy y rfl).2

/-! ### Statements -/

theorem strip_body {x : Str} (hx : x ≠ []) (h1 : ∀ c, x.head? = some c → isSpace c = false) (h2 : ∀ c, x.getLast? = some c → isSpace c = false) :
    strip (' ' :: x) = x := by
  have := stripBy_mid (p := isSpace) [' '] x [] (by decide) (by simp) h1 h2 hx
  simpa [strip] using this

theorem getLast?_snoc (a : Str) (c : Char) : (a ++ [c]).getLast? = some c := by simp

/-- What is found in a statement. -/
def Right (st : Stmt) (names refs : List Str) : Prop :=
  (statement (body st)).names.map strip = names ∧ (statement (body st)).refs.map strip = refs

theorem commas_last : ∀ {ts : List Str}, ts ≠ [] → (∀ t ∈ ts, t ≠ []) → ∃ t ∈ ts, (commas ts).getLast? = t.getLast?
  | [], h, _ => absurd rfl h
  | [t], _, _ => ⟨t, by simp, rfl⟩
  | t :: u :: ts, _, h => by
    obtain ⟨v, hv, e⟩ := commas_last (ts := u :: ts) (by simp) (fun x hx => h x (by simp [hx]))
    refine ⟨v, by simp [hv], ?_⟩
    have hne : v.getLast? ≠ none := by
      intro hh; exact h v (by simp [hv]) (List.getLast?_eq_none_iff.1 hh)
    have e1 : commas (t :: u :: ts) = (t ++ [',', ' ']) ++ commas (u :: ts) := by simp [commas]
    rw [e1, List.getLast?_append, e]
    cases hg : v.getLast? with
    | none => exact absurd hg hne
    | some c => rfl

theorem right_list {l : List (Str × Option Str)} (hl : l ≠ []) (h : ∀ p ∈ l, Item p) : Right (.list l) (exported (.list l)) [] := by
  have e : body (.list l) = ' ' :: ('{' :: ' ' :: (commas (l.map itemText) ++ [' ', '}'])) := by simp [body]
  have hlast : ('{' :: ' ' :: (commas (l.map itemText) ++ [' ', '}'])).getLast? = some '}' := by
    have : '{' :: ' ' :: (commas (l.map itemText) ++ [' ', '}']) = ('{' :: ' ' :: (commas (l.map itemText) ++ [' '])) ++ ['}'] := by simp
    rw [this]; exact getLast?_snoc _ _
  have hs : strip (body (.list l)) = '{' :: ' ' :: (commas (l.map itemText) ++ [' ', '}']) := by
    rw [e]
    exact strip_body (by simp) (by intro c hc; simp at hc; rw [← hc]; rfl) (by intro c hc; rw [hlast] at hc; cases hc; rfl)
  have hcl : classify ('{' :: ' ' :: (commas (l.map itemText) ++ [' ', '}'])) = { names := items ('{' :: ' ' :: (commas (l.map itemText) ++ [' ', '}'])) } := by
    simp only [classify]
    rw [if_neg (by simp [List.isPrefixOf]), if_pos ⟨rfl, hlast⟩]
  rw [Right, statement, hs, hcl]
  exact ⟨items_list hl h, rfl⟩

theorem right_listFrom {l : List (Str × Option Str)} {r : Str} (hl : l ≠ []) (h : ∀ p ∈ l, Item p) (hr : Ref r) :
    Right (.listFrom l r) (exported (.listFrom l r)) [] := by
  have e : body (.listFrom l r) = ' ' :: ('{' :: ' ' :: (commas (l.map itemText) ++ [' ', '}', ' ', 'f', 'r', 'o', 'm', ' ', '\''] ++ r ++ ['\''])) := by simp [body]
  generalize hX : ('{' :: ' ' :: (commas (l.map itemText) ++ [' ', '}', ' ', 'f', 'r', 'o', 'm', ' ', '\''] ++ r ++ ['\''])) = X at e
  have hlast : X.getLast? = some '\'' := by
    have : X = ('{' :: ' ' :: (commas (l.map itemText) ++ [' ', '}', ' ', 'f', 'r', 'o', 'm', ' ', '\''] ++ r)) ++ ['\''] := by rw [← hX]; simp
    rw [this]; exact getLast?_snoc _ _
  have hhead : X.head? = some '{' := by rw [← hX]; rfl
  have hne : X ≠ [] := by rw [← hX]; simp
  have hs : strip (body (.listFrom l r)) = X := by
    rw [e]
    exact strip_body hne (by intro c hc; rw [hhead] at hc; cases hc; rfl) (by intro c hc; rw [hlast] at hc; cases hc; rfl)
  have hw : X = joinWith ' ' (['{'] :: ((listWords l ++ [['}']]) ++ ['f', 'r', 'o', 'm'] :: ['\'' :: (r ++ ['\''])])) := by
    have h1 := joinWith_list (rest := [['}'], ['f', 'r', 'o', 'm'], '\'' :: (r ++ ['\''])]) (by simp) hl
    have h2 : (listWords l ++ [['}']]) ++ ['f', 'r', 'o', 'm'] :: ['\'' :: (r ++ ['\''])] = listWords l ++ [['}'], ['f', 'r', 'o', 'm'], '\'' :: (r ++ ['\''])] := by simp
    rw [h2]
    have h3 : ∃ u us, listWords l ++ [['}'], ['f', 'r', 'o', 'm'], '\'' :: (r ++ ['\''])] = u :: us := by
      cases listWords l with
      | nil => exact ⟨_, _, rfl⟩
      | cons u us => exact ⟨_, _, rfl⟩
    obtain ⟨u, us, hu⟩ := h3
    rw [hu, joinWith_cons2, ← hu, h1, ← hX]
    simp [joinWith]
  have hsplit : splitFirst [' ', 'f', 'r', 'o', 'm', ' '] X = some ('{' :: ' ' :: (commas (l.map itemText) ++ [' ', '}']), '\'' :: (r ++ ['\''])) := by
    have h1 := splitFirst_words (w := ['f', 'r', 'o', 'm']) (by decide) (listWords l ++ [['}']]) ['{'] ['\'' :: (r ++ ['\''])] (by decide)
      (by
        intro v hv
        rcases List.mem_append.1 hv with hv | hv
        · exact listWords_ok h v hv
        · rw [List.mem_singleton.1 hv]; decide) (by simp)
    rw [← hw] at h1
    have h2 : joinWith ' ' (['{'] :: (listWords l ++ [['}']])) = '{' :: ' ' :: (commas (l.map itemText) ++ [' ', '}']) := by
      have h3 := joinWith_list (rest := [['}']]) (by simp) hl
      have h4 : ∃ u us, listWords l ++ [['}']] = u :: us := by
        cases listWords l with
        | nil => exact ⟨_, _, rfl⟩
        | cons u us => exact ⟨_, _, rfl⟩
      obtain ⟨u, us, hu⟩ := h4
      rw [hu, joinWith_cons2, ← hu, h3]
      simp [joinWith]
    rw [h2] at h1
    simpa [joinWith] using h1
  have pre : ∀ (c : Char) (kw : Str), c ≠ '{' → (c :: kw).isPrefixOf X = false := by
    intro c kw hc
    rw [← hX]; simp [List.isPrefixOf, hc]
  have hcl : classify X = { names := items ('{' :: ' ' :: (commas (l.map itemText) ++ [' ', '}'])) } := by
    simp only [classify]
    rw [if_neg (by rw [pre _ _ (by decide)]; simp), if_neg (by rw [hlast]; simp), if_neg (by rw [pre _ _ (by decide)]; simp),
      if_neg (by rw [pre _ _ (by decide)]; simp), if_neg (by rw [pre _ _ (by decide)]; simp), if_neg (by rw [pre _ _ (by decide)]; simp),
      if_pos ⟨hhead, by rw [hsplit]; rfl⟩, before, hsplit]
    rfl
  rw [Right, statement, hs, hcl]
  exact ⟨items_list hl h, rfl⟩

theorem ref_last {r : Str} : (r ++ ['\'']).getLast? = some '\'' := getLast?_snoc _ _

theorem strip_ref {r : Str} (hr : Ref r) : strip (stripBy isQuote ('\'' :: (r ++ ['\'']))) = r := by
  have h1 := stripBy_mid (p := isQuote) ['\''] r ['\''] (by decide) (by decide) (fun c hc => (hr.2 c (List.mem_of_head? hc)).1)
    (fun c hc => (hr.2 c (List.mem_of_getLast? hc)).1) hr.1
  simp only [List.cons_append, List.nil_append] at h1
  rw [h1]
  have h2 := strip_around [] r [] (by simp) (by simp) hr.1 (fun c hc => (hr.2 c hc).2.1)
  simpa using h2

theorem right_all {r : Str} (hr : Ref r) : Right (.all r) [] [r] := by
  have e : body (.all r) = ' ' :: ('*' :: ' ' :: 'f' :: 'r' :: 'o' :: 'm' :: ' ' :: '\'' :: (r ++ ['\''])) := by simp [body]
  have hlast : ('*' :: ' ' :: 'f' :: 'r' :: 'o' :: 'm' :: ' ' :: '\'' :: (r ++ ['\''])).getLast? = some '\'' := by
    have : '*' :: ' ' :: 'f' :: 'r' :: 'o' :: 'm' :: ' ' :: '\'' :: (r ++ ['\'']) = ('*' :: ' ' :: 'f' :: 'r' :: 'o' :: 'm' :: ' ' :: '\'' :: r) ++ ['\''] := by simp
    rw [this]; exact getLast?_snoc _ _
  have hs : strip (body (.all r)) = '*' :: ' ' :: 'f' :: 'r' :: 'o' :: 'm' :: ' ' :: '\'' :: (r ++ ['\'']) := by
    rw [e]
    exact strip_body (by simp) (by intro c hc; simp at hc; rw [← hc]; rfl) (by intro c hc; rw [hlast] at hc; cases hc; rfl)
  rw [Right, statement, hs]
  have hafter : after ['f', 'r', 'o', 'm', ' '] ('f' :: 'r' :: 'o' :: 'm' :: ' ' :: '\'' :: (r ++ ['\''])) = '\'' :: (r ++ ['\'']) := by
    have := splitFirst_char 'f' ['r', 'o', 'm', ' '] [] ('\'' :: (r ++ ['\''])) (by simp)
    simp only [List.nil_append, List.cons_append] at this
    simp only [after, this, Option.map_some, Option.getD_some]
  have hcl : classify ('*' :: ' ' :: 'f' :: 'r' :: 'o' :: 'm' :: ' ' :: '\'' :: (r ++ ['\''])) = { refs := [stripBy isQuote ('\'' :: (r ++ ['\'']))] } := by
    simp only [classify]
    rw [if_neg (by simp [List.isPrefixOf]), if_neg (by simp), if_neg (by simp [List.isPrefixOf]), if_neg (by simp [List.isPrefixOf]),
      if_neg (by simp [List.isPrefixOf]), if_pos (by simp [List.isPrefixOf])]
    simp only [List.drop_succ_cons, List.drop_zero, hafter]
  rw [hcl]
  exact ⟨rfl, by simp only [List.map_cons, List.map_nil, strip_ref hr]⟩

theorem right_allAs {n r : Str} (hn : Ident n) (hr : Ref r) : Right (.allAs n r) [n] [] := by
  have e : body (.allAs n r) = ' ' :: ('*' :: ' ' :: 'a' :: 's' :: ' ' :: (n ++ [' ', 'f', 'r', 'o', 'm', ' ', '\''] ++ r ++ ['\''])) := by simp [body]
  generalize hY : n ++ [' ', 'f', 'r', 'o', 'm', ' ', '\''] ++ r ++ ['\''] = Y at e
  have hlast : ('*' :: ' ' :: 'a' :: 's' :: ' ' :: Y).getLast? = some '\'' := by
    have : '*' :: ' ' :: 'a' :: 's' :: ' ' :: Y = ('*' :: ' ' :: 'a' :: 's' :: ' ' :: (n ++ [' ', 'f', 'r', 'o', 'm', ' ', '\''] ++ r)) ++ ['\''] := by rw [← hY]; simp
    rw [this]; exact getLast?_snoc _ _
  have hs : strip (body (.allAs n r)) = '*' :: ' ' :: 'a' :: 's' :: ' ' :: Y := by
    rw [e]
    exact strip_body (by simp) (by intro c hc; simp at hc; rw [← hc]; rfl) (by intro c hc; rw [hlast] at hc; cases hc; rfl)
  have hbefore : before [' ', 'f', 'r', 'o', 'm', ' '] Y = n := by
    have := splitFirst_char ' ' ['f', 'r', 'o', 'm', ' '] n ('\'' :: (r ++ ['\''])) (fun hh => (ident_char hn ' ' hh).2.2.2.1 rfl)
    have e : Y = n ++ ([' ', 'f', 'r', 'o', 'm', ' '] ++ '\'' :: (r ++ ['\''])) := by rw [← hY]; simp
    rw [before, e, this]; rfl
  rw [Right, statement, hs]
  have hcl : classify ('*' :: ' ' :: 'a' :: 's' :: ' ' :: Y) = { names := [n] } := by
    simp only [classify]
    rw [if_neg (by simp [List.isPrefixOf]), if_neg (by simp), if_neg (by simp [List.isPrefixOf]), if_neg (by simp [List.isPrefixOf]),
      if_pos (by simp [List.isPrefixOf])]
    simp only [List.drop_succ_cons, List.drop_zero, hbefore]
  rw [hcl]
  have := strip_around [] n [] (by simp) (by simp) hn.1 (fun c hc => (ident_char hn c hc).2.2.2.2.2.2.1)
  exact ⟨by simpa using this, rfl⟩

theorem splitOn_commas : ∀ {ts : List Str}, ts ≠ [] → (∀ t ∈ ts, ',' ∉ t) → ∃ t us, ts = t :: us ∧ splitOn ',' (commas ts) = t :: us.map (' ' :: ·)
  | [], h, _ => absurd rfl h
  | [t], _, h => ⟨t, [], rfl, by simpa [commas] using Verif.Markup.splitOn_self ',' t (h t (by simp))⟩
  | t :: u :: ts, _, h => by
    obtain ⟨t', us, e, ih⟩ := splitOn_commas (ts := u :: ts) (by simp) (fun x hx => h x (by simp [hx]))
    refine ⟨t, u :: ts, rfl, ?_⟩
    have e1 : commas (t :: u :: ts) = t ++ ',' :: (' ' :: commas (u :: ts)) := by simp [commas]
    rw [e1, Verif.Markup.splitOn_append_sep ',' t (h t (by simp))]
    have e2 : splitOn ',' (' ' :: commas (u :: ts)) = (' ' :: t') :: us.map (' ' :: ·) := by
      simp only [splitOn]
      rw [if_neg (by decide), ih]
    rw [e2, e]
    simp

theorem right_vars {l : List Str} (hl : l ≠ []) (h : ∀ x ∈ l, Ident x) : Right (.vars l) l [] := by
  have e : body (.vars l) = ' ' :: ('l' :: 'e' :: 't' :: ' ' :: commas l) := by simp [body]
  obtain ⟨t, ht, hlast⟩ := commas_last hl (fun t ht => (h t ht).1)
  have hl2 : ∃ c, (commas l).getLast? = some c ∧ isSpace c = false := by
    cases hg : t.getLast? with
    | none => exact absurd (List.getLast?_eq_none_iff.1 hg) (h t ht).1
    | some c => exact ⟨c, by rw [hlast, hg], (ident_char (h t ht) c (List.mem_of_getLast? hg)).2.2.2.2.2.2.1⟩
  obtain ⟨c, hc1, hc2⟩ := hl2
  have hs : strip (body (.vars l)) = 'l' :: 'e' :: 't' :: ' ' :: commas l := by
    rw [e]
    refine strip_body (by simp) (by intro c hc; simp at hc; rw [← hc]; rfl) ?_
    intro d hd
    have : 'l' :: 'e' :: 't' :: ' ' :: commas l = ['l', 'e', 't', ' '] ++ commas l := rfl
    rw [this, List.getLast?_append, hc1] at hd
    cases hd; exact hc2
  obtain ⟨t, us, hts, hsp⟩ := splitOn_commas hl (fun t ht hh => (ident_char (h t ht) ',' hh).2.2.1 rfl)
  rw [Right, statement, hs]
  have hcl : classify ('l' :: 'e' :: 't' :: ' ' :: commas l) = { names := (splitOn ',' (commas l)).map (before ['=']) } := by
    simp only [classify]
    rw [if_pos (by simp [List.isPrefixOf])]
    rfl
  rw [hcl]
  refine ⟨?_, rfl⟩
  have clean : ∀ x ∈ l, strip (before ['='] x) = x ∧ strip (before ['='] (' ' :: x)) = x := by
    intro x hx
    have hi := h x hx
    have hno : '=' ∉ x := fun hh => (ident_char hi '=' hh).2.2.2.2.1 rfl
    have n1 := splitFirst_none '=' [] x hno
    have n2 := splitFirst_none '=' [] (' ' :: x) (by simp [hno])
    have s1 := strip_around [] x [] (by simp) (by simp) hi.1 (fun c hc => (ident_char hi c hc).2.2.2.2.2.2.1)
    have s2 := strip_around [' '] x [] (by simp) (by simp) hi.1 (fun c hc => (ident_char hi c hc).2.2.2.2.2.2.1)
    simp only [List.nil_append, List.append_nil, List.cons_append] at s1 s2
    simp only [before, n1, n2, Option.map_none, Option.getD_none]
    exact ⟨s1, s2⟩
  simp only [hsp, List.map_cons, List.map_map]
  rw [hts]
  rw [hts] at clean
  congr 1
  · exact (clean t (by simp)).1
  · have : us.map (strip ∘ before ['='] ∘ fun x => ' ' :: x) = us.map id := List.map_congr_left fun x hx => (clean x (by simp [hx])).2
    rw [List.map_id] at this
    exact this

theorem right_const {n e : Str} (hn : Ident n) (he : Expr e) : Right (.const n e) [n] [] := by
  have eb : body (.const n e) = ' ' :: ('c' :: 'o' :: 'n' :: 's' :: 't' :: ' ' :: (n ++ ' ' :: '=' :: ' ' :: e)) := by simp [body]
  have hs : strip (body (.const n e)) = 'c' :: 'o' :: 'n' :: 's' :: 't' :: ' ' :: (n ++ ' ' :: '=' :: ' ' :: e) := by
    rw [eb]
    refine strip_body (by simp) (by intro c hc; simp at hc; rw [← hc]; rfl) ?_
    intro d hd
    have : 'c' :: 'o' :: 'n' :: 's' :: 't' :: ' ' :: (n ++ ' ' :: '=' :: ' ' :: e) = ('c' :: 'o' :: 'n' :: 's' :: 't' :: ' ' :: (n ++ [' ', '=', ' '])) ++ e := by simp
    rw [this, List.getLast?_append] at hd
    cases hg : e.getLast? with
    | none => exact absurd (List.getLast?_eq_none_iff.1 hg) he.1
    | some c => rw [hg] at hd; cases hd; exact he.2.2 _ hg
  have cn := ident_char hn
  have hbefore : before ['='] (n ++ ' ' :: '=' :: ' ' :: e) = n ++ [' '] := by
    have hno : '=' ∉ n ++ [' '] := by
      simp only [List.mem_append, List.mem_singleton, not_or]
      exact ⟨fun hh => (cn '=' hh).2.2.2.2.1 rfl, by decide⟩
    have := splitFirst_char '=' [] (n ++ [' ']) (' ' :: e) hno
    have e2 : n ++ ' ' :: '=' :: ' ' :: e = n ++ [' '] ++ (['='] ++ ' ' :: e) := by simp
    rw [before, e2, this]; rfl
  have hbr : stripBy isBrace (n ++ [' ']) = n ++ [' '] := by
    have := stripBy_mid (p := isBrace) [] (n ++ [' ']) [] (by simp) (by simp)
      (by
        intro c hc
        cases n with
        | nil => exact absurd rfl hn.1
        | cons d n => simp at hc; exact (cn c (by simp [hc])).2.2.2.2.2.2.2)
      (by intro c hc; rw [getLast?_snoc] at hc; cases hc; rfl) (by simp)
    simpa using this
  have hspl : splitOn ',' (n ++ [' ']) = [n ++ [' ']] := by
    refine Verif.Markup.splitOn_self ',' _ ?_
    simp only [List.mem_append, List.mem_singleton, not_or]
    exact ⟨fun hh => (cn ',' hh).2.2.1 rfl, by decide⟩
  have hcolon : before [':'] (n ++ [' ']) = n ++ [' '] := by
    have := splitFirst_none ':' [] (n ++ [' ']) (by
      simp only [List.mem_append, List.mem_singleton, not_or]
      exact ⟨fun hh => (cn ':' hh).2.2.2.2.2.1 rfl, by decide⟩)
    rw [before, this]; rfl
  rw [Right, statement, hs]
  have hcl : classify ('c' :: 'o' :: 'n' :: 's' :: 't' :: ' ' :: (n ++ ' ' :: '=' :: ' ' :: e)) = { names := [n ++ [' ']] } := by
    simp only [classify]
    rw [if_neg (by simp [List.isPrefixOf]), if_neg (by simp), if_pos (by simp [List.isPrefixOf])]
    simp only [List.drop_succ_cons, List.drop_zero, hbefore, hbr, hspl, List.map_cons, List.map_nil, hcolon]
  rw [hcl]
  have := strip_around [] n [' '] (by simp) (by simp) hn.1 (fun c hc => (cn c hc).2.2.2.2.2.2.1)
  exact ⟨by simpa using this, rfl⟩

theorem right_default {e : Str} (he : Expr e) : Right (.default e) [['d', 'e', 'f', 'a', 'u', 'l', 't']] [] := by
  have eb : body (.default e) = ' ' :: ('d' :: 'e' :: 'f' :: 'a' :: 'u' :: 'l' :: 't' :: ' ' :: e) := by simp [body]
  have hs : strip (body (.default e)) = 'd' :: 'e' :: 'f' :: 'a' :: 'u' :: 'l' :: 't' :: ' ' :: e := by
    rw [eb]
    refine strip_body (by simp) (by intro c hc; simp at hc; rw [← hc]; rfl) ?_
    intro d hd
    have : 'd' :: 'e' :: 'f' :: 'a' :: 'u' :: 'l' :: 't' :: ' ' :: e = ['d', 'e', 'f', 'a', 'u', 'l', 't', ' '] ++ e := rfl
    rw [this, List.getLast?_append] at hd
    cases hg : e.getLast? with
    | none => exact absurd (List.getLast?_eq_none_iff.1 hg) he.1
    | some c => rw [hg] at hd; cases hd; exact he.2.2 _ hg
  rw [Right, statement, hs]
  have hcl : classify ('d' :: 'e' :: 'f' :: 'a' :: 'u' :: 'l' :: 't' :: ' ' :: e) = { names := [['d', 'e', 'f', 'a', 'u', 'l', 't']] } := by
    simp only [classify]
    rw [if_neg (by simp [List.isPrefixOf]), if_neg (by simp), if_neg (by simp [List.isPrefixOf]), if_pos (by simp [List.isPrefixOf])]
  rw [hcl]
  exact ⟨by decide +kernel, rfl⟩

theorem right_declare {k : Bool} {n e : Str} (he : Expr e) : Right (.declare k n e) [] [] := by
  have hlast : ∀ (a : Str) (d : Char), (a ++ e).getLast? = some d → isSpace d = false := by
    intro a d hd
    rw [List.getLast?_append] at hd
    cases hg : e.getLast? with
    | none => exact absurd (List.getLast?_eq_none_iff.1 hg) he.1
    | some c => rw [hg] at hd; cases hd; exact he.2.2 _ hg
  cases k with
  | false =>
    have eb : body (.declare false n e) = ' ' :: (['f', 'u', 'n', 'c', 't', 'i', 'o', 'n', ' '] ++ n ++ e) := by simp [body]
    have hs : strip (body (.declare false n e)) = ['f', 'u', 'n', 'c', 't', 'i', 'o', 'n', ' '] ++ n ++ e := by
      rw [eb]
      exact strip_body (by simp) (by intro c hc; simp at hc; rw [← hc]; rfl) (fun d hd => hlast _ d hd)
    rw [Right, statement, hs]
    simp [classify, List.isPrefixOf]
  | true =>
    have eb : body (.declare true n e) = ' ' :: (['c', 'l', 'a', 's', 's', ' '] ++ n ++ e) := by simp [body]
    have hs : strip (body (.declare true n e)) = ['c', 'l', 'a', 's', 's', ' '] ++ n ++ e := by
      rw [eb]
      exact strip_body (by simp) (by intro c hc; simp at hc; rw [← hc]; rfl) (fun d hd => hlast _ d hd)
    rw [Right, statement, hs]
    simp [classify, List.isPrefixOf]

/-- The names the loop finds: those of functions and classes are found before it. -/
def inLoop : Stmt → List Str
  | .declare _ _ _ => []
  | st => exported st

theorem right_stmt {st : Stmt} (h : Wf st) : Right st (inLoop st) (referred st) := by
  cases st with
  | list l => exact right_list h.1 h.2
  | listFrom l r => exact right_listFrom h.1.1 h.1.2 h.2
  | all r => exact right_all h
  | allAs n r => exact right_allAs h.1 h.2
  | vars l => exact right_vars h.1 h.2
  | const n e => exact right_const h.1 h.2
  | default e => exact right_default h
  | declare k n e => exact right_declare h.2.1

/-! ### The whole text -/

/-- Characters of a statement. -/
def Line (s : Str) : Prop := ∀ c ∈ s, c ≠ ';' ∧ c ≠ '\n'

theorem Line.append {a b : Str} (ha : Line a) (hb : Line b) : Line (a ++ b) := by
  intro c hc
  rcases List.mem_append.1 hc with hc | hc
  · exact ha c hc
  · exact hb c hc

theorem line_ident {n : Str} (h : Ident n) : Line n := by
  intro c hc
  have := h.2 c hc
  constructor
  · rintro rfl; revert this; decide
  · rintro rfl; revert this; decide

theorem line_ref {r : Str} (h : Ref r) : Line r := by
  intro c hc
  have := h.2 c hc
  refine ⟨this.2.2, ?_⟩
  rintro rfl; exact absurd this.2.1 (by decide)

theorem line_commas : ∀ {ts : List Str}, (∀ t ∈ ts, Line t) → Line (commas ts)
  | [], _ => by intro c hc; cases hc
  | [t], h => h t (by simp)
  | t :: u :: ts, h => by
    have e : commas (t :: u :: ts) = t ++ ([',', ' '] ++ commas (u :: ts)) := by simp [commas]
    rw [e]
    exact (h t (by simp)).append (Line.append (by intro c hc; revert c; decide) (line_commas fun x hx => h x (by simp [hx])))

theorem line_item {p : Str × Option Str} (h : Item p) : Line (itemText p) := by
  obtain ⟨x, y⟩ := p
  cases y with
  | none => exact line_ident h.1.1
  | some y =>
    have e : itemText (x, some y) = x ++ ([' ', 'a', 's', ' '] ++ y) := by simp [itemText]
    rw [e]
    exact (line_ident h.1.1).append (Line.append (by intro c hc; revert c; decide) (line_ident (h.2 y rfl).1))

theorem line_items {l : List (Str × Option Str)} (h : ∀ p ∈ l, Item p) : Line (commas (l.map itemText)) := by
  refine line_commas ?_
  intro t ht
  obtain ⟨p, hp, rfl⟩ := List.mem_map.1 ht
  exact line_item (h p hp)

theorem body_ok {st : Stmt} (h : Wf st) : Body (body st) := by
  have lit : ∀ s : Str, (s.all fun c => c != ';' && c != '\n') = true → Line s := by
    intro s hs c hc
    have := List.all_eq_true.1 hs c hc
    simpa using this
  cases st with
  | list l => exact ⟨⟨_, rfl⟩, ((lit _ (by decide)).append (line_items h.2)).append (lit _ (by decide))⟩
  | listFrom l r =>
    exact ⟨⟨_, rfl⟩, ((((lit _ (by decide)).append (line_items h.1.2)).append (lit _ (by decide))).append (line_ref h.2)).append (lit _ (by decide))⟩
  | all r => exact ⟨⟨_, rfl⟩, ((lit _ (by decide)).append (line_ref h)).append (lit _ (by decide))⟩
  | allAs n r =>
    exact ⟨⟨_, rfl⟩, ((((lit _ (by decide)).append (line_ident h.1)).append (lit _ (by decide))).append (line_ref h.2)).append (lit _ (by decide))⟩
  | vars l => exact ⟨⟨_, rfl⟩, (lit _ (by decide)).append (line_commas fun t ht => line_ident (h.2 t ht))⟩
  | const n e => exact ⟨⟨_, rfl⟩, (((lit _ (by decide)).append (line_ident h.1)).append (lit _ (by decide))).append h.2.2.1⟩
  | default e => exact ⟨⟨_, rfl⟩, (lit _ (by decide)).append h.2.1⟩
  | declare k n e =>
    cases k
    · exact ⟨⟨_, rfl⟩, ((lit _ (by decide)).append (line_ident h.1.1)).append h.2.1.2.1⟩
    · exact ⟨⟨_, rfl⟩, ((lit _ (by decide)).append (line_ident h.1.1)).append h.2.1.2.1⟩

theorem source_code (t : Str) (l : List Row) : source (.code t :: l) = t ++ '\n' :: source l := by simp [source, Row.text]

theorem source_export (i : Str) (st : Stmt) (t : Str) (l : List Row) :
    source (.export i st t :: l) = i ++ (kwExport ++ (body st ++ (t ++ '\n' :: source l))) := by simp [source, Row.text, kwExport]

theorem stmts_wf : ∀ {l : List Row}, (∀ r ∈ l, r.Ok) → ∀ st ∈ stmts l, Wf st
  | [], _, _, h => by cases h
  | .code _ :: l, hl, st, h => stmts_wf (l := l) (fun r hr => hl r (by simp [hr])) st h
  | .export i st' t :: l, hl, st, h => by
    rcases List.mem_cons.1 h with rfl | h
    · exact (hl _ List.mem_cons_self).2.1
    · exact stmts_wf (l := l) (fun r hr => hl r (by simp [hr])) st h

theorem scan_rows : ∀ {l : List Row}, (∀ r ∈ l, r.Ok) → ∀ {n}, (source l).length ≤ n → scan n true (source l) = (stmts l).map body
  | [], _, n, _ => by cases n <;> rfl
  | .code t :: l, h, n, hn => by
    have ht := h _ List.mem_cons_self
    rw [source_code] at hn ⊢
    rw [scan_other t true n (source l).length (source l) ht.1 ht.2 hn (Nat.le_refl _)]
    exact scan_rows (l := l) (fun r hr => h r (by simp [hr])) (Nat.le_refl _)
  | .export i st t :: l, h, n, hn => by
    have ht := h _ List.mem_cons_self
    rw [source_export] at hn ⊢
    rw [scan_stmt ht.1 (body_ok ht.2.1) ht.2.2.1 ht.2.2.2 hn (Nat.le_refl _), scan_rows (l := l) (fun r hr => h r (by simp [hr])) (Nat.le_refl _)]
    rfl

theorem scan_source {l : List Row} (h : ∀ r ∈ l, r.Ok) : scan ((source l).length + 1) true (source l) = (stmts l).map body :=
  scan_rows h (by omega)

theorem functions_append (a b : Str) {n : Str} (h : n ∈ functions b) : n ∈ functions (a ++ b) := by
  induction a with
  | nil => exact h
  | cons c a ih => simp only [List.cons_append, functions]; exact List.mem_append_right _ ih

theorem takeWhile_stop {p : Char → Bool} {a b : Str} (ha : ∀ c ∈ a, p c = true) (hb : ∀ c, b.head? = some c → p c = false) :
    (a ++ b).takeWhile p = a := by
  induction a with
  | nil =>
    cases b with
    | nil => rfl
    | cons c b => rw [List.nil_append, List.takeWhile_cons_of_neg]; simp [hb c rfl]
  | cons c a ih =>
    rw [List.cons_append, List.takeWhile_cons_of_pos (ha c (by simp)), ih fun d hd => ha d (by simp [hd])]

theorem functions_declare {k : Bool} {n e rest : Str} (hn : Ident n ∧ ∀ c, n.head? = some c → c.isDigit = false)
    (he : Expr e) (hh : ∀ c, e.head? = some c → isIdent c = false) : n ∈ functions (kwExport ++ (body (.declare k n e) ++ rest)) := by
  obtain ⟨⟨hne, hid⟩, hdig⟩ := hn
  cases n with
  | nil => exact absurd rfl hne
  | cons d n =>
    have hd := ident_char ⟨hne, hid⟩ d (by simp)
    have htake : ((d :: n) ++ (e ++ rest)).takeWhile isIdent = d :: n := by
      refine takeWhile_stop hid ?_
      intro c hc
      cases e with
      | nil => exact absurd rfl he.1
      | cons f e => exact hh c (by simpa using hc)
    have hns : isSpace d = false := hd.2.2.2.2.2.2.1
    have hdd : (isIdent d && !d.isDigit) = true := by
      rw [show isIdent d = true from hid d (by simp), hdig d rfl]; rfl
    cases k
    · have e1 : kwExport ++ (body (.declare false (d :: n) e) ++ rest)
          = 'e' :: (['x', 'p', 'o', 'r', 't', ' ', 'f', 'u', 'n', 'c', 't', 'i', 'o', 'n', ' '] ++ ((d :: n) ++ (e ++ rest))) := by simp [body, kwExport]
      rw [e1, functions]
      refine List.mem_append_left _ ?_
      have hk : (keyword kwExport ('e' :: (['x', 'p', 'o', 'r', 't', ' ', 'f', 'u', 'n', 'c', 't', 'i', 'o', 'n', ' '] ++ ((d :: n) ++ (e ++ rest))))).bind
          (fun r => (keyword ['f', 'u', 'n', 'c', 't', 'i', 'o', 'n'] r).or (keyword ['c', 'l', 'a', 's', 's'] r)) = some ((d :: n) ++ (e ++ rest)) := by
        simp [keyword, kwExport, List.isPrefixOf, isSpace, List.dropWhile]
        rw [show (d == ' ' || d == '\t' || d == '\n' || d == '\r') = false from hns]
      rw [hk]
      simp only [List.cons_append] at htake ⊢
      rw [if_pos hdd, htake]
      simp
    · have e1 : kwExport ++ (body (.declare true (d :: n) e) ++ rest)
          = 'e' :: (['x', 'p', 'o', 'r', 't', ' ', 'c', 'l', 'a', 's', 's', ' '] ++ ((d :: n) ++ (e ++ rest))) := by simp [body, kwExport]
      rw [e1, functions]
      refine List.mem_append_left _ ?_
      have hk : (keyword kwExport ('e' :: (['x', 'p', 'o', 'r', 't', ' ', 'c', 'l', 'a', 's', 's', ' '] ++ ((d :: n) ++ (e ++ rest))))).bind
          (fun r => (keyword ['f', 'u', 'n', 'c', 't', 'i', 'o', 'n'] r).or (keyword ['c', 'l', 'a', 's', 's'] r)) = some ((d :: n) ++ (e ++ rest)) := by
        simp [keyword, kwExport, List.isPrefixOf, isSpace, List.dropWhile]
        rw [show (d == ' ' || d == '\t' || d == '\n' || d == '\r') = false from hns]
      rw [hk]
      simp only [List.cons_append] at htake ⊢
      rw [if_pos hdd, htake]
      simp

theorem functions_source : ∀ {l : List Row}, (∀ r ∈ l, r.Ok) → ∀ {k n e}, Stmt.declare k n e ∈ stmts l → n ∈ functions (source l)
  | [], _, _, _, _, h => by cases h
  | .code t :: l, hwf, k, n, e, h => by
    rw [source_code]
    have ih := functions_source (l := l) (fun r hr => hwf r (by simp [hr])) h
    have := functions_append (t ++ ['\n']) (source l) ih
    simpa using this
  | .export i st t :: l, hwf, k, n, e, h => by
    rw [source_export]
    have hw := hwf _ (List.mem_cons_self)
    rcases List.mem_cons.1 h with rfl | h
    · exact functions_append i _ (functions_declare hw.2.1.1 hw.2.1.2.1 hw.2.1.2.2)
    · have ih := functions_source (l := l) (fun r hr => hwf r (by simp [hr])) h
      have := functions_append (i ++ (kwExport ++ (body st ++ (t ++ ['\n'])))) (source l) ih
      simpa using this

theorem flatMap_map_strip {l : List Stmt} (h : ∀ st ∈ l, Wf st) :
    (((l.map body).map statement).flatMap (·.names)).map strip = l.flatMap inLoop ∧
    (((l.map body).map statement).flatMap (·.refs)).map strip = l.flatMap referred := by
  induction l with
  | nil => exact ⟨rfl, rfl⟩
  | cons st l ih =>
    have hr := right_stmt (h st (by simp))
    have ih := ih fun x hx => h x (by simp [hx])
    simp only [List.map_cons, List.flatMap_cons, List.map_append, ih.1, ih.2, hr.1, hr.2]
    exact ⟨trivial, trivial⟩

/-! ## C63 -/

/-- **C63 (the names found).**  For every module made of export lists, lists taken from another module, `export *`,
`export * as`, `let` and `const` declarations, default exports, functions and classes, with or without semicolons, and of
lines of other code: every name it exports is found, and the modules that are read as well are exactly those of its
`export *` statements.

Partial: one export on a line, its list on the same line, no initial values in `let`, no destructuring, no identifier `as`, no
names `from`, no `export` in other code. -/
theorem C63_found_partial {l : List Row} (h : ∀ r ∈ l, r.Ok) :
    (∀ st ∈ stmts l, ∀ n ∈ exported st, n ∈ (resolveSource (source l) false).names) ∧
    (resolveSource (source l) false).refs = (stmts l).flatMap referred := by
  have hf := flatMap_map_strip (stmts_wf h)
  refine ⟨?_, ?_⟩
  · intro st hst n hn
    have loop : ∀ m ∈ inLoop st, m ∈ (resolveSource (source l) false).names := by
      intro m hm
      simp only [resolveSource, scan_source h, List.map_append, Bool.false_eq_true, if_false]
      refine List.mem_append_right _ ?_
      rw [hf.1]
      exact List.mem_flatMap.2 ⟨st, hst, hm⟩
    cases st with
    | declare k n' e =>
      have : n = n' := by simpa [exported] using hn
      subst this
      have hw := stmts_wf h _ hst
      have hmem := functions_source h hst
      have hs := strip_around [] n [] (by simp) (by simp) hw.1.1.1 (fun c hc => (ident_char hw.1.1 c hc).2.2.2.2.2.2.1)
      simp only [List.nil_append, List.append_nil] at hs
      simp only [resolveSource, List.map_append, Bool.false_eq_true, if_false]
      refine List.mem_append_left _ (List.mem_append_right _ ?_)
      exact List.mem_map.2 ⟨n, hmem, hs⟩
    | _ => exact loop n hn
  · simp only [resolveSource, scan_source h]
    exact hf.2

/-- **C63 (a module read through `export *`).**  Its default export is not among the names, everything else is. -/
theorem C63_nested_partial {l : List Row} (h : ∀ r ∈ l, r.Ok) :
    ['d', 'e', 'f', 'a', 'u', 'l', 't'] ∉ (resolveSource (source l) true).names ∧
    ∀ st ∈ stmts l, ∀ n ∈ exported st, n ≠ ['d', 'e', 'f', 'a', 'u', 'l', 't'] → n ∈ (resolveSource (source l) true).names := by
  have e : (resolveSource (source l) true).names = (resolveSource (source l) false).names.filter (· ≠ ['d', 'e', 'f', 'a', 'u', 'l', 't']) := rfl
  rw [e]
  refine ⟨by simp, ?_⟩
  intro st hst n hn hne
  exact List.mem_filter.2 ⟨(C63_found_partial h).1 st hst n hn, by simpa using hne⟩

/-! ### Nothing else -/

/-- Specification: the word `export` stands nowhere but at the start of the statement. -/
def Once (st : Stmt) : Prop := ¬ ['e', 'x', 'p', 'o', 'r', 't'] <:+: body st

theorem keyword_none {kw s : Str} (h : ¬ kw <+: s) : keyword kw s = none := by
  rw [keyword, if_neg]
  rwa [List.isPrefixOf_iff_prefix]

theorem functions_skip {s r : Str} {d : Char} (hd : d ∉ kwExport) (h : ¬ kwExport <:+: s) :
    functions (s ++ d :: r) = functions r ∧ hasDefault (s ++ d :: r) = hasDefault r := by
  induction s with
  | nil =>
    have hk : keyword kwExport (d :: r) = none := keyword_none fun hp => absurd (prefix_stop (s := []) hd hp) (by decide)
    simp [functions, hasDefault, hk]
  | cons c s ih =>
    have ih := ih (fun hh => h (hh.trans (List.suffix_cons c s).isInfix))
    have hk : keyword kwExport (c :: (s ++ d :: r)) = none := by
      refine keyword_none fun hp => h ?_
      exact (prefix_stop (s := c :: s) (d := d) hd hp).isInfix
    simp only [List.cons_append, functions, hasDefault, hk]
    simpa using ih

/-- What the two searches find at the start of a statement. -/
def atStart (r : Str) : List Str :=
  match (keyword ['f', 'u', 'n', 'c', 't', 'i', 'o', 'n'] r).or (keyword ['c', 'l', 'a', 's', 's'] r) with
  | some (d :: r) => if isIdent d && !d.isDigit then [(d :: r).takeWhile isIdent] else []
  | _ => []

theorem head_keyword {b : Char} {t r : Str} (hb : isSpace b = false) : keyword kwExport (kwExport ++ (' ' :: b :: t ++ r)) = some (b :: t ++ r) := by
  simp only [keyword, kwExport, List.cons_append, List.nil_append, List.isPrefixOf, beq_self_eq_true, Bool.and_true, if_true,
    List.length_cons, List.length_nil, List.drop_succ_cons, List.drop_zero]
  rw [if_pos (by decide), List.dropWhile_cons, hb]
  rfl

/-- A statement: what stands at its start, and the rest of the text. -/
theorem functions_stmt {b d : Char} {t r : Str} (hd : d ∉ kwExport) (hb : isSpace b = false) (hn : ¬ kwExport <:+: ' ' :: b :: t) :
    functions (kwExport ++ (' ' :: b :: t ++ d :: r)) = atStart (b :: t ++ d :: r) ++ functions r ∧
    hasDefault (kwExport ++ (' ' :: b :: t ++ d :: r)) = ((keyword ['d', 'e', 'f', 'a', 'u', 'l', 't'] (b :: t ++ d :: r)).isSome || hasDefault r) := by
  have hk := head_keyword (b := b) (t := t) (r := d :: r) hb
  have hskip := functions_skip (r := r) hd hn
  have hx : ∀ (c : Char) (u : Str), c ≠ 'e' → keyword kwExport (c :: u) = none := by
    intro c u hc
    refine keyword_none ?_
    rintro ⟨v, hv⟩
    simp only [kwExport, List.cons_append, List.cons.injEq] at hv
    exact hc hv.1.symm
  have e : kwExport ++ (' ' :: b :: t ++ d :: r) = 'e' :: 'x' :: 'p' :: 'o' :: 'r' :: 't' :: (' ' :: b :: t ++ d :: r) := rfl
  constructor
  · rw [e] at hk ⊢
    rw [functions, hk, functions, hx _ _ (by decide), functions, hx _ _ (by decide), functions, hx _ _ (by decide), functions, hx _ _ (by decide),
      functions, hx _ _ (by decide), hskip.1]
    simp only [Option.bind_some, Option.bind_none, List.nil_append]
    rfl
  · rw [e] at hk ⊢
    rw [hasDefault, hk, hasDefault, hx _ _ (by decide), hasDefault, hx _ _ (by decide), hasDefault, hx _ _ (by decide), hasDefault, hx _ _ (by decide),
      hasDefault, hx _ _ (by decide), hskip.2]
    simp

/-- The names of functions and classes. -/
def declared : Stmt → List Str
  | .declare _ n _ => [n]
  | _ => []

def isDefault : Stmt → Bool
  | .default _ => true
  | _ => false

theorem start_ne {c : Char} {kw r : Str} {k : Char} (h : c ≠ k) : keyword (k :: kw) (c :: r) = none := by
  refine keyword_none ?_
  rintro ⟨v, hv⟩
  simp only [List.cons_append, List.cons.injEq] at hv
  exact h hv.1.symm

theorem start_ne2 {c d : Char} {kw r : Str} {k : Char} (h : d ≠ k) : keyword (c :: k :: kw) (c :: d :: r) = none := by
  refine keyword_none ?_
  rintro ⟨v, hv⟩
  simp only [List.cons_append, List.cons.injEq, true_and] at hv
  exact h hv.1.symm

theorem stmt_found {st : Stmt} (h : Wf st) (ho : Once st) {d : Char} (hd : d ∉ kwExport) (r : Str) :
    functions (kwExport ++ (body st ++ d :: r)) = declared st ++ functions r ∧
    hasDefault (kwExport ++ (body st ++ d :: r)) = (isDefault st || hasDefault r) := by
  have plain : ∀ (b : Char) (t : Str), body st = ' ' :: b :: t → isSpace b = false → atStart (b :: t ++ d :: r) = declared st →
      (keyword ['d', 'e', 'f', 'a', 'u', 'l', 't'] (b :: t ++ d :: r)).isSome = isDefault st →
      functions (kwExport ++ (body st ++ d :: r)) = declared st ++ functions r ∧
      hasDefault (kwExport ++ (body st ++ d :: r)) = (isDefault st || hasDefault r) := by
    intro b t e hb h1 h2
    have ho' : ¬ kwExport <:+: ' ' :: b :: t := by rw [← e]; exact ho
    have := functions_stmt (r := r) hd hb ho'
    rw [h1, h2] at this
    rw [e]
    exact this
  cases st with
  | list l => exact plain '{' _ rfl (by decide) (by simp only [atStart, List.cons_append]; rw [start_ne (by decide), start_ne (by decide)]; rfl) (by rw [List.cons_append, start_ne (by decide)]; rfl)
  | listFrom l x => exact plain '{' _ rfl (by decide) (by simp only [atStart, List.cons_append]; rw [start_ne (by decide), start_ne (by decide)]; rfl) (by rw [List.cons_append, start_ne (by decide)]; rfl)
  | all x => exact plain '*' _ rfl (by decide) (by simp only [atStart, List.cons_append]; rw [start_ne (by decide), start_ne (by decide)]; rfl) (by rw [List.cons_append, start_ne (by decide)]; rfl)
  | allAs n x => exact plain '*' _ rfl (by decide) (by simp only [atStart, List.cons_append]; rw [start_ne (by decide), start_ne (by decide)]; rfl) (by rw [List.cons_append, start_ne (by decide)]; rfl)
  | vars l => exact plain 'l' _ rfl (by decide) (by simp only [atStart, List.cons_append]; rw [start_ne (by decide), start_ne (by decide)]; rfl) (by rw [List.cons_append, start_ne (by decide)]; rfl)
  | const n x => exact plain 'c' ('o' :: (['n', 's', 't', ' '] ++ n ++ [' ', '=', ' '] ++ x)) rfl (by decide) (by simp only [atStart, List.cons_append]; rw [start_ne (by decide), start_ne2 (by decide)]; rfl) (by rw [List.cons_append, start_ne (by decide)]; rfl)
  | default x =>
    refine plain 'd' _ rfl (by decide) (by simp only [atStart, List.cons_append]; rw [start_ne (by decide), start_ne (by decide)]; rfl) ?_
    simp [keyword, List.isPrefixOf, isSpace, isDefault]
  | declare k n x =>
    obtain ⟨⟨⟨hne, hid⟩, hdig⟩, he, hh⟩ := h
    cases n with
    | nil => exact absurd rfl hne
    | cons d' n =>
      have hd' := ident_char ⟨hne, hid⟩ d' (by simp)
      have htake : ((d' :: n) ++ (x ++ d :: r)).takeWhile isIdent = d' :: n := by
        refine takeWhile_stop hid ?_
        intro c hc
        cases x with
        | nil => exact absurd rfl he.1
        | cons f x => exact hh c (by simpa using hc)
      have hns : isSpace d' = false := hd'.2.2.2.2.2.2.1
      have hdd : (isIdent d' && !d'.isDigit) = true := by
        rw [show isIdent d' = true from hid d' (by simp), hdig d' rfl]; rfl
      cases k
      · refine plain 'f' (['u', 'n', 'c', 't', 'i', 'o', 'n', ' '] ++ (d' :: n) ++ x) rfl (by decide) ?_ (by rw [List.cons_append, start_ne (by decide)]; rfl)
        have hk : keyword ['f', 'u', 'n', 'c', 't', 'i', 'o', 'n'] ('f' :: (['u', 'n', 'c', 't', 'i', 'o', 'n', ' '] ++ (d' :: n) ++ x) ++ d :: r) = some ((d' :: n) ++ (x ++ d :: r)) := by
          simp [keyword, List.isPrefixOf, isSpace, List.dropWhile]
          rw [show (d' == ' ' || d' == '\t' || d' == '\n' || d' == '\r') = false from hns]
        simp only [atStart, hk, Option.some_or]
        simp only [List.cons_append] at htake ⊢
        rw [if_pos hdd, htake]
        rfl
      · refine plain 'c' (['l', 'a', 's', 's', ' '] ++ (d' :: n) ++ x) rfl (by decide) ?_ (by rw [List.cons_append, start_ne (by decide)]; rfl)
        have hk : keyword ['c', 'l', 'a', 's', 's'] ('c' :: (['l', 'a', 's', 's', ' '] ++ (d' :: n) ++ x) ++ d :: r) = some ((d' :: n) ++ (x ++ d :: r)) := by
          simp [keyword, List.isPrefixOf, isSpace, List.dropWhile]
          rw [show (d' == ' ' || d' == '\t' || d' == '\n' || d' == '\r') = false from hns]
        have hf : keyword ['f', 'u', 'n', 'c', 't', 'i', 'o', 'n'] ('c' :: (['l', 'a', 's', 's', ' '] ++ (d' :: n) ++ x) ++ d :: r) = none := by
          rw [List.cons_append, start_ne (by decide)]
        simp only [atStart, hk, hf, Option.none_or]
        simp only [List.cons_append] at htake ⊢
        rw [if_pos hdd, htake]
        rfl

theorem functions_indent {i r : Str} (hi : ∀ c ∈ i, c = ' ' ∨ c = '\t') : functions (i ++ r) = functions r ∧ hasDefault (i ++ r) = hasDefault r := by
  induction i with
  | nil => exact ⟨rfl, rfl⟩
  | cons c i ih =>
    have ih := ih fun d hd => hi d (by simp [hd])
    have hc : c ≠ 'e' := by rcases hi c (by simp) with rfl | rfl <;> decide
    have hk : keyword kwExport (c :: (i ++ r)) = none := start_ne hc
    simp only [List.cons_append, functions, hasDefault, hk]
    simpa using ih

theorem source_found : ∀ {l : List Row}, (∀ r ∈ l, r.Ok) → (∀ st ∈ stmts l, Once st) →
    functions (source l) = (stmts l).flatMap declared ∧ hasDefault (source l) = (stmts l).any isDefault
  | [], _, _ => ⟨rfl, rfl⟩
  | .code t :: l, h, ho => by
    have ih := source_found (l := l) (fun x hx => h x (by simp [hx])) ho
    have hs := functions_skip (d := '\n') (r := source l) (by decide) (h _ List.mem_cons_self).2
    rw [source_code, hs.1, hs.2]
    exact ih
  | .export i st t :: l, h, ho => by
    have ih := source_found (l := l) (fun x hx => h x (by simp [hx])) (fun x hx => ho x (by simp [stmts, hx]))
    have hr := h _ List.mem_cons_self
    have h1 := functions_indent (r := kwExport ++ (body st ++ (t ++ '\n' :: source l))) hr.1
    have ho1 := ho st (by simp [stmts])
    have h2 : functions (kwExport ++ (body st ++ (t ++ '\n' :: source l))) = declared st ++ functions (source l) ∧
        hasDefault (kwExport ++ (body st ++ (t ++ '\n' :: source l))) = (isDefault st || hasDefault (source l)) := by
      rcases hr.2.2.2 with rfl | ⟨u, rfl⟩
      · exact stmt_found hr.2.1 ho1 (by decide) (source l)
      · have := stmt_found hr.2.1 ho1 (d := ';') (by decide) (u ++ '\n' :: source l)
        have hs := functions_skip (s := u) (d := '\n') (r := source l) (by decide)
          (fun hh => hr.2.2.1.2 (hh.trans (List.suffix_cons ';' u).isInfix))
        rw [hs.1, hs.2] at this
        exact this
    rw [source_export, h1.1, h1.2, h2.1, h2.2, ih.1, ih.2]
    simp [stmts]

/-- **C63 (nothing else).**  The names found are exactly those exported.

Partial: the statements of `C63_found_partial`, in which the word `export` does not occur again (within strings or names). -/
theorem C63_only_partial {l : List Row} (h : ∀ r ∈ l, r.Ok) (ho : ∀ st ∈ stmts l, Once st) (n : Str) :
    (n ∈ (resolveSource (source l) false).names ↔ ∃ st ∈ stmts l, n ∈ exported st) ∧
    (n ∈ (resolveSource (source l) true).names ↔ n ≠ ['d', 'e', 'f', 'a', 'u', 'l', 't'] ∧ ∃ st ∈ stmts l, n ∈ exported st) := by
  have main : n ∈ (resolveSource (source l) false).names ↔ ∃ st ∈ stmts l, n ∈ exported st := by
    refine ⟨?_, fun ⟨st, hst, hn⟩ => (C63_found_partial h).1 st hst n hn⟩
    obtain ⟨h1, h2⟩ := source_found h ho
    intro hn
    simp only [resolveSource, scan_source h, List.map_append, Bool.false_eq_true, if_false, (flatMap_map_strip (stmts_wf h)).1, h1, h2, List.mem_append] at hn
    rcases hn with (hn | hn) | hn
    · by_cases hd : (stmts l).any isDefault = true
      · rw [if_pos hd] at hn
        obtain ⟨st, hst, hd⟩ := List.any_eq_true.1 hd
        refine ⟨st, hst, ?_⟩
        have hstrip : strip ['d', 'e', 'f', 'a', 'u', 'l', 't'] = ['d', 'e', 'f', 'a', 'u', 'l', 't'] := by decide
        simp only [List.map_cons, List.map_nil, List.mem_singleton, hstrip] at hn
        cases st <;> simp_all [isDefault, exported]
      · rw [if_neg hd] at hn; cases hn
    · obtain ⟨m, hm, rfl⟩ := List.mem_map.1 hn
      obtain ⟨st, hst, hm⟩ := List.mem_flatMap.1 hm
      refine ⟨st, hst, ?_⟩
      cases st with
      | declare k x e =>
        simp only [declared, List.mem_singleton] at hm
        have hw := stmts_wf h _ hst
        have hs := strip_around [] x [] (by simp) (by simp) hw.1.1.1 (fun c hc => (ident_char hw.1.1 c hc).2.2.2.2.2.2.1)
        simp only [List.nil_append, List.append_nil] at hs
        rw [hm, hs]
        simp [exported]
      | _ => cases hm
    · obtain ⟨st, hst, hm⟩ := List.mem_flatMap.1 hn
      refine ⟨st, hst, ?_⟩
      cases st <;> first | exact hm | cases hm
  refine ⟨main, ?_⟩
  have e : (resolveSource (source l) true).names = (resolveSource (source l) false).names.filter (· ≠ ['d', 'e', 'f', 'a', 'u', 'l', 't']) := rfl
  rw [e, List.mem_filter, main]
  simp [and_comm]

/-- A module with a statement of each kind. -/
def sample : List Row :=
  [.code "import x from 'x'; let y = {".toList, .code "}".toList, .export [] (.list [(['a'], none), (['b'], some ['c'])]) [';'],
   .export [] (.listFrom [(['d'], none)] ['.', '/', 'm']) [], .code [], .export [] (.all ['.', '/', 'n']) "; // all of it".toList, .export [' '] (.allAs ['e'] ['p']) [],
   .export [] (.vars [['f'], ['g']]) [';'], .export [] (.const ['h'] ['1', '+', '2']) [], .export [] (.default ['x']) [';'],
   .export [] (.declare false ['k'] ['(', ')', '{']) [], .code "\treturn 1;".toList, .code ['}'], .export ['\t'] (.declare true ['K'] [' ', '{', '}']) []]

example : resolveSource (source sample) false = Found.mk [['d', 'e', 'f', 'a', 'u', 'l', 't'], ['k'], ['K'], ['a'], ['c'], ['d'], ['e'], ['f'], ['g'], ['h'], ['d', 'e', 'f', 'a', 'u', 'l', 't']]
    [['.', '/', 'n']] := by decide +kernel

example : ∀ r ∈ sample, r.Ok := by
  intro r hr
  simp only [sample, List.mem_cons, List.not_mem_nil, or_false] at hr
  rcases hr with rfl | rfl | rfl | rfl | rfl | rfl | rfl | rfl | rfl | rfl | rfl | rfl | rfl | rfl <;>
    first
    | exact ⟨by decide +kernel, by decide +kernel⟩
    | (refine ⟨by decide +kernel, ?_, ⟨by decide +kernel, by decide +kernel⟩, by first | exact .inl rfl | exact .inr ⟨_, rfl⟩⟩
       simp [Wf, Item, Ident, Ref, Expr] <;> decide)

example : ∀ st ∈ stmts sample, Once st := by unfold Once; decide +kernel

/-- **C63 fails for destructuring**: of `export const { a, b } = o;` the second name is found as `b }`, and of
`export const { a: b } = o;`, which exports `b`, the name `a` is found. -/
theorem C63_destructuring_violated :
    resolveSource "export const { a, b } = o;".toList false = { names := [['a'], ['b', ' ', '}']] } ∧
    resolveSource "export const { a: b } = o;".toList false = { names := [['a']] } := by decide +kernel

/-- **C63 fails for initial values with commas**: `export let a = f(1, x);` is read as exporting `x)`. -/
theorem C63_comma_violated : resolveSource "export let a = f(1, x);".toList false = { names := [['a'], ['x', ')']] } := by decide +kernel

/-- **C63 fails for lists over several lines**: nothing is found. -/
theorem C63_lines_violated : resolveSource "export {\n  a,\n  b\n};".toList false = { names := [] } := by decide +kernel

/-- **C63 fails for `var` and asynchronous functions**: neither name is found. -/
theorem C63_kinds_violated :
    resolveSource "export var v = 1;".toList false = { names := [] } ∧
    resolveSource "export async function f() {}".toList false = { names := [] } ∧
    resolveSource "export function* f() {}".toList false = { names := [] } := by decide +kernel

/-- **C63 fails for text that is not code**: names are found in comments and string literals. -/
theorem C63_comment_violated :
    resolveSource "// export class A\nexport const a = 'export function f';".toList false = { names := [['A'], ['f'], ['a']] } := by decide +kernel

/-- **C63 fails for `as` without spaces around it** (tabs or line ends): the whole item is taken for the name. -/
theorem C63_tab_violated : resolveSource "export { a\tas\tb };".toList false = { names := [['a', '\t', 'a', 's', '\t', 'b']] } := by decide +kernel

end Verif.Reactjs.Exports
