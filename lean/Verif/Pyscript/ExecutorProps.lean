import Verif.Pyscript.Executor
import Verif.Console.LinesProps
/-! # C81: the page runs the user's code -/
namespace Verif.Pyscript.Exec
open Verif.Console.Lines (joinNl indent splitNl splitNl_append splitNl_one splitNl_join splitNl_clean splitNl_ne)

/-! ## Specification -/

/-- Tabs as four spaces. -/
def untab (l : Str) : Str := l.flatMap fun c => if c = '\t' then List.replicate 4 ' ' else [c]

/-- A line of the user's code in the workspace: tabs as spaces, and indented by four spaces unless it is blank. -/
def bodyLine (sp : Char → Bool) (l : Str) : Str :=
  if (untab l).all sp then untab l else List.replicate 4 ' ' ++ untab l

/-- The lines of the program for the page. -/
def program (sp : Char → Bool) (contents : List Str) (uuid root : Str) : List Str :=
  ["import asyncio".toList, "from reactpy.executors.pyscript.layout_handler import ReactPyLayoutHandler".toList,
    "def user_workspace_".toList ++ uuid ++ "():".toList] ++
  (contents.flatMap splitNl).map (bodyLine sp) ++
  ["    return ".toList ++ root ++ "()".toList,
    "task_".toList ++ uuid ++ " = asyncio.create_task(ReactPyLayoutHandler(\"".toList ++ uuid ++ "\").run(user_workspace_".toList ++
      uuid ++ "))".toList]

/-- Characters of an id: `uuid4().hex`. -/
def isHex (c : Char) : Bool := c ∈ "0123456789abcdef".toList

/-- The text of a script element, for a text without `<!--`: up to the first end tag, in any case of letters. -/
def scriptText : Str → Str
  | [] => []
  | c :: l => if "</script".toList.isPrefixOf ((c :: l).map Char.toLower) then [] else c :: scriptText l

/-- The value of an attribute in single quotes, for a value without `&`. -/
def quoted (s : Str) : Str := s.takeWhile (· ≠ '\'')

/-- The value of a key. -/
def get {V : Type} (d : List (Str × V)) (k : Str) : Option V := (d.find? fun p => p.1 = k).map (·.2)

/-! ## Lemmas about `replace` -/

/-- Either is a beginning of the other. -/
def compat : Str → Str → Bool
  | [], _ => true
  | _, [] => true
  | a :: l, b :: r => a == b && compat l r

theorem compat_prefix (p a b : Str) (h : compat p a = false) : p.isPrefixOf (a ++ b) = false := by
  induction p generalizing a with
  | nil => simp [compat] at h
  | cons c p ih =>
    cases a with
    | nil => simp [compat] at h
    | cons d a =>
      simp only [compat, Bool.and_eq_false_iff] at h
      simp only [List.cons_append, List.isPrefixOf]
      rcases h with h | h
      · simp [h]
      · simp [ih a h]

/-- No match begins in the text, whatever follows. -/
def passes (p : Str) : Str → Bool
  | [] => true
  | c :: l => !compat p (c :: l) && passes p l

theorem replaceAll_pass (p r a b : Str) (h : passes p a = true) : replaceAll p r 0 (a ++ b) = a ++ replaceAll p r 0 b := by
  induction a with
  | nil => rfl
  | cons c a ih =>
    simp only [passes, Bool.and_eq_true, Bool.not_eq_true'] at h
    have := compat_prefix p (c :: a) b h.1
    simp only [List.cons_append] at this ⊢
    rw [replaceAll, this, ih h.2]
    rfl

theorem replaceAll_skip (p r a b : Str) : replaceAll p r a.length (a ++ b) = replaceAll p r 0 b := by
  induction a with
  | nil => rfl
  | cons c a ih => exact ih

theorem isPrefixOf_append (p b : Str) : p.isPrefixOf (p ++ b) = true := by
  induction p with
  | nil => simp
  | cons c p ih => simp [List.isPrefixOf, ih]

theorem replaceAll_hit (p r b : Str) (h : p ≠ []) : replaceAll p r 0 (p ++ b) = r ++ replaceAll p r 0 b := by
  cases p with
  | nil => exact absurd rfl h
  | cons c p =>
    have := isPrefixOf_append (c :: p) b
    simp only [List.cons_append] at this ⊢
    rw [replaceAll, this]
    simp only [if_true]
    have h2 := replaceAll_skip (c :: p) r p b
    simpa using h2

theorem replaceAll_pass_all (p r a : Str) (h : passes p a = true) : replaceAll p r 0 a = a := by
  have := replaceAll_pass p r a [] h
  simpa [replaceAll] using this

/-- A text without the first character of the pattern. -/
theorem passes_of_head (c : Char) (p a : Str) (h : c ∉ a) : passes (c :: p) a = true := by
  induction a with
  | nil => rfl
  | cons d a ih =>
    simp only [List.mem_cons, not_or] at h
    simp [passes, compat, ih h.2, h.1]

theorem hex_not (c : Char) (u : Str) (hu : u.all isHex = true) (hc : isHex c = false) : c ∉ u := by
  intro hm
  rw [List.all_eq_true] at hu
  rw [hu c hm] at hc
  simp at hc

theorem uuidWord_eq : uuidWord = 'U' :: "UID".toList := by decide +kernel
theorem callRoot_eq : callRoot = 'r' :: "eturn root()".toList := by decide +kernel
theorem hole_eq : hole = ' ' :: ' ' :: "  def root(): ...".toList := by decide +kernel

/-- The template with the id. -/
theorem template_uuid (u : Str) : replaceAll uuidWord u 0 template =
    t1 ++ (u ++ (t2 ++ hole ++ t3 ++ callRoot ++ t4 ++ (u ++ (t5 ++ (u ++ (t6 ++ (u ++ t7))))))) := by
  have hne : uuidWord ≠ [] := by decide +kernel
  have p1 : passes uuidWord t1 = true := by decide +kernel
  have p2 : passes uuidWord (t2 ++ hole ++ t3 ++ callRoot ++ t4) = true := by decide +kernel
  have p5 : passes uuidWord t5 = true := by decide +kernel
  have p6 : passes uuidWord t6 = true := by decide +kernel
  have p7 : passes uuidWord t7 = true := by decide +kernel
  have e : template = t1 ++ (uuidWord ++ ((t2 ++ hole ++ t3 ++ callRoot ++ t4) ++ (uuidWord ++ (t5 ++ (uuidWord ++ (t6 ++
      (uuidWord ++ t7))))))) := by
    simp only [template, List.append_assoc]
  rw [e, replaceAll_pass _ _ _ _ p1, replaceAll_hit _ _ _ hne, replaceAll_pass _ _ _ _ p2, replaceAll_hit _ _ _ hne,
    replaceAll_pass _ _ _ _ p5, replaceAll_hit _ _ _ hne, replaceAll_pass _ _ _ _ p6, replaceAll_hit _ _ _ hne,
    replaceAll_pass_all _ _ _ p7]

/-- ... and with the root. -/
theorem template_root (u r : Str) (hu : u.all isHex = true) :
    replaceAll callRoot r 0
      (t1 ++ (u ++ (t2 ++ hole ++ t3 ++ callRoot ++ t4 ++ (u ++ (t5 ++ (u ++ (t6 ++ (u ++ t7)))))))) =
    t1 ++ (u ++ (t2 ++ (hole ++ (t3 ++ (r ++ (t4 ++ (u ++ (t5 ++ (u ++ (t6 ++ (u ++ t7))))))))))) := by
  have hne : callRoot ≠ [] := by decide +kernel
  have p1 : passes callRoot t1 = true := by decide +kernel
  have p2 : passes callRoot (t2 ++ hole ++ t3) = true := by decide +kernel
  have p4 : passes callRoot t4 = true := by decide +kernel
  have p5 : passes callRoot t5 = true := by decide +kernel
  have p6 : passes callRoot t6 = true := by decide +kernel
  have p7 : passes callRoot t7 = true := by decide +kernel
  have pu : passes callRoot u = true := by
    rw [callRoot_eq]; exact passes_of_head _ _ _ (hex_not _ u hu (by decide +kernel))
  have e : t2 ++ hole ++ t3 ++ callRoot ++ t4 ++ (u ++ (t5 ++ (u ++ (t6 ++ (u ++ t7))))) =
      (t2 ++ hole ++ t3) ++ (callRoot ++ (t4 ++ (u ++ (t5 ++ (u ++ (t6 ++ (u ++ t7))))))) := by
    simp only [List.append_assoc]
  rw [e, replaceAll_pass _ _ _ _ p1, replaceAll_pass _ _ _ _ pu, replaceAll_pass _ _ _ _ p2, replaceAll_hit _ _ _ hne,
    replaceAll_pass _ _ _ _ p4, replaceAll_pass _ _ _ _ pu, replaceAll_pass _ _ _ _ p5, replaceAll_pass _ _ _ _ pu,
    replaceAll_pass _ _ _ _ p6, replaceAll_pass _ _ _ _ pu, replaceAll_pass_all _ _ _ p7]
  simp only [List.append_assoc]

/-- ... and with the code. -/
theorem template_code (u root code : Str) (hu : u.all isHex = true) (hr : root ≠ []) (hs : ' ' ∉ root) :
    replaceAll hole code 0
      (t1 ++ (u ++ (t2 ++ (hole ++ (t3 ++ (("return ".toList ++ root ++ "()".toList) ++ (t4 ++ (u ++ (t5 ++ (u ++ (t6 ++
        (u ++ t7)))))))))))) =
    t1 ++ (u ++ (t2 ++ (code ++ (t3 ++ (("return ".toList ++ root ++ "()".toList) ++ (t4 ++ (u ++ (t5 ++ (u ++ (t6 ++
        (u ++ t7))))))))))) := by
  have hne : hole ≠ [] := by decide +kernel
  have p1 : passes hole t1 = true := by decide +kernel
  have p2 : passes hole t2 = true := by decide +kernel
  have p3 : passes hole (t3 ++ "return".toList) = true := by decide +kernel
  have p4 : passes hole ("()".toList ++ t4) = true := by decide +kernel
  have p5 : passes hole t5 = true := by decide +kernel
  have p6 : passes hole t6 = true := by decide +kernel
  have p7 : passes hole t7 = true := by decide +kernel
  have pu : passes hole u = true := by
    rw [hole_eq]; exact passes_of_head _ _ _ (hex_not _ u hu (by decide +kernel))
  have pr : ∀ b, replaceAll hole code 0 (' ' :: (root ++ b)) = ' ' :: (root ++ replaceAll hole code 0 b) := by
    intro b
    have pr' : passes hole root = true := by rw [hole_eq]; exact passes_of_head _ _ _ hs
    cases root with
    | nil => exact absurd rfl hr
    | cons c root =>
      have hc : hole.isPrefixOf (' ' :: (c :: root ++ b)) = false := by
        rw [hole_eq]
        simp only [List.mem_cons, not_or] at hs
        simp [List.isPrefixOf, hs.1]
      rw [replaceAll, hc, replaceAll_pass _ _ _ _ pr']
      rfl
  have er : "return ".toList = "return".toList ++ [' '] := by decide +kernel
  have e : t3 ++ (("return ".toList ++ root ++ "()".toList) ++ (t4 ++ (u ++ (t5 ++ (u ++ (t6 ++ (u ++ t7))))))) =
      (t3 ++ "return".toList) ++ (' ' :: (root ++ (("()".toList ++ t4) ++ (u ++ (t5 ++ (u ++ (t6 ++ (u ++ t7)))))))) := by
    rw [er]; simp only [List.append_assoc, List.singleton_append, List.cons_append, List.nil_append]
  rw [e, replaceAll_pass _ _ _ _ p1, replaceAll_pass _ _ _ _ pu, replaceAll_pass _ _ _ _ p2, replaceAll_hit _ _ _ hne,
    replaceAll_pass _ _ _ _ p3, pr, replaceAll_pass _ _ _ _ p4, replaceAll_pass _ _ _ _ pu, replaceAll_pass _ _ _ _ p5,
    replaceAll_pass _ _ _ _ pu, replaceAll_pass _ _ _ _ p6, replaceAll_pass _ _ _ _ pu, replaceAll_pass_all _ _ _ p7, ← e]

theorem replaceAll_tab (s : Str) : replaceAll ['\t'] (List.replicate 4 ' ') 0 s = untab s := by
  induction s with
  | nil => rfl
  | cons c s ih =>
    have hp : (['\t'] : Str).isPrefixOf (c :: s) = ('\t' == c) := by simp [List.isPrefixOf]
    rw [replaceAll, hp]
    simp only [List.length_singleton, Nat.sub_self, ih, untab, List.flatMap_cons, beq_iff_eq]
    by_cases h : c = '\t'
    · rw [if_pos h.symm, if_pos h]
    · rw [if_neg (Ne.symm h), if_neg h]; rfl

theorem untab_append (a b : Str) : untab (a ++ b) = untab a ++ untab b := by simp [untab]

theorem untab_nl (a : Str) (h : '\n' ∉ a) : '\n' ∉ untab a := by
  intro hm
  simp only [untab, List.mem_flatMap] at hm
  obtain ⟨c, hc, hm⟩ := hm
  split at hm
  · exact absurd (List.eq_of_mem_replicate hm) (by decide)
  · simp only [List.mem_singleton] at hm
    exact h (hm ▸ hc)

theorem join_split (s : Str) : joinNl (splitNl s) = s := by
  induction s with
  | nil => rfl
  | cons c s ih =>
    unfold splitNl
    split
    next hc =>
      cases hs : splitNl s with
      | nil => exact absurd hs (splitNl_ne s)
      | cons w ws => rw [hs] at ih; simp only [joinNl, ih, hc, List.nil_append]
    · cases hs : splitNl s with
      | nil => exact absurd hs (splitNl_ne s)
      | cons w ws =>
        rw [hs] at ih
        cases ws with
        | nil => simp only [joinNl] at ih ⊢; rw [ih]
        | cons v vs => simp only [joinNl] at ih ⊢; rw [List.cons_append, ih]

theorem untab_join (ls : List Str) : untab (joinNl ls) = joinNl (ls.map untab) := by
  induction ls with
  | nil => rfl
  | cons l ls ih =>
    cases ls with
    | nil => rfl
    | cons m ls =>
      simp only [joinNl, List.map_cons] at ih ⊢
      rw [untab_append, show ('\n' :: joinNl (m :: ls)) = ['\n'] ++ joinNl (m :: ls) from rfl, untab_append, ih]
      rfl

theorem split_append (a b : Str) : splitNl (a ++ '\n' :: b) = splitNl a ++ splitNl b := by
  induction a with
  | nil => simp [splitNl]
  | cons c a ih =>
    simp only [List.cons_append]
    by_cases h : c = '\n'
    · rw [splitNl, if_pos h, ih, splitNl, if_pos h]; rfl
    · rw [splitNl, if_neg h, ih, splitNl, if_neg h]
      cases hs : splitNl a with
      | nil => exact absurd hs (splitNl_ne a)
      | cons w ws => rfl

theorem split_join (ls : List Str) (h : ls ≠ []) : splitNl (joinNl ls) = ls.flatMap splitNl := by
  induction ls with
  | nil => exact absurd rfl h
  | cons l ls ih =>
    cases ls with
    | nil => simp [joinNl]
    | cons m ls =>
      simp only [joinNl]
      rw [split_append, ih (by simp)]
      simp

theorem split_untab (s : Str) : splitNl (untab s) = (splitNl s).map untab := by
  conv => lhs; rw [← join_split s, untab_join]
  apply splitNl_join
  · simp [splitNl_ne]
  · intro l hl
    rw [List.mem_map] at hl
    obtain ⟨l', hl', rfl⟩ := hl
    exact untab_nl _ (splitNl_clean s l' hl')

theorem userCode_lines (sp : Char → Bool) (contents : List Str) (h : contents ≠ []) :
    splitNl (userCode sp contents) = (contents.flatMap splitNl).map (bodyLine sp) := by
  unfold userCode indent
  rw [replaceAll_tab, split_untab, split_join _ h, List.map_map]
  apply splitNl_join
  · simp only [ne_eq, List.map_eq_nil_iff, List.flatMap_eq_nil_iff]
    intro hall
    cases contents with
    | nil => exact h rfl
    | cons c cs => exact splitNl_ne c (hall c (by simp))
  · intro l hl
    rw [List.mem_map] at hl
    obtain ⟨l', hl', rfl⟩ := hl
    rw [List.mem_flatMap] at hl'
    obtain ⟨c, _, hc⟩ := hl'
    have := untab_nl _ (splitNl_clean c l' hc)
    simp only [Function.comp]
    split
    · exact this
    · simp only [List.mem_append, not_or]
      exact ⟨fun hm => absurd (List.eq_of_mem_replicate hm) (by decide), this⟩

/-! ## Searching -/

theorem contains_iff (p s : Str) : contains p s = true ↔ p <:+: s := by
  induction s with
  | nil => simp [contains]
  | cons c s ih =>
    simp only [contains, Bool.or_eq_true, ih, List.isPrefixOf_iff_prefix]
    exact (List.infix_cons_iff).symm

theorem infix_split (p : Str) (hp : '\n' ∉ p) (a b : Str) : p <:+: a ++ '\n' :: b ↔ p <:+: a ∨ p <:+: b := by
  constructor
  · rintro ⟨x, y, h⟩
    rw [List.append_assoc] at h
    rw [List.append_eq_append_iff] at h
    rcases h with ⟨z, h1, h2⟩ | ⟨z, h1, h2⟩
    · -- a = x ++ z
      rw [List.append_eq_append_iff] at h2
      rcases h2 with ⟨w, h3, h4⟩ | ⟨w, h3, h4⟩
      · left; exact ⟨x, w, by rw [h1, h3]; simp⟩
      · cases w with
        | nil => left; exact ⟨x, [], by rw [h1, h3]; simp⟩
        | cons d w =>
          simp only [List.cons_append, List.cons.injEq] at h4
          exact absurd (by rw [h3, ← h4.1]; simp) hp
    · cases z with
      | nil =>
        simp only [List.append_nil, List.nil_append] at h1 h2
        cases p with
        | nil => left; exact ⟨[], a, rfl⟩
        | cons d p =>
          simp only [List.cons_append, List.cons.injEq] at h2
          exact absurd (by rw [h2.1]; simp) hp
      | cons d z =>
        simp only [List.cons_append, List.cons.injEq] at h2
        right; exact ⟨z, y, by rw [h2.2]; simp⟩
  · rintro (⟨x, y, h⟩ | ⟨x, y, h⟩)
    · exact ⟨x, y ++ '\n' :: b, by rw [← h]; simp⟩
    · exact ⟨a ++ '\n' :: x, y, by rw [← h]; simp⟩

theorem infix_join (p : Str) (hp : '\n' ∉ p) (ls : List Str) (hl : ls ≠ []) : p <:+: joinNl ls ↔ ∃ l ∈ ls, p <:+: l := by
  induction ls with
  | nil => exact absurd rfl hl
  | cons l ls ih =>
    cases ls with
    | nil => simp [joinNl]
    | cons m ls =>
      simp only [joinNl]
      rw [infix_split p hp, ih (by simp)]
      simp

theorem userCode_eq (sp : Char → Bool) (contents : List Str) (h : contents ≠ []) :
    userCode sp contents = joinNl ((contents.flatMap splitNl).map (bodyLine sp)) := by
  rw [← userCode_lines sp contents h, join_split]

theorem body_ne (sp : Char → Bool) (contents : List Str) (h : contents ≠ []) :
    (contents.flatMap splitNl).map (bodyLine sp) ≠ [] := by
  rw [← userCode_lines sp contents h]; exact splitNl_ne _

theorem join_app (a b : List Str) (ha : a ≠ []) (hb : b ≠ []) : joinNl (a ++ b) = joinNl a ++ '\n' :: joinNl b := by
  induction a with
  | nil => exact absurd rfl ha
  | cons l a ih =>
    cases a with
    | nil =>
      cases b with
      | nil => exact absurd rfl hb
      | cons m b => simp [joinNl]
    | cons m a =>
      have := ih (by simp)
      simp only [List.cons_append, joinNl] at this ⊢
      rw [this]; simp

theorem frame_join (a b c d e f g h i k u r : Str) (body : List Str) (hb : body ≠ []) :
    joinNl ([a, b, c ++ u ++ d] ++ body ++ [e ++ r ++ f, g ++ u ++ h ++ u ++ i ++ u ++ k]) =
    (a ++ '\n' :: (b ++ '\n' :: c)) ++ (u ++ ((d ++ ['\n']) ++ (joinNl body ++ (('\n' :: e) ++ (r ++ (f ++ (('\n' :: g) ++
      (u ++ (h ++ (u ++ (i ++ (u ++ k)))))))))))) := by
  rw [join_app _ _ (by simp) (by simp), join_app _ _ (by simp) hb]
  simp only [joinNl, List.append_assoc, List.cons_append, List.nil_append]

theorem program_eq (sp : Char → Bool) (contents : List Str) (uuid root : Str) (hc : contents ≠ []) :
    joinNl (program sp contents uuid root) =
    t1 ++ (uuid ++ (t2 ++ (userCode sp contents ++ (t3 ++ (("return ".toList ++ root ++ "()".toList) ++ (t4 ++ (uuid ++ (t5 ++
      (uuid ++ (t6 ++ (uuid ++ t7))))))))))) := by
  have e1 : t1 = "import asyncio".toList ++ '\n' :: ("from reactpy.executors.pyscript.layout_handler import ReactPyLayoutHandler".toList ++
      '\n' :: "def user_workspace_".toList) := by decide +kernel
  have e2 : t2 = "():".toList ++ ['\n'] := by decide +kernel
  have e3 : t3 ++ "return ".toList = '\n' :: "    return ".toList := by decide +kernel
  have e4 : t4 = '\n' :: "task_".toList := by decide +kernel
  have h := frame_join "import asyncio".toList "from reactpy.executors.pyscript.layout_handler import ReactPyLayoutHandler".toList
    "def user_workspace_".toList "():".toList "    return ".toList "()".toList "task_".toList t5 t6 t7 uuid root
    _ (body_ne sp contents hc)
  rw [← e1, ← e2, ← e3, ← e4, ← userCode_eq sp contents hc] at h
  refine Eq.trans h ?_
  generalize "return ".toList = x
  generalize "()".toList = y
  simp only [List.append_assoc]

/-! ## Theorems -/

open Classical in
/-- C81: the program of a component is the user's code, each line of each file in turn (tabs as spaces, indented), within the workspace
of the component, and the call of the root; nothing else is put in or left out, and no line of the user's code is touched by the
substitution of the id and the root. It is refused exactly if no line has `def root():`. -/
theorem C81_program (sp : Char → Bool) (contents : List Str) (uuid root : Str) (hc : contents ≠ []) (hu : uuid.all isHex = true)
    (hr : root ≠ []) (hs : ' ' ∉ root) (hn : '\n' ∉ root) :
    executor sp contents uuid root =
      if ∃ l ∈ contents.flatMap splitNl, ("def ".toList ++ root ++ "():".toList) <:+: bodyLine sp l
      then some (joinNl (program sp contents uuid root)) else none := by
  have hp : '\n' ∉ ("def ".toList ++ root ++ "():".toList) := by
    have h1 : '\n' ∉ "def ".toList := by decide +kernel
    have h2 : '\n' ∉ "():".toList := by decide +kernel
    simp only [List.mem_append, not_or]
    exact ⟨⟨h1, hn⟩, h2⟩
  have hcond : contains ("def ".toList ++ root ++ "():".toList) (userCode sp contents) = true ↔
      ∃ l ∈ contents.flatMap splitNl, ("def ".toList ++ root ++ "():".toList) <:+: bodyLine sp l := by
    rw [contains_iff, userCode_eq sp contents hc, infix_join _ hp _ (body_ne sp contents hc)]
    simp only [List.mem_map]
    exact ⟨fun ⟨_, ⟨l, hl, e⟩, h⟩ => ⟨l, hl, e ▸ h⟩, fun ⟨l, hl, h⟩ => ⟨_, ⟨l, hl, rfl⟩, h⟩⟩
  unfold executor
  simp only
  rw [template_uuid, template_root _ _ hu, template_code _ _ _ hu hr hs, ← program_eq sp contents uuid root hc]
  by_cases h : contains ("def ".toList ++ root ++ "():".toList) (userCode sp contents) = true
  · rw [if_pos h, if_pos (hcond.mp h)]
  · rw [if_neg h, if_neg (fun h' => h (hcond.mpr h'))]

/-- White space. -/
def demoSpace (c : Char) : Bool := c = ' ' || c = '\n' || c = '\t'

example : executor demoSpace ["x = 'return root()'".toList, "def main():\n\treturn 'UUID'\n".toList] "a0".toList "main".toList =
    some ("import asyncio\nfrom reactpy.executors.pyscript.layout_handler import ReactPyLayoutHandler\ndef user_workspace_a0():\n    x = 'return root()'\n    def main():\n        return 'UUID'\n\n    return main()\ntask_a0 = asyncio.create_task(ReactPyLayoutHandler(\"a0\").run(user_workspace_a0))".toList) := by
  decide +kernel

/-- C81 is violated for a root whose definition is written otherwise: `def root() -> X:` is refused. -/
theorem C81_annotation_violated :
    executor demoSpace ["def root() -> str:\n    return 'a'".toList] "a0".toList "root".toList = none := by decide +kernel

/-- C81 is violated for a root that is only mentioned: a text with `def root():` is accepted, and the page's program calls a function
that isn't there. -/
theorem C81_mention_violated :
    (executor demoSpace ["'def root():'".toList] "a0".toList "root".toList).isSome = true := by decide +kernel

/-- C81 is violated for a text over several lines: it is changed by the indentation. -/
theorem C81_text_violated : ∀ p, executor demoSpace ["s = '''a\nb'''\ndef root():\n    return s".toList] "a0".toList "root".toList =
    some p → ¬ "'''a\nb'''".toList <:+: p := by
  have : ∀ o : Option Str, (o.all fun p => !contains "'''a\nb'''".toList p) = true → ∀ p, o = some p → ¬ "'''a\nb'''".toList <:+: p := by
    intro o ho p hp
    rw [hp] at ho
    rw [← contains_iff]
    simpa using ho
  exact this _ (by decide +kernel)

/-! ### The element -/

/-- The end tag isn't found across the end of the text. -/
theorem end_overlap (s rest : Str) (hs : s ≠ []) (h : "</script".toList.isPrefixOf s = false) :
    "</script".toList.isPrefixOf (s ++ '<' :: rest) = false := by
  have key : ∀ (p s : Str), '<' ∉ p → p.isPrefixOf s = false → p.isPrefixOf (s ++ '<' :: rest) = false := by
    intro p
    induction p with
    | nil => intro s _ h; simp at h
    | cons c p ih =>
      intro s hc h
      simp only [List.mem_cons, not_or] at hc
      cases s with
      | nil => simp [List.isPrefixOf, Ne.symm hc.1]
      | cons d s =>
        simp only [List.cons_append, List.isPrefixOf, Bool.and_eq_false_iff] at h ⊢
        rcases h with h | h
        · exact Or.inl h
        · exact Or.inr (ih s hc.2 h)
  have e : "</script".toList = '<' :: "/script".toList := by decide +kernel
  have e' : '<' ∉ "/script".toList := by decide +kernel
  rw [e] at h ⊢
  cases s with
  | nil => exact absurd rfl hs
  | cons d s =>
    simp only [List.cons_append, List.isPrefixOf, Bool.and_eq_false_iff] at h ⊢
    rcases h with h | h
    · exact Or.inl h
    · exact Or.inr (key _ s e' h)

theorem scriptText_end (code rest : Str) (h : ¬ "</script".toList <:+: code.map Char.toLower) :
    scriptText (code ++ ("</script>".toList ++ rest)) = code := by
  rw [← contains_iff, Bool.not_eq_true] at h
  have e : "</script>".toList = '<' :: "/script>".toList := by decide +kernel
  induction code with
  | nil =>
    have : "</script".toList.isPrefixOf (("</script>".toList ++ rest).map Char.toLower) = true := by
      have e2 : ("</script>".toList ++ rest).map Char.toLower = "</script".toList ++ ('>' :: rest.map Char.toLower) := by
        rw [List.map_append]
        have : "</script>".toList.map Char.toLower = "</script".toList ++ ['>'] := by decide +kernel
        rw [this]; simp
      rw [e2]; exact isPrefixOf_append _ _
    rw [e] at this ⊢
    simp only [List.nil_append, List.cons_append] at this ⊢
    rw [scriptText, this]; rfl
  | cons c code ih =>
    simp only [List.map_cons, contains, Bool.or_eq_false_iff] at h
    have h1 := end_overlap (c.toLower :: code.map Char.toLower) (("/script>".toList ++ rest).map Char.toLower) (by simp) h.1
    have e3 : (c :: (code ++ ("</script>".toList ++ rest))).map Char.toLower =
        (c.toLower :: code.map Char.toLower) ++ '<' :: ("/script>".toList ++ rest).map Char.toLower := by
      rw [e]
      simp only [List.map_cons, List.map_append, List.cons_append]
      rfl
    simp only [List.cons_append]
    rw [scriptText, e3, h1, ih h.2]
    rfl

/-- C81: the browser reads from the component's script element exactly the program, if there is no end tag in it; the initial content
stands in the element that the program renders into (`pyscript-` and the same id). -/
theorem C81_element_partial (sp : Char → Bool) (contents : List Str) (uuid initial root html : Str)
    (h : componentHtml sp contents uuid initial root = some html) :
    ∃ code rest, executor sp contents uuid root = some code ∧
      html = "<div id=\"pyscript-".toList ++ uuid ++ "\" class=\"pyscript\" data-uuid=\"".toList ++ uuid ++ "\">".toList ++ initial ++
        "</div>".toList ++ "<script type='py'>".toList ++ rest ∧
      (¬ "</script".toList <:+: code.map Char.toLower → scriptText rest = code ∧ rest = code ++ "</script>".toList) := by
  unfold componentHtml at h
  cases hx : executor sp contents uuid root with
  | none => rw [hx] at h; simp at h
  | some code =>
    rw [hx] at h
    simp only [Option.map_some, Option.some.injEq] at h
    refine ⟨code, code ++ "</script>".toList, rfl, ?_, fun hno => ⟨?_, rfl⟩⟩
    · rw [← h]; simp only [List.append_assoc]
    · have := scriptText_end code [] hno
      simpa only [List.append_nil] using this

example : (componentHtml demoSpace ["def root():\n    return 1 < 2".toList] "a0".toList "wait".toList "root".toList).isSome = true := by
  decide +kernel

/-- C81 is violated for code with an end tag, as in a text: the browser runs the beginning of the program only. -/
theorem C81_end_tag_violated : ∀ code, executor demoSpace ["def root():\n    return '</script>'".toList] "a0".toList "root".toList =
    some code → scriptText (code ++ "</script>".toList) ≠ code := by
  have key : ∀ (e : Str) (o : Option Str), (o.all fun p => !decide (scriptText (p ++ e) = p)) = true →
      ∀ p, o = some p → scriptText (p ++ e) ≠ p := by
    intro e o ho p hp
    rw [hp] at ho
    simpa using ho
  exact key _ _ (by decide +kernel)

/-- C81: the configuration is read back from the attribute of the setup's element exactly if it has no single quote. -/
theorem C81_attribute_partial (dumps : List (Str × J) → Str) (handler : Str) (cfg : List (Str × J)) :
    ∃ rest, setupScript dumps handler cfg = "<script type='py' config='".toList ++ rest ∧
      (quoted rest = dumps cfg ↔ '\'' ∉ dumps cfg) := by
  refine ⟨dumps cfg ++ ("'>".toList ++ (handler ++ "</script>".toList)), ?_, ?_⟩
  · unfold setupScript; simp only [List.append_assoc]
  · have e : "'>".toList = '\'' :: ['>'] := by decide +kernel
    rw [e]
    generalize handler ++ "</script>".toList = tl
    constructor
    · intro h hm
      rw [← h] at hm
      have := List.all_takeWhile (p := fun c : Char => decide (c ≠ '\'')) (l := dumps cfg ++ ('\'' :: ['>'] ++ tl))
      rw [List.all_eq_true] at this
      simpa using this _ hm
    · intro h
      unfold quoted
      rw [List.takeWhile_append_of_pos (by intro c hc; simp only [ne_eq, decide_eq_true_eq]; intro hx; exact h (hx ▸ hc))]
      simp

/-- A requirement with a single quote. -/
example : '\'' ∈ "x; python_version<'4'".toList := by decide +kernel

/-! ### The configuration -/

theorem get_put {V : Type} (d : List (Str × V)) (k j : Str) (v : V) : get (put d k v) j = if j = k then some v else get d j := by
  induction d with
  | nil =>
    by_cases h : j = k
    · simp [put, get, h]
    · simp [put, get, h, Ne.symm h]
  | cons p d ih =>
    obtain ⟨k', v'⟩ := p
    unfold put
    unfold get at ih ⊢
    by_cases hk : k' = k
    · simp only [hk, if_true, List.find?_cons]
      by_cases h : j = k
      · simp [h]
      · simp [h, Ne.symm h]
    · simp only [hk, if_false, List.find?_cons]
      by_cases h : k' = j
      · simp only [h, decide_true]
        have : j ≠ k := h ▸ hk
        simp [this]
      · simp only [h, decide_false]
        exact ih

theorem get_update {V : Type} (e d : List (Str × V)) (hn : (e.map (·.1)).Nodup) (j : Str) :
    get (update d e) j = (get e j).or (get d j) := by
  induction e generalizing d with
  | nil => simp [update, get]
  | cons p e ih =>
    obtain ⟨k, v⟩ := p
    simp only [List.map_cons, List.nodup_cons] at hn
    have h1 : update d ((k, v) :: e) = update (put d k v) e := rfl
    rw [h1, ih _ hn.2, get_put]
    by_cases h : j = k
    · have : get e k = none := by
        unfold get
        rw [Option.map_eq_none_iff, List.find?_eq_none]
        intro q hq
        simp only [decide_eq_true_eq]
        intro he
        exact hn.1 (he ▸ List.mem_map_of_mem hq)
      subst h
      rw [this]
      simp [get]
    · have h2 : get ((k, v) :: e) j = get e j := by simp [get, Ne.symm h]
      rw [h2]; simp [h]

theorem config_get (wheel morphdom : Str) (extraPy : List Str) (extraJs : List (Str × Str)) (user : List (Str × J))
    (hu : (user.map (·.1)).Nodup) (k : Str) :
    get (config wheel morphdom extraPy extraJs user) k = (get user k).or
      (if ([wheel, "jsonpointer==3.*".toList] ++ extraPy).any isWheel = true ∧ k = "packages_cache".toList then some (.str "never".toList)
       else get [("packages".toList, J.strs ([wheel, "jsonpointer==3.*".toList] ++ extraPy)),
        ("js_modules".toList, J.modules [("main".toList, update [(morphdom, "morphdom".toList)] extraJs)])] k) := by
  unfold config
  simp only
  rw [get_update _ _ hu]
  congr 1
  by_cases h : ([wheel, "jsonpointer==3.*".toList] ++ extraPy).any isWheel = true
  · rw [if_pos h, get_put]
    by_cases hk : k = "packages_cache".toList
    · rw [if_pos hk, if_pos ⟨h, hk⟩]
    · rw [if_neg hk, if_neg (fun hx => hk hx.2)]
  · rw [if_neg h, if_neg (fun hx => h hx.1)]

open Classical in
/-- C81: every entry of the user's configuration is in the result as given; where they say nothing, the packages are ReactPy's, its
requirement and the extra ones, in this order; the modules are the extra ones (their names win) and morphdom; the cache is turned off
if there is a wheel. There is nothing else. -/
theorem C81_config (wheel morphdom : Str) (extraPy : List Str) (extraJs : List (Str × Str)) (user : List (Str × J))
    (hu : (user.map (·.1)).Nodup) (hj : (extraJs.map (·.1)).Nodup) :
    (∀ k v, get user k = some v → get (config wheel morphdom extraPy extraJs user) k = some v) ∧
    (get user "packages".toList = none → get (config wheel morphdom extraPy extraJs user) "packages".toList =
      some (.strs (wheel :: "jsonpointer==3.*".toList :: extraPy))) ∧
    (get user "js_modules".toList = none → ∃ main, get (config wheel morphdom extraPy extraJs user) "js_modules".toList =
      some (.modules [("main".toList, main)]) ∧
      ∀ url, get main url = match get extraJs url with
        | some name => some name
        | none => if url = morphdom then some "morphdom".toList else none) ∧
    (get user "packages_cache".toList = none → get (config wheel morphdom extraPy extraJs user) "packages_cache".toList =
      if ∃ p ∈ wheel :: extraPy, ".whl".toList <:+ p then some (.str "never".toList) else none) ∧
    (∀ k, get user k = none → k ∉ ["packages".toList, "js_modules".toList, "packages_cache".toList] →
      get (config wheel morphdom extraPy extraJs user) k = none) := by
  have d1 : "packages".toList ≠ "packages_cache".toList := by decide +kernel
  have d2 : "js_modules".toList ≠ "packages_cache".toList := by decide +kernel
  have d3 : "packages".toList ≠ "js_modules".toList := by decide +kernel
  have hw : ([wheel, "jsonpointer==3.*".toList] ++ extraPy).any isWheel = true ↔ ∃ p ∈ wheel :: extraPy, ".whl".toList <:+ p := by
    have hjp : isWheel "jsonpointer==3.*".toList = false := by decide +kernel
    simp only [List.cons_append, List.nil_append, List.any_cons, hjp, Bool.false_or]
    rw [← List.any_cons, List.any_eq_true]
    unfold isWheel
    simp only [List.isSuffixOf_iff_suffix]
  refine ⟨?_, ?_, ?_, ?_, ?_⟩
  · intro k v h
    rw [config_get _ _ _ _ _ hu, h]; rfl
  · intro h
    rw [config_get _ _ _ _ _ hu, h, if_neg (fun hx => d1 hx.2)]
    unfold get
    rw [List.find?_cons_of_pos (by exact decide_eq_true rfl)]; rfl
  · intro h
    refine ⟨update [(morphdom, "morphdom".toList)] extraJs, ?_, ?_⟩
    · rw [config_get _ _ _ _ _ hu, h, if_neg (fun hx => d2 hx.2)]
      unfold get
      rw [List.find?_cons_of_neg (by exact fun hx => d3 (of_decide_eq_true hx)), List.find?_cons_of_pos (by exact decide_eq_true rfl)]; rfl
    · intro url
      rw [get_update _ _ hj]
      cases get extraJs url with
      | some n => rfl
      | none =>
        simp only [Option.none_or]
        unfold get
        by_cases hx : url = morphdom
        · rw [if_pos hx, List.find?_cons_of_pos (by exact decide_eq_true hx.symm)]; rfl
        · rw [if_neg hx, List.find?_cons_of_neg (by exact fun hy => hx (of_decide_eq_true hy).symm)]; rfl
  · intro h
    rw [config_get _ _ _ _ _ hu, h]
    simp only [Option.none_or]
    by_cases hx : ∃ p ∈ wheel :: extraPy, ".whl".toList <:+ p
    · rw [if_pos ⟨hw.mpr hx, trivial⟩, if_pos hx]
    · rw [if_neg (fun hy => hx (hw.mp hy.1)), if_neg hx]
      unfold get
      rw [List.find?_cons_of_neg (by exact fun hy => d1 (of_decide_eq_true hy)),
        List.find?_cons_of_neg (by exact fun hy => d2 (of_decide_eq_true hy))]; rfl
  · intro k h hk
    simp only [List.mem_cons, List.not_mem_nil, or_false, not_or] at hk
    rw [config_get _ _ _ _ _ hu, h, if_neg (fun hx => hk.2.2 hx.2)]
    unfold get
    rw [List.find?_cons_of_neg (by exact fun hy => hk.1 (of_decide_eq_true hy).symm),
        List.find?_cons_of_neg (by exact fun hy => hk.2.1 (of_decide_eq_true hy).symm)]; rfl

/-- Two extra modules, one under morphdom's address. -/
example : get (update [("/m.js".toList, "morphdom".toList)] [("/a.js".toList, "a".toList), ("/m.js".toList, "mine".toList)]) "/m.js".toList =
    some "mine".toList := by decide +kernel

/-- C81 is violated for a configuration with packages: neither ReactPy nor the extra packages are left, so that the page can't import
`reactpy`. -/
theorem C81_packages_violated (wheel morphdom : Str) (extraPy : List Str) (extraJs : List (Str × Str)) :
    get (config wheel morphdom extraPy extraJs [("packages".toList, J.strs ["numpy".toList])]) "packages".toList =
      some (.strs ["numpy".toList]) :=
  have hu : (([("packages".toList, J.strs ["numpy".toList])] : List (Str × J)).map (·.1)).Nodup := by
    rw [List.map_cons, List.map_nil]; exact List.pairwise_singleton _ _
  by
    rw [config_get _ _ _ _ _ hu]
    unfold get
    rw [List.find?_cons_of_pos (by exact decide_eq_true rfl)]; rfl

end Verif.Pyscript.Exec
