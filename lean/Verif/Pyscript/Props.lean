import Verif.Pyscript.Model
import Verif.Markup.Names
import Verif.Layout.Props
/-! # PyScript: properties C56, C61 and C62 -/
namespace Verif.Pyscript
open Verif.Markup (splitOn)
open Verif.Layout (VJson Shell HEntry AVal)

/-! ## Workspaces -/

theorem ws_eq (u : Str) : workspaceName u = ['u', 's', 'e', 'r', '_', 'w', 'o', 'r', 'k', 's', 'p', 'a', 'c', 'e', '_'] ++ u := by
  unfold workspaceName
  congr 1

theorem task_eq (u : Str) : taskName u = ['t', 'a', 's', 'k', '_'] ++ u := by
  unfold taskName
  congr 1

theorem prefixes_differ (u v : Str) : taskName u ≠ workspaceName v := by
  intro h
  rw [task_eq, ws_eq] at h
  revert h
  simp only [List.cons_append, List.cons.injEq]
  intro h
  exact absurd h.1 (by decide)

theorem workspaceName_inj {u v : Str} (h : workspaceName u = workspaceName v) : u = v := List.append_cancel_left h
theorem taskName_inj {u v : Str} (h : taskName u = taskName v) : u = v := List.append_cancel_left h

theorem deleteWorkspace_names (g : Globals) (u n : Str) :
    n ∈ (deleteWorkspace g u).names ↔ n ∈ g.names ∧ n ≠ taskName u ∧ n ≠ workspaceName u := by
  simp only [deleteWorkspace]
  by_cases h1 : taskName u ∈ g.names
  · simp only [if_pos h1]
    split
    · simp only [List.mem_filter, decide_eq_true_eq, ne_eq]
      exact ⟨fun ⟨⟨a, b⟩, c⟩ => ⟨a, b, c⟩, fun ⟨a, b, c⟩ => ⟨⟨a, b⟩, c⟩⟩
    · rename_i h2
      simp only [List.mem_filter, decide_eq_true_eq, ne_eq] at h2 ⊢
      refine ⟨fun ⟨a, b⟩ => ⟨a, b, fun h => h2 ⟨h ▸ a, fun h' => prefixes_differ u u h'.symm⟩⟩, fun ⟨a, b, _⟩ => ⟨a, b⟩⟩
  · simp only [if_neg h1]
    split
    · simp only [List.mem_filter, decide_eq_true_eq, ne_eq]
      exact ⟨fun ⟨a, c⟩ => ⟨a, fun h => h1 (h ▸ a), c⟩, fun ⟨a, _, c⟩ => ⟨a, c⟩⟩
    · rename_i h2
      exact ⟨fun a => ⟨a, fun h => h1 (h ▸ a), fun h => h2 (h ▸ a)⟩, fun h => h.1⟩

theorem deleteWorkspace_cancelled (g : Globals) (u n : Str) :
    n ∈ (deleteWorkspace g u).cancelled ↔ n ∈ g.cancelled ∨ (n = taskName u ∧ taskName u ∈ g.names) := by
  simp only [deleteWorkspace]
  by_cases h1 : taskName u ∈ g.names
  · simp only [if_pos h1]
    split <;> simp [h1]
  · simp only [if_neg h1]
    split <;> simp [h1]

theorem foldl_names (order : List Str) (g : Globals) (n : Str) :
    n ∈ (order.foldl deleteWorkspace g).names ↔ n ∈ g.names ∧ ∀ u ∈ order, n ≠ taskName u ∧ n ≠ workspaceName u := by
  induction order generalizing g with
  | nil => simp
  | cons u l ih =>
    rw [List.foldl_cons, ih, deleteWorkspace_names]
    simp only [List.mem_cons, forall_eq_or_imp, and_assoc]

theorem foldl_cancelled (order : List Str) (hn : order.Nodup) (g : Globals) (n : Str) :
    n ∈ (order.foldl deleteWorkspace g).cancelled ↔ n ∈ g.cancelled ∨ ∃ u ∈ order, n = taskName u ∧ taskName u ∈ g.names := by
  induction order generalizing g with
  | nil => simp
  | cons u l ih =>
    rw [List.nodup_cons] at hn
    rw [List.foldl_cons, ih hn.2, deleteWorkspace_cancelled]
    constructor
    · rintro ((h | h) | ⟨v, hv, h1, h2⟩)
      · exact .inl h
      · exact .inr ⟨u, by simp, h⟩
      · exact .inr ⟨v, by simp [hv], h1, ((deleteWorkspace_names g u _).1 h2).1⟩
    · rintro (h | ⟨v, hv, h1, h2⟩)
      · exact .inl (.inl h)
      · rcases List.mem_cons.1 hv with rfl | hv
        · exact .inl (.inr ⟨h1, h2⟩)
        · refine .inr ⟨v, hv, h1, (deleteWorkspace_names g u _).2 ⟨h2, ?_, prefixes_differ v u⟩⟩
          intro h
          exact hn.1 (taskName_inj h ▸ hv)

theorem lastPart {u : Str} (h : '_' ∉ u) : (splitOn '_' (workspaceName u)).getLastD [] = u := by
  have e : workspaceName u = ['u', 's', 'e', 'r'] ++ '_' :: (['w', 'o', 'r', 'k', 's', 'p', 'a', 'c', 'e'] ++ '_' :: u) := by
    rw [ws_eq]; rfl
  rw [e, Verif.Markup.splitOn_append_sep _ _ (by decide), Verif.Markup.splitOn_append_sep _ _ (by decide),
    Verif.Markup.splitOn_self _ _ h]
  rfl

/-- **C56.**  After the collection, for every uuid (of hex digits, as the server makes them; only that it has no underscore
matters) and whatever the order of deletion: its workspace is there exactly if it was and its element is in the document;
its task is there exactly if it was and it does not belong to a workspace removed; the tasks cancelled are exactly those of
the removed workspaces; all other globals stay. -/
theorem C56_workspaces (names dom order : List Str)
    (hu : ∀ n ∈ names, "user_workspace_".toList <+: n → ∃ u, n = "user_workspace_".toList ++ u ∧ '_' ∉ u)
    (ho : Enumerates names dom order) :
    let g := deleteOldWorkspaces names order
    let workspace : Str → Str := fun u => "user_workspace_".toList ++ u
    let task : Str → Str := fun u => "task_".toList ++ u
    (∀ u, '_' ∉ u → (workspace u ∈ g.names ↔ workspace u ∈ names ∧ u ∈ dom)) ∧
    (∀ u, '_' ∉ u → (task u ∈ g.names ↔ task u ∈ names ∧ ¬ (workspace u ∈ names ∧ u ∉ dom))) ∧
    (∀ n, n ∈ g.cancelled ↔ ∃ u, n = task u ∧ task u ∈ names ∧ workspace u ∈ names ∧ u ∉ dom) ∧
    (∀ n, (∀ u, n ≠ task u ∧ n ≠ workspace u) → (n ∈ g.names ↔ n ∈ names)) := by
  change let g := deleteOldWorkspaces names order
    (∀ u, '_' ∉ u → (workspaceName u ∈ g.names ↔ workspaceName u ∈ names ∧ u ∈ dom)) ∧
    (∀ u, '_' ∉ u → (taskName u ∈ g.names ↔ taskName u ∈ names ∧ ¬ (workspaceName u ∈ names ∧ u ∉ dom))) ∧
    (∀ n, n ∈ g.cancelled ↔ ∃ u, n = taskName u ∧ taskName u ∈ names ∧ workspaceName u ∈ names ∧ u ∉ dom) ∧
    (∀ n, (∀ u, n ≠ taskName u ∧ n ≠ workspaceName u) → (n ∈ g.names ↔ n ∈ names))
  replace hu : ∀ n ∈ names, "user_workspace_".toList <+: n → ∃ u, n = workspaceName u ∧ '_' ∉ u := hu
  have hpy : ∀ u, u ∈ pythonUuids names ↔ '_' ∉ u ∧ workspaceName u ∈ names := by
    intro u
    simp only [pythonUuids, List.mem_map, List.mem_filter, List.isPrefixOf_iff_prefix]
    constructor
    · rintro ⟨n, ⟨hn, hp⟩, rfl⟩
      obtain ⟨v, rfl, hv⟩ := hu n hn hp
      rw [lastPart hv]
      exact ⟨hv, hn⟩
    · rintro ⟨h1, h2⟩
      exact ⟨workspaceName u, ⟨h2, ⟨u, rfl⟩⟩, lastPart h1⟩
  have hord : ∀ u, u ∈ order ↔ ('_' ∉ u ∧ workspaceName u ∈ names) ∧ u ∉ dom := fun u => by rw [ho.2, hpy]
  have hno : ∀ u, workspaceName u ∈ names → '_' ∉ u := by
    intro u h
    obtain ⟨v, h1, h2⟩ := hu _ h ⟨u, rfl⟩
    rw [workspaceName_inj h1]; exact h2
  refine ⟨?_, ?_, ?_, ?_⟩
  · intro u hu'
    rw [deleteOldWorkspaces, foldl_names]
    constructor
    · rintro ⟨h1, h2⟩
      refine ⟨h1, Classical.byContradiction fun hd => ?_⟩
      exact (h2 u ((hord u).2 ⟨⟨hu', h1⟩, hd⟩)).2 rfl
    · rintro ⟨h1, h2⟩
      refine ⟨h1, fun v hv => ⟨(prefixes_differ v u).symm, fun h => ?_⟩⟩
      rw [← workspaceName_inj h] at hv
      exact ((hord u).1 hv).2 h2
  · intro u hu'
    rw [deleteOldWorkspaces, foldl_names]
    constructor
    · rintro ⟨h1, h2⟩
      refine ⟨h1, fun ⟨h3, h4⟩ => ?_⟩
      exact (h2 u ((hord u).2 ⟨⟨hu', h3⟩, h4⟩)).1 rfl
    · rintro ⟨h1, h2⟩
      refine ⟨h1, fun v hv => ⟨fun h => ?_, prefixes_differ u v⟩⟩
      rw [← taskName_inj h] at hv
      obtain ⟨⟨_, h3⟩, h4⟩ := (hord u).1 hv
      exact h2 ⟨h3, h4⟩
  · intro n
    rw [deleteOldWorkspaces, foldl_cancelled order ho.1]
    simp only [List.not_mem_nil, false_or]
    constructor
    · rintro ⟨u, hu', h1, h2⟩
      obtain ⟨⟨_, h3⟩, h4⟩ := (hord u).1 hu'
      exact ⟨u, h1, h2, h3, h4⟩
    · rintro ⟨u, h1, h2, h3, h4⟩
      exact ⟨u, (hord u).2 ⟨⟨hno u h3, h3⟩, h4⟩, h1, h2⟩
  · intro n hn
    rw [deleteOldWorkspaces, foldl_names]
    exact ⟨fun h => h.1, fun h => ⟨h, fun u _ => hn u⟩⟩

theorem deleteWorkspace_errors (g : Globals) (u n : Str) :
    n ∈ (deleteWorkspace g u).errors ↔ n ∈ g.errors ∨ (n = taskName u ∧ taskName u ∉ g.names) ∨ (n = workspaceName u ∧ workspaceName u ∉ g.names) := by
  simp only [deleteWorkspace]
  by_cases h1 : taskName u ∈ g.names
  · simp only [if_pos h1]
    by_cases h2 : workspaceName u ∈ g.names
    · have : workspaceName u ∈ g.names.filter (· ≠ taskName u) := by simp [h2, (prefixes_differ u u).symm]
      rw [if_pos this]
      simp [h1, h2]
    · have : workspaceName u ∉ g.names.filter (· ≠ taskName u) := by simp [h2]
      rw [if_neg this]
      simp [h1, h2]
  · simp only [if_neg h1]
    by_cases h2 : workspaceName u ∈ g.names <;> simp [h1, h2]

/-- **C56.**  Whatever the names are: what the collection could not find is logged, and nothing else. -/
theorem C56_logged (names dom order : List Str) (ho : Enumerates names dom order) (n : Str) :
    n ∈ (deleteOldWorkspaces names order).errors ↔ ∃ u ∈ order, n ∉ names ∧ (n = "task_".toList ++ u ∨ n = "user_workspace_".toList ++ u) := by
  have main : ∀ (order : List Str), order.Nodup → ∀ g : Globals, n ∈ (order.foldl deleteWorkspace g).errors ↔
      n ∈ g.errors ∨ ∃ u ∈ order, n ∉ g.names ∧ (n = taskName u ∨ n = workspaceName u) := by
    intro order
    induction order with
    | nil => simp
    | cons u l ih =>
      intro hn g
      rw [List.nodup_cons] at hn
      rw [List.foldl_cons, ih hn.2, deleteWorkspace_errors]
      constructor
      · rintro ((h | ⟨rfl, h⟩ | ⟨rfl, h⟩) | ⟨v, hv, h1, h2⟩)
        · exact .inl h
        · exact .inr ⟨u, by simp, h, .inl rfl⟩
        · exact .inr ⟨u, by simp, h, .inr rfl⟩
        · refine .inr ⟨v, by simp [hv], fun h => h1 ((deleteWorkspace_names g u _).2 ⟨h, ?_, ?_⟩), h2⟩
          · rcases h2 with rfl | rfl
            · exact fun e => hn.1 (taskName_inj e ▸ hv)
            · exact (prefixes_differ u v).symm
          · rcases h2 with rfl | rfl
            · exact prefixes_differ v u
            · exact fun e => hn.1 (workspaceName_inj e ▸ hv)
      · rintro (h | ⟨v, hv, h1, h2⟩)
        · exact .inl (.inl h)
        · rcases List.mem_cons.1 hv with rfl | hv
          · rcases h2 with rfl | rfl
            · exact .inl (.inr (.inl ⟨rfl, h1⟩))
            · exact .inl (.inr (.inr ⟨rfl, h1⟩))
          · exact .inr ⟨v, hv, fun h => h1 ((deleteWorkspace_names g u _).1 h).1, h2⟩
  have := main order ho.1 { names := names }
  simp only [List.not_mem_nil, false_or] at this
  exact this

def demoNames : List Str := [workspaceName "a1".toList, taskName "a1".toList, workspaceName "b2".toList, taskName "b2".toList, "js".toList]

example : pythonUuids demoNames = ["a1".toList, "b2".toList] ∧
    (deleteOldWorkspaces demoNames ["a1".toList]).names = [workspaceName "b2".toList, taskName "b2".toList, "js".toList] := by decide +kernel

example : Enumerates [workspaceName "x_a1".toList] [] ["a1".toList] ∧
    (deleteOldWorkspaces [workspaceName "x_a1".toList] ["a1".toList]).errors = [taskName "a1".toList, workspaceName "a1".toList] :=
  ⟨⟨by simp, fun u => by
      have : pythonUuids [workspaceName "x_a1".toList] = ["a1".toList] := by decide +kernel
      rw [this]; simp⟩, by decide +kernel⟩

/-! ## The document -/

/-- Specification: a model read with its fragments (and components) taken away. -/
inductive Flat : List VJson → List VJson → Prop
  | nil : Flat [] []
  | text (s : String) {l m : List VJson} : Flat l m → Flat (.text s :: l) (.text s :: m)
  | elem {sh : Shell} {c : Option (List VJson)} {l m : List VJson} (h : sh.tag ≠ "") : Flat l m → Flat (.obj sh c :: l) (.obj sh c :: m)
  | fragment {sh : Shell} {c : Option (List VJson)} {l m : List VJson} (h : sh.tag = "") : Flat (c.getD [] ++ l) m → Flat (.obj sh c :: l) m

/-- Specification: the event a handler listens to: its name in lower case, without a leading `on`. -/
def eventOf (name : String) : String :=
  match name.toList with
  | o :: n :: rest =>
    if o.toLower = 'o' ∧ n.toLower = 'n' then String.ofList (rest.map Char.toLower) else String.ofList (name.toList.map Char.toLower)
  | l => String.ofList (l.map Char.toLower)

mutual
/-- Specification: an element of the document shows a model: the attributes under their HTML names, a listener for each
handler, and the children without fragments. -/
inductive ShowsDom : VJson → Dom → Prop
  | text (s : String) : ShowsDom (.text s) (.text s)
  | elem {sh : Shell} {c : Option (List VJson)} {attrs : List (String × AVal)} {ls : List Listener} {kids : List Dom} (m : List VJson)
      (htag : sh.tag ≠ "")
      (hattrs : attrs = (sh.attrs.getD []).map fun p => (if p.1 = "className" then "class" else p.1, p.2))
      (hls : ls = (sh.handlers.getD []).map fun h => ⟨eventOf h.event, h.target⟩)
      (hflat : Flat (c.getD []) m) (hkids : ShowsAll m kids) : ShowsDom (.obj sh c) (.elem sh.tag attrs ls kids)
/-- Nodes of the document show models one by one. -/
inductive ShowsAll : List VJson → List Dom → Prop
  | nil : ShowsAll [] []
  | cons {v : VJson} {d : Dom} {l : List VJson} {ds : List Dom} (h : ShowsDom v d) (hs : ShowsAll l ds) : ShowsAll (v :: l) (d :: ds)
end

theorem Flat.append {l m l' m' : List VJson} (h : Flat l m) (h' : Flat l' m') : Flat (l ++ l') (m ++ m') := by
  induction h with
  | nil => exact h'
  | text s _ ih => exact .text s ih
  | elem ht _ ih => exact .elem ht ih
  | fragment ht _ ih => exact .fragment ht (by rw [List.append_assoc] at ih; exact ih)

theorem ShowsAll.append : ∀ {l : List VJson} {ds : List Dom} {l' : List VJson} {ds' : List Dom}, ShowsAll l ds → ShowsAll l' ds' →
    ShowsAll (l ++ l') (ds ++ ds')
  | _, _, _, _, .nil, h' => h'
  | _, _, _, _, .cons h hs, h' => .cons h (hs.append h')

theorem eventOf_eq (name : String) : domEvent name = eventOf name := by
  have hon : "on".toList = ['o', 'n'] := by decide
  simp only [domEvent, eventOf, hon]
  rcases name.toList with _ | ⟨o, _ | ⟨n, rest⟩⟩
  · rfl
  · simp [List.isPrefixOf]
  · simp only [List.map_cons, List.isPrefixOf, Bool.and_true, Bool.and_eq_true, beq_iff_eq, List.drop_succ_cons, List.drop_zero,
      eq_comm (a := 'o'), eq_comm (a := 'n')]
    split <;> rfl

/-- The branch of elements. -/
theorem build_obj (sh : Shell) (children : Option (List VJson)) : build (.obj sh children) =
    if sh.tag = "" then (match children with | none => [] | some l => buildAll l)
    else [.elem sh.tag ((sh.attrs.getD []).map domAttr) ((sh.handlers.getD []).map fun h => ⟨domEvent h.event, h.target⟩)
      (match children with | none => [] | some l => buildAll l)] := by
  rw [build.eq_def]
  cases children <;> rfl

mutual
theorem build_shows : ∀ v : VJson, ∃ m, Flat [v] m ∧ ShowsAll m (build v)
  | .text s => ⟨[.text s], .text s .nil, .cons (.text s) .nil⟩
  | .obj sh children => by
    have key : ∃ m, Flat (children.getD []) m ∧ ShowsAll m (match children with | none => [] | some l => buildAll l) := by
      cases children with
      | none => exact ⟨[], .nil, .nil⟩
      | some l => exact buildAll_shows l
    obtain ⟨m, h1, h2⟩ := key
    rw [build_obj]
    by_cases ht : sh.tag = ""
    · rw [if_pos ht]
      exact ⟨m, .fragment ht (by rw [List.append_nil]; exact h1), h2⟩
    · rw [if_neg ht]
      refine ⟨[.obj sh children], .elem ht .nil, .cons (.elem m ht ?_ (by simp only [eventOf_eq]) h1 h2) .nil⟩
      refine List.map_congr_left fun p _ => ?_
      simp only [domAttr]
      split <;> rfl
theorem buildAll_shows : ∀ l : List VJson, ∃ m, Flat l m ∧ ShowsAll m (buildAll l)
  | [] => ⟨[], .nil, .nil⟩
  | v :: l => by
    obtain ⟨m, h1, h2⟩ := build_shows v
    obtain ⟨m', h1', h2'⟩ := buildAll_shows l
    exact ⟨m ++ m', h1.append h1', h2.append h2'⟩
end

/-- **C61.**  The document built in the browser shows the model: elements with their attributes, listeners that address the
same handlers, children and texts in order; fragments and components leave no trace. -/
theorem C61_document (v : VJson) : ∃ m, Flat [v] m ∧ ShowsAll m (build v) := build_shows v

/-- **C61.**  So at every moment of every run (up to failures, as in C01) the document shows the expansion of the root
component. -/
theorem C61_run_partial {U : Verif.Layout.User} (w : U.World) (root : Verif.Layout.Comp) (ops : List (Verif.Layout.Op U))
    (hs : (Verif.Layout.runSys (Verif.Layout.initSys U w root) ops).stray = false) :
    let s := Verif.Layout.runSys (Verif.Layout.initSys U w root) ops
    s.client = .empty ∨
    ∃ v F m, s.client = .model v ∧
      Verif.Layout.Shows U (Verif.Layout.lastRender s.layout.st.log) (fun _ _ => True) [(.comp root, none)] [v] F ∧
      Flat [v] m ∧ ShowsAll m (build v) := by
  rcases Verif.Layout.C01_client_view_partial w root ops hs with h | ⟨v, F, h1, _, h2⟩
  · exact .inl h.1
  · obtain ⟨m, h3, h4⟩ := C61_document v
    exact .inr ⟨v, F, m, h1, h2, h3, h4⟩

/-- A component around two paragraphs, with a handler. -/
def demoModel : VJson := .obj { tag := "" } (some [.obj { tag := "p", attrs := some [("className", .other 1)] } (some [.text "a"]),
  .obj { tag := "p", handlers := some [⟨"onClick", "t", false, false, none, none⟩] } none])

example : build demoModel = [.elem "p" [("class", .other 1)] [] [.text "a"], .elem "p" [] [⟨"click", "t"⟩] []] := by
  have h : domEvent "onClick" = "click" := by decide +kernel
  simp [demoModel, build, buildAll, domAttr, h]

/-- **C61, violated.**  The handler of a double click listens to an event that no browser sends (`dblclick` is the name). -/
theorem C61_double_click_violated : domEvent "onDoubleClick" = "doubleclick" ∧ domEvent "onDoubleClick" ≠ "dblclick" := by decide +kernel

/-- **C61, violated.**  The document has no trace of whether a handler prevents the default action, stops propagation, is debounced or
throttled, of inline JavaScript handlers, of the module an element is imported from, or of a component's error: models that differ in these
only give the same document. -/
theorem C61_ignored_violated (sh : Shell) (children : Option (List VJson)) (prevent stop : HEntry → Bool) (debounce throttle : HEntry → Option Int)
    (inlineJs importSource : Option Nat) (error : Option String) :
    build (.obj { sh with error := error, inlineJs := inlineJs, importSource := importSource,
                          handlers := sh.handlers.map fun l => l.map fun h =>
                            ⟨h.event, h.target, prevent h, stop h, debounce h, throttle h⟩ } children) = build (.obj sh children) := by
  simp only [build_obj]
  rcases sh.handlers with _ | l
  · rfl
  · simp only [Option.map_some, Option.getD_some, List.map_map]
    rfl

/-- A form whose handler prevents the default action, and one whose handler does not. -/
example : build (.obj { tag := "form", handlers := some [⟨"onSubmit", "t", true, false, none, none⟩] } none) =
    build (.obj { tag := "form", handlers := some [⟨"onSubmit", "t", false, false, none, none⟩] } none) :=
  C61_ignored_violated { tag := "form", handlers := some [⟨"onSubmit", "t", false, false, none, none⟩] } none (fun _ => true) (fun _ => false)
    (fun _ => none) (fun _ => none) none none none

/-- A component that failed leaves nothing, not even its message. -/
example : build (.obj { tag := "", error := some "ValueError" } none) = [] :=
  (C61_ignored_violated { tag := "" } none (fun _ => true) (fun _ => false) (fun _ => none) (fun _ => none) none none _).trans
    (by simp [build])

/-! ## Minified sources -/

section
variable {isSpace : Char → Bool}

/-- Specification: the lines of a program, without trailing white space and without blank lines. -/
def content (isSpace : Char → Bool) (s : Str) : List Str :=
  ((splitOn '\n' s).map fun l => (l.reverse.dropWhile isSpace).reverse).filter (· ≠ [])

theorem splitOn_cons_ne {c : Char} (h : c ≠ '\n') (s : Str) : ∃ l ls, splitOn '\n' s = l :: ls ∧ splitOn '\n' (c :: s) = (c :: l) :: ls := by
  cases hs : splitOn '\n' s with
  | nil => exact absurd hs (Verif.Markup.splitOn_ne_nil _ _)
  | cons l ls => exact ⟨l, ls, rfl, by simp [splitOn, hs, h]⟩

theorem splitOn_append (x y : Str) : ∃ init last first rest, splitOn '\n' x = init ++ [last] ∧ splitOn '\n' y = first :: rest ∧
    splitOn '\n' (x ++ y) = init ++ (last ++ first) :: rest := by
  induction x with
  | nil =>
    cases hs : splitOn '\n' y with
    | nil => exact absurd hs (Verif.Markup.splitOn_ne_nil _ _)
    | cons f r => exact ⟨[], [], f, r, by simp [splitOn], rfl, by simp [hs]⟩
  | cons c x ih =>
    obtain ⟨init, last, first, rest, h1, h2, h3⟩ := ih
    by_cases hc : c = '\n'
    · refine ⟨[] :: init, last, first, rest, ?_, h2, ?_⟩
      · simp [splitOn, hc, h1]
      · simp [splitOn, hc, h3]
    · obtain ⟨l, ls, e1, e2⟩ := splitOn_cons_ne hc x
      obtain ⟨l', ls', e1', e2'⟩ := splitOn_cons_ne hc (x ++ y)
      rw [h1] at e1
      rw [h3] at e1'
      cases init with
      | nil =>
        simp only [List.nil_append, List.cons.injEq] at e1 e1'
        refine ⟨[], c :: last, first, rest, ?_, h2, ?_⟩
        · rw [e2, ← e1.1, ← e1.2]; rfl
        · rw [List.cons_append, e2', ← e1'.1, ← e1'.2]; rfl
      | cons i init =>
        simp only [List.cons_append, List.cons.injEq] at e1 e1'
        refine ⟨(c :: i) :: init, last, first, rest, ?_, h2, ?_⟩
        · rw [e2, ← e1.1, ← e1.2]; rfl
        · rw [List.cons_append, e2', ← e1'.1, ← e1'.2]; rfl

theorem content_newline (x y : Str) : content isSpace (x ++ '\n' :: y) = content isSpace x ++ content isSpace y := by
  obtain ⟨init, last, first, rest, h1, h2, h3⟩ := splitOn_append x ('\n' :: y)
  have e : splitOn '\n' ('\n' :: y) = [] :: splitOn '\n' y := by simp [splitOn]
  rw [e] at h2
  simp only [List.cons.injEq] at h2
  rw [content, h3, ← h2.1, ← h2.2, List.append_nil, content, content, h1]
  simp only [List.map_append, List.map_cons, List.filter_append, List.map_nil]
  rw [← List.singleton_append, List.filter_append, List.append_assoc]

theorem content_space (x : Str) {c : Char} (hc : isSpace c = true) : content isSpace (x ++ [c]) = content isSpace x := by
  by_cases hn : c = '\n'
  · subst hn
    rw [content_newline]
    simp [content, splitOn]
  · obtain ⟨init, last, first, rest, h1, h2, h3⟩ := splitOn_append x [c]
    have e : splitOn '\n' [c] = [[c]] := by simp [splitOn, hn]
    rw [e] at h2
    simp only [List.cons.injEq] at h2
    rw [content, h3, content, h1, ← h2.1, ← h2.2]
    simp [hc]

theorem content_spaces (x w : Str) (hw : ∀ c ∈ w, isSpace c = true) : content isSpace (x ++ w) = content isSpace x := by
  induction w generalizing x with
  | nil => simp
  | cons c w ih =>
    have : x ++ c :: w = (x ++ [c]) ++ w := by simp
    rw [this, ih _ (fun d hd => hw d (by simp [hd])), content_space x (hw c (by simp))]

/-- A run of white space with a line end: its last line end. -/
theorem run_split {run : Str} (h : '\n' ∈ run) : ∃ a, run = a ++ squeeze run := by
  simp only [squeeze, if_pos h]
  have key : ∀ l : Str, '\n' ∈ l → ∃ b, l = l.takeWhile (· ≠ '\n') ++ '\n' :: b := by
    intro l
    induction l with
    | nil => intro h; cases h
    | cons c l ih =>
      intro h
      by_cases hc : c = '\n'
      · subst hc; exact ⟨l, by simp⟩
      · obtain ⟨b, hb⟩ := ih (by rcases List.mem_cons.1 h with h | h; exact absurd h.symm hc; exact h)
        refine ⟨b, ?_⟩
        rw [List.takeWhile_cons_of_pos (by simpa using hc), List.cons_append, ← hb]
  obtain ⟨b, hb⟩ := key run.reverse (by simpa using h)
  refine ⟨b.reverse, ?_⟩
  have := congrArg List.reverse hb
  simpa using this

theorem squeeze_spaces {run : Str} (h : ∀ c ∈ run, isSpace c = true) : ∀ c ∈ squeeze run, isSpace c = true := by
  intro c hc
  by_cases hn : '\n' ∈ run
  · obtain ⟨a, ha⟩ := run_split hn
    exact h c (by rw [ha]; simp [hc])
  · rw [squeeze, if_neg hn] at hc
    exact h c hc

theorem dropBlank_content (pre run s : Str) (hr : ∀ c ∈ run, isSpace c = true) :
    content isSpace (pre ++ dropBlank isSpace run s) = content isSpace (pre ++ run ++ s) := by
  induction s generalizing pre run with
  | nil =>
    rw [dropBlank, content_spaces _ _ (squeeze_spaces hr), List.append_nil, content_spaces _ _ hr]
  | cons c s ih =>
    simp only [dropBlank]
    by_cases hc : isSpace c = true
    · rw [if_pos hc, ih pre (run ++ [c])]
      · simp
      · intro d hd
        rcases List.mem_append.1 hd with h | h
        · exact hr d h
        · rw [List.mem_singleton.1 h]; exact hc
    · rw [if_neg hc]
      have := ih (pre ++ squeeze run ++ [c]) [] (by simp)
      simp only [List.append_assoc, List.singleton_append, List.nil_append] at this
      rw [this]
      by_cases hn : '\n' ∈ run
      · obtain ⟨a, ha⟩ := run_split hn
        have hs : ∃ t, squeeze run = '\n' :: t := by rw [squeeze, if_pos hn]; exact ⟨_, rfl⟩
        obtain ⟨t, ht⟩ := hs
        rw [ht] at ha
        have hra : ∀ c ∈ a, isSpace c = true := fun d hd => hr d (by rw [ha]; simp [hd])
        rw [ht, ha]
        have e1 : pre ++ ('\n' :: t ++ c :: s) = pre ++ '\n' :: (t ++ c :: s) := by simp
        have e2 : pre ++ (a ++ '\n' :: t) ++ c :: s = (pre ++ a) ++ '\n' :: (t ++ c :: s) := by simp
        rw [e1, e2, content_newline, content_newline, content_spaces _ _ hra]
      · rw [squeeze, if_neg hn]; simp

theorem joinNewlines_content (s : Str) : ∀ (pre : Str),
    content isSpace (pre ++ joinNewlines false s) = content isSpace (pre ++ s) ∧
    content isSpace (pre ++ '\n' :: joinNewlines true s) = content isSpace (pre ++ '\n' :: s) := by
  induction s with
  | nil => intro pre; exact ⟨rfl, rfl⟩
  | cons c s ih =>
    intro pre
    by_cases hc : c = '\n'
    · subst hc
      simp only [joinNewlines, if_true, Bool.false_eq_true, if_false]
      refine ⟨(ih pre).2, ?_⟩
      rw [(ih pre).2]
      have e : content isSpace ('\n' :: s) = content isSpace s := by
        have := content_newline (isSpace := isSpace) [] s
        simpa [content, splitOn] using this
      rw [content_newline, content_newline, e]
    · simp only [joinNewlines, hc, if_false]
      have h1 := (ih (pre ++ [c])).1
      have h2 := (ih (pre ++ ['\n', c])).1
      simp only [List.append_assoc, List.singleton_append, List.cons_append, List.nil_append] at h1 h2
      exact ⟨h1, h2⟩

theorem dropComments_id {s : Str} (h : '#' ∉ s) : dropComments s = s := by
  induction s with
  | nil => rfl
  | cons c s ih =>
    simp only [List.mem_cons, not_or] at h
    rw [dropComments, if_neg (fun hh => h.1 hh.1.symm), ih h.2]

theorem dropDocstrings_id (n : Nat) {s : Str} (h : ¬ quotes <:+: s) : dropDocstrings isSpace n s = s := by
  induction n generalizing s with
  | zero => rfl
  | succ n ih =>
    cases s with
    | nil => rfl
    | cons c s =>
      have hd : docstringAt isSpace (c :: s) = none := by
        simp only [docstringAt]
        split
        · rename_i l heq
          simp only [List.cons.injEq] at heq
          rw [if_neg]
          intro hp
          apply h
          have h1 : quotes <:+: l.dropWhile isSpace := (List.isPrefixOf_iff_prefix.1 hp).isInfix
          have h2 : l.dropWhile isSpace <:+: s := by rw [heq.2]; exact (List.dropWhile_suffix isSpace).isInfix
          exact (h1.trans h2).trans (List.suffix_cons c s).isInfix
        · rfl
      simp only [dropDocstrings, hd]
      rw [ih (fun hh => h (hh.trans (List.suffix_cons c s).isInfix))]

theorem strip_split (s : Str) : ∃ a b, s = a ++ strip isSpace s ++ b ∧ (∀ c ∈ a, isSpace c = true) ∧ (∀ c ∈ b, isSpace c = true) := by
  have h1 := List.takeWhile_append_dropWhile (p := isSpace) (l := s)
  have h2 := List.takeWhile_append_dropWhile (p := isSpace) (l := (s.dropWhile isSpace).reverse)
  refine ⟨s.takeWhile isSpace, ((s.dropWhile isSpace).reverse.takeWhile isSpace).reverse, ?_, ?_, ?_⟩
  · have h3 := congrArg List.reverse h2
    simp only [List.reverse_append, List.reverse_reverse] at h3
    rw [strip, List.append_assoc, h3, h1]
  · intro c hc; exact List.all_eq_true.1 List.all_takeWhile c hc
  · intro c hc; exact List.all_eq_true.1 List.all_takeWhile c (List.mem_reverse.1 hc)

theorem strip_head (s : Str) : ∀ c, (strip isSpace s).head? = some c → isSpace c = false := by
  intro c hc
  have hp : strip isSpace s <+: s.dropWhile isSpace := by
    have : (s.dropWhile isSpace).reverse.dropWhile isSpace <:+ (s.dropWhile isSpace).reverse := List.dropWhile_suffix _
    have := List.reverse_prefix.2 this
    simpa [strip] using this
  cases hs : s.dropWhile isSpace with
  | nil =>
    rw [hs] at hp
    rw [List.prefix_nil.1 hp] at hc; cases hc
  | cons d l =>
    obtain ⟨t, ht⟩ := hp
    rw [hs] at ht
    cases hst : strip isSpace s with
    | nil => rw [hst] at hc; cases hc
    | cons e m =>
      rw [hst] at hc ht
      simp only [List.head?_cons, Option.some.injEq] at hc
      simp only [List.cons_append, List.cons.injEq] at ht
      have h := List.head?_dropWhile_not isSpace s
      rw [hs] at h
      simp only [List.head?_cons] at h
      rw [← hc, ht.1]
      simpa using h

/-- A file without comments and docstrings. -/
theorem minified_lines (hnl : isSpace '\n' = true) (s : Str) (h1 : '#' ∉ s) (h2 : ¬ quotes <:+: s) :
    content isSpace (fetchFile isSpace s) = content isSpace (strip isSpace s) := by
  obtain ⟨a, b, hs, ha, hb⟩ := strip_split (isSpace := isSpace) s
  have hhead := strip_head (isSpace := isSpace) s
  have hfetch : fetchFile isSpace s = minify isSpace (strip isSpace s) := rfl
  generalize strip isSpace s = t at *
  have hsub : t <:+: s := ⟨a, b, hs.symm⟩
  have h1' : '#' ∉ t := fun h => h1 (hsub.subset h)
  have h2' : ¬ quotes <:+: t := fun h => h2 (h.trans hsub)
  have hmain : minify isSpace t = strip isSpace (dropBlank isSpace [] (joinNewlines false t)) := by
    simp only [minify, dropComments_id h1', dropDocstrings_id _ h2']
  have hc : content isSpace (dropBlank isSpace [] (joinNewlines false t)) = content isSpace t := by
    have e1 := dropBlank_content (isSpace := isSpace) [] [] (joinNewlines false t) (by simp)
    have e2 := (joinNewlines_content (isSpace := isSpace) t []).1
    simp only [List.nil_append] at e1 e2
    rw [e1, e2]
  rw [hfetch, hmain]
  obtain ⟨a', b', hs', ha', hb'⟩ := strip_split (isSpace := isSpace) (dropBlank isSpace [] (joinNewlines false t))
  have ha0 : a' = [] := by
    cases t with
    | nil =>
      simp only [joinNewlines, dropBlank, squeeze] at hs'
      simp at hs'
      exact hs'.1
    | cons c t =>
      have hcs := hhead c rfl
      have hcn : c ≠ '\n' := by rintro rfl; rw [hnl] at hcs; cases hcs
      have hstart : dropBlank isSpace [] (joinNewlines false (c :: t)) = c :: dropBlank isSpace [] (joinNewlines false t) := by
        simp [joinNewlines, hcn, dropBlank, hcs, squeeze]
      cases a' with
      | nil => rfl
      | cons d a' =>
        rw [hstart] at hs'
        simp only [List.cons_append, List.cons.injEq] at hs'
        have := ha' d (by simp)
        rw [← hs'.1, hcs] at this; cases this
  rw [ha0, List.nil_append] at hs'
  rw [← hc]
  conv => rhs; rw [hs']
  rw [content_spaces _ _ hb']

end

/-- ASCII white space. -/
def asciiSpace (c : Char) : Bool := c == ' ' || c == '\n' || c == '\t' || c == '\r'

example : fetchFile asciiSpace "def root():\n\n    return 1  \n".toList = "def root():\n    return 1".toList := by decide +kernel

end Verif.Pyscript
