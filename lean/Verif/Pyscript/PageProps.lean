import Verif.Pyscript.Page
import Verif.Pyscript.ExecutorProps
/-! # C86: pages with components that run in the browser

"A page is what its application was given: the user's head elements, then PyScript's set-up with the application's own options, once; in
the body the notice and the program. A component of the page that is part of a tree rendered by the server shows its program after one
more render." -/
namespace Verif.Pyscript.Page
open Verif.Pyscript.Exec (Str replaceAll contains contains_iff)

/-! ### Specification -/

/-- The heads that the user made. -/
def madeHeads (ops : List Op) : List Head := ops.filterMap fun | .head h => some h | _ => none

/-- The arguments of the applications made: one that is rendered by the browser needs a file. -/
def madeApps (ops : List Op) : List Opts := ops.filterMap fun
  | .new o => match o.kind with
    | .browser 0 _ _ => none
    | _ => some o
  | _ => none

/-- The set-ups of all applications rendered by the server that were given the user's `j`-th head. -/
def setups (j : Nat) (ops : List Op) : List Str :=
  (madeApps ops).filterMap fun o => if o.head = some j then (match o.kind with | .server s _ => s | _ => none) else none

/-- A head is made before it is given to an application (`n`: the number of heads there are). -/
def Ordered (n : Nat) : List Op → Prop
  | [] => True
  | .head _ :: l => Ordered (n + 1) l
  | .new o :: l => (∀ j, o.head = some j → j < n) ∧ Ordered n l
  | .get _ :: l => Ordered n l

/-- The notice at the start of the body. -/
def notice : Option (Option Str) → Str
  | none => "<noscript>Enable JavaScript to view this site.</noscript>".toList
  | some none => "".toList
  | some (some t) => t

/-- A document with these elements in its head and its body. -/
def document (lang attrs : Str) (head body : List Str) : Str :=
  "<!doctype html><html lang=\"".toList ++ lang ++ "\"><head".toList ++ attrs ++ ">".toList ++ head.flatten ++ "</head><body>".toList ++
    body.flatten ++ "</body></html>".toList

/-! ### Lemmas -/

/-- All set-ups are added to a head, one after the other. -/
def addAll (h : Head) (l : List Str) : Head := l.foldl addSetup h

theorem addAll_append (h : Head) (a b : List Str) : addAll h (a ++ b) = addAll (addAll h a) b := by simp [addAll]

theorem addAll_fields (l : List Str) (h : Head) : (addAll h l).isHead = h.isHead ∧ (addAll h l).attrs = h.attrs ∧
    (addAll h l).children.getD [] = h.children.getD [] ++ l := by
  induction l generalizing h with
  | nil => simp [addAll]
  | cons a l ih =>
    have := ih (addSetup h a)
    simp only [addAll, List.foldl_cons] at this ⊢
    refine ⟨this.1, this.2.1, ?_⟩
    rw [this.2.2]
    simp [addSetup]

theorem run_snoc (s : Site) (ops : List Op) (o : Op) : run s (ops ++ [o]) = (step (run s ops) o).1 := by simp [run]

theorem snoc_induction {α : Type} {P : List α → Prop} (h0 : P []) (h1 : ∀ l a, P l → P (l ++ [a])) (l : List α) : P l := by
  rw [← List.reverse_reverse l]
  induction l.reverse with
  | nil => exact h0
  | cons a l ih => simpa using h1 _ a ih

theorem ordered_append (a b : List Op) (n : Nat) : Ordered n (a ++ b) ↔ Ordered n a ∧ Ordered (n + (madeHeads a).length) b := by
  induction a generalizing n with
  | nil => simp [Ordered, madeHeads]
  | cons o a ih =>
    cases o with
    | head h =>
      have hl : (madeHeads (.head h :: a)).length = (madeHeads a).length + 1 := rfl
      simp only [List.cons_append, Ordered, ih, hl]
      rw [Nat.add_assoc, Nat.add_comm 1]
    | new o => simp only [List.cons_append, Ordered, ih, madeHeads, List.filterMap_cons_none, and_assoc]
    | get i => simp only [List.cons_append, Ordered, ih, madeHeads, List.filterMap_cons_none]

theorem madeApps_append (a b : List Op) : madeApps (a ++ b) = madeApps a ++ madeApps b := by simp [madeApps]
theorem madeHeads_append (a b : List Op) : madeHeads (a ++ b) = madeHeads a ++ madeHeads b := by simp [madeHeads]
theorem setups_append (j : Nat) (a b : List Op) : setups j (a ++ b) = setups j a ++ setups j b := by simp [setups, madeApps_append]

/-- The head an application made itself. -/
def ownHead (o : Opts) : Head :=
  match o.head, o.kind.added with
  | none, some s => addSetup {} s
  | _, _ => {}

theorem setups_ge (j : Nat) (ops : List Op) (n : Nat) (ho : Ordered n ops) (hj : n + (madeHeads ops).length ≤ j) : setups j ops = [] := by
  induction ops using snoc_induction with
  | h0 => rfl
  | h1 ops o ih =>
    rw [ordered_append] at ho
    rw [madeHeads_append, List.length_append] at hj
    rw [setups_append, ih ho.1 (by omega), List.nil_append]
    cases o with
    | head h => rfl
    | get i => rfl
    | new o =>
      have := ho.2.1 j
      by_cases he : o.head = some j
      · have := this he; omega
      · have hcase : ∀ x ∈ madeApps [.new o], x = o := by
          intro x hx
          simp only [madeApps, List.mem_filterMap, List.mem_singleton] at hx
          obtain ⟨y, rfl, hy⟩ := hx
          revert hy
          simp only
          split <;> simp
          exact fun h => h.symm
        unfold setups
        rw [List.filterMap_eq_nil_iff]
        intro x hx
        rw [hcase x hx, if_neg he]

/-- What the state is after a history. -/
structure After (ops : List Op) (s : Site) : Prop where
  heads : ∀ j : Nat, s.heads[j]? = ((madeHeads ops)[j]?).map (fun h => addAll h (setups j ops))
  apps : ∀ i : Nat, (s.apps[i]?).map (fun a => (a.opts, a.own)) = ((madeApps ops)[i]?).map (fun o => (o, ownHead o))
  fresh : ∀ (i : Nat) a, Op.get i ∉ ops → s.apps[i]? = some a → a.page = none

theorem After.len {ops : List Op} {s : Site} (h : After ops s) : s.apps.length = (madeApps ops).length := by
  have hlt : ∀ i, i < s.apps.length ↔ i < (madeApps ops).length := by
    intro i
    have := h.apps i
    constructor
    · intro hi
      rw [List.getElem?_eq_getElem hi] at this
      apply Classical.byContradiction
      intro hn
      rw [List.getElem?_eq_none (by omega)] at this
      simp at this
    · intro hi
      rw [List.getElem?_eq_getElem hi] at this
      apply Classical.byContradiction
      intro hn
      rw [List.getElem?_eq_none (by omega)] at this
      simp at this
  have h1 := hlt s.apps.length
  have h2 := hlt (madeApps ops).length
  omega

theorem newApp_eq (s : Site) (o : Opts) : (newApp s o).1 =
    match madeApps [.new o] with
    | [] => s
    | _ => { heads := match o.head, o.kind.added with
                | some j, some st => s.heads.modify j (addSetup · st)
                | _, _ => s.heads
             apps := s.apps ++ [{ opts := o, own := ownHead o }] } := by
  obtain ⟨head, prepend, lang, kind⟩ := o
  cases kind with
  | server setup mount => cases setup <;> cases head <;> rfl
  | browser files setup program => cases files <;> cases head <;> rfl

theorem after_new {ops : List Op} {s : Site} (h : After ops s) (ho : Ordered 0 ops) (o : Opts) (hj : ∀ j, o.head = some j → j < (madeHeads ops).length) :
    After (ops ++ [.new o]) (newApp s o).1 := by
  have hlen := h.len
  have hm : madeHeads [Op.new o] = [] := rfl
  rw [newApp_eq]
  have hcase : madeApps [.new o] = [] ∨ madeApps [.new o] = [o] := by
    simp only [madeApps, List.filterMap_cons, List.filterMap_nil]
    split <;> simp
    rename_i heq
    revert heq
    split <;> simp
    rintro rfl; rfl
  rcases hcase with he | he
  · rw [he]
    refine ⟨fun j => ?_, fun i => ?_, fun i a hi ha => ?_⟩
    · rw [madeHeads_append, hm, List.append_nil, setups_append]
      have : setups j [Op.new o] = [] := by simp [setups, he]
      rw [this, List.append_nil]
      exact h.heads j
    · rw [madeApps_append, he, List.append_nil]; exact h.apps i
    · exact h.fresh i a (fun hc => hi (by simp [hc])) ha
  · rw [he]
    have hk : ∀ j, setups j [Op.new o] = if o.head = some j then o.kind.added.toList else [] := by
      intro j
      simp only [setups, he, List.filterMap_cons, List.filterMap_nil]
      have : (match o.kind with | .server s _ => s | _ => none) = o.kind.added := by cases o.kind <;> rfl
      rw [this]
      by_cases hh : o.head = some j
      · simp only [hh, if_true]; cases o.kind.added <;> rfl
      · simp [hh]
    refine ⟨fun j => ?_, fun i => ?_, fun i a hi ha => ?_⟩
    · show (match o.head, o.kind.added with
                | some j, some st => s.heads.modify j (addSetup · st)
                | _, _ => s.heads)[j]? = _
      rw [madeHeads_append, hm, List.append_nil, setups_append, hk]
      cases hh : o.head with
      | none => simpa using h.heads j
      | some j' =>
        cases hst : o.kind.added with
        | none => simpa using h.heads j
        | some st =>
          simp only [List.getElem?_modify, Option.some.injEq, h.heads j]
          by_cases hjj : j' = j
          · subst hjj
            cases hg : (madeHeads ops)[j']? with
            | none => simp
            | some hd => simp [addAll]
          · simp [hjj]
    · rw [madeApps_append, he]
      show Option.map _ (s.apps ++ [_])[i]? = _
      by_cases hi : i < s.apps.length
      · rw [List.getElem?_append_left hi, List.getElem?_append_left (by omega)]
        exact h.apps i
      · rw [List.getElem?_append_right (by omega), List.getElem?_append_right (by omega), hlen]
        by_cases hi' : i - (madeApps ops).length = 0
        · rw [hi']; rfl
        · rw [List.getElem?_eq_none (by simp; omega), List.getElem?_eq_none (by simp; omega)]; rfl
    · have ha' : (s.apps ++ [({ opts := o, own := ownHead o } : App)])[i]? = some a := ha
      by_cases hl : i < s.apps.length
      · rw [List.getElem?_append_left hl] at ha'
        exact h.fresh i a (fun hc => hi (by simp [hc])) ha'
      · rw [List.getElem?_append_right (by omega)] at ha'
        by_cases hi' : i - s.apps.length = 0
        · rw [hi'] at ha'; simp at ha'; rw [← ha']
        · rw [List.getElem?_eq_none (by simp; omega)] at ha'; exact absurd ha' (by simp)

theorem after_get {ops : List Op} {s : Site} (h : After ops s) (i : Nat) : After (ops ++ [.get i]) (getPage s i).1 := by
  have hm : madeHeads [Op.get i] = [] := rfl
  have he : madeApps [Op.get i] = [] := rfl
  have hs : ∀ j, setups j [Op.get i] = [] := fun j => rfl
  have base : After (ops ++ [.get i]) s := by
    refine ⟨fun j => ?_, fun k => ?_, fun k a hk ha => ?_⟩
    · rw [madeHeads_append, hm, List.append_nil, setups_append, hs, List.append_nil]; exact h.heads j
    · rw [madeApps_append, he, List.append_nil]; exact h.apps k
    · exact h.fresh k a (fun hc => hk (by simp [hc])) ha
  unfold getPage
  split
  · exact base
  · rename_i a ha
    split
    · exact base
    · split
      · exact base
      · rename_i p hp
        refine ⟨base.heads, fun k => ?_, fun k b hk hb => ?_⟩
        · rw [← base.apps k]
          show Option.map _ (s.apps.set i _)[k]? = _
          rw [List.getElem?_set]
          split
          · rename_i hki
            subst hki
            split
            · rw [ha]; rfl
            · rename_i hlt
              rw [List.getElem?_eq_none (by omega)] at ha
              exact absurd ha (by simp)
          · rfl
        · have hki : i ≠ k := by
            rintro rfl
            exact hk (by simp)
          have hb' : (s.apps.set i { a with page := some p })[k]? = some b := hb
          rw [List.getElem?_set, if_neg hki] at hb'
          exact base.fresh k b hk hb'

theorem after_run (ops : List Op) (ho : Ordered 0 ops) : After ops (run {} ops) := by
  induction ops using snoc_induction with
  | h0 => exact ⟨by simp [run, madeHeads], by simp [run, madeApps], by simp [run]⟩
  | h1 ops o ih =>
    rw [ordered_append, Nat.zero_add] at ho
    have h := ih ho.1
    rw [run_snoc]
    cases o with
    | head hd =>
      have hm : madeHeads [Op.head hd] = [hd] := rfl
      have he : madeApps [Op.head hd] = [] := rfl
      have hs : ∀ j, setups j [Op.head hd] = [] := fun j => rfl
      refine ⟨fun j => ?_, fun k => ?_, fun k a hk ha => ?_⟩
      · show ((run {} ops).heads ++ [hd])[j]? = _
        rw [madeHeads_append, hm, setups_append, hs, List.append_nil]
        have hlen : (run {} ops).heads.length = (madeHeads ops).length := by
          have hlt : ∀ i, i < (run {} ops).heads.length ↔ i < (madeHeads ops).length := by
            intro i
            have := h.heads i
            constructor
            · intro hi
              rw [List.getElem?_eq_getElem hi] at this
              apply Classical.byContradiction
              intro hn
              rw [List.getElem?_eq_none (by omega)] at this
              simp at this
            · intro hi
              rw [List.getElem?_eq_getElem hi] at this
              apply Classical.byContradiction
              intro hn
              rw [List.getElem?_eq_none (by omega)] at this
              simp at this
          have h1 := hlt (run {} ops).heads.length
          have h2 := hlt (madeHeads ops).length
          omega
        by_cases hl : j < (madeHeads ops).length
        · rw [List.getElem?_append_left (by omega), List.getElem?_append_left hl]; exact h.heads j
        · rw [List.getElem?_append_right (by omega), List.getElem?_append_right (by omega), hlen,
            setups_ge j ops 0 ho.1 (by omega)]
          by_cases hz : j - (madeHeads ops).length = 0
          · rw [hz]; rfl
          · rw [List.getElem?_eq_none (by simp; omega)]; rfl
      · rw [madeApps_append, he, List.append_nil]; exact h.apps k
      · exact h.fresh k a (fun hc => hk (by simp [hc])) ha
    | new o => exact after_new h ho.1 o ho.2.1
    | get i => exact after_get h i

/-! ### Properties -/

/-- The head of application `o` in a history, without what a CSR page adds: whose attributes and elements. -/
inductive HeadIs (ops : List Op) (o : Opts) : Str → List Str → Prop
  | own (h : o.head = none) : HeadIs ops o [] (match o.kind with | .server s _ => s.toList | _ => [])
  | given {j : Nat} {hd : Head} (h : o.head = some j) (hm : (madeHeads ops)[j]? = some hd) (hh : hd.isHead = true) :
      HeadIs ops o hd.attrs (hd.children.getD [] ++ setups j ops)

theorem headHtml_of {ops : List Op} {o : Opts} {attrs : Str} {els : List Str} {s : Site} {a : App} (h : After ops s) {i : Nat}
    (ho : (madeApps ops)[i]? = some o) (ha : s.apps[i]? = some a) (hh : HeadIs ops o attrs els) :
    a.opts = o ∧ headHtml (headOf s a) = some ("<head".toList ++ attrs ++ ">".toList ++ els.flatten ++ endTag) := by
  have := h.apps i
  rw [ho, ha] at this
  simp only [Option.map_some, Option.some.injEq, Prod.mk.injEq] at this
  refine ⟨this.1, ?_⟩
  unfold headOf
  rw [this.1, this.2]
  cases hh with
  | own hn =>
    rw [hn]
    simp only [ownHead, hn, headHtml]
    cases hk : o.kind with
    | server st m => cases st <;> rfl
    | browser f st p => rfl
  | given hg hm hi =>
    rename_i j hd
    rw [hg]
    have hj := h.heads j
    rw [hm] at hj
    simp only [hj, Option.map_some, Option.getD_some]
    obtain ⟨h1, h2, h3⟩ := addAll_fields (setups j ops) hd
    rw [headHtml, h1, hi, if_pos rfl, h2, h3]

theorem app_of {ops : List Op} {s : Site} (h : After ops s) {i : Nat} {o : Opts} (ho : (madeApps ops)[i]? = some o) :
    ∃ a, s.apps[i]? = some a := by
  have := h.apps i
  rw [ho] at this
  cases ha : s.apps[i]? with
  | none => rw [ha] at this; simp at this
  | some a => exact ⟨a, rfl⟩

theorem join_abs (x1 x2 x3 x4 x5 x6 x7 lang attrs h e b1 b2 : Str) :
    x1 ++ lang ++ x2 ++ (x3 ++ attrs ++ x4 ++ e ++ h ++ x7) ++ x5 ++ b1 ++ b2 ++ x6 =
      x1 ++ lang ++ (x2 ++ x3) ++ attrs ++ x4 ++ (e ++ [h].flatten) ++ (x7 ++ x5) ++ [b1, b2].flatten ++ x6 := by
  simp only [List.flatten_cons, List.flatten_nil, List.append_assoc, List.append_nil]

theorem doc_gen (lang attrs : Str) (head body : List Str) (x y : Str) (hx : "\"><head".toList = x) (hy : "</head><body>".toList = y) :
    document lang attrs head body = "<!doctype html><html lang=\"".toList ++ lang ++ x ++ attrs ++ ">".toList ++ head.flatten ++ y ++
      body.flatten ++ "</body></html>".toList := by
  subst hx
  subst hy
  rfl

theorem join_doc (lang attrs h : Str) (els body : List Str) (b1 b2 : Str) (hb : body = [b1, b2]) :
    "<!doctype html><html lang=\"".toList ++ lang ++ "\">".toList ++ ("<head".toList ++ attrs ++ ">".toList ++ els.flatten ++ h ++ endTag) ++
      "<body>".toList ++ b1 ++ b2 ++ "</body></html>".toList = document lang attrs (els ++ [h]) body := by
  have e1 : "\"><head".toList = "\">".toList ++ "<head".toList := by decide +kernel
  have e2 : "</head><body>".toList = endTag ++ "<body>".toList := by decide +kernel
  rw [doc_gen _ _ _ _ _ _ e1 e2, hb, List.flatten_append]
  exact join_abs _ _ _ _ _ _ _ lang attrs h els.flatten b1 b2

theorem join_doc' (lang attrs : Str) (els body : List Str) (b1 b2 : Str) (hb : body = [b1, b2]) :
    "<!doctype html><html lang=\"".toList ++ lang ++ "\">".toList ++ ("<head".toList ++ attrs ++ ">".toList ++ els.flatten ++ endTag) ++
      "<body>".toList ++ b1 ++ b2 ++ "</body></html>".toList = document lang attrs els body := by
  have h2 : document lang attrs (els ++ [[]]) body = document lang attrs els body := by
    unfold document
    rw [List.flatten_append, List.flatten_cons, List.flatten_nil, List.append_nil, List.append_nil]
  rw [← h2, ← join_doc lang attrs [] els body b1 b2 hb, List.append_nil]

theorem notice_eq (o : Opts) : prependText o = notice o.prepend := by
  obtain ⟨h, p, l, k⟩ := o
  cases p with
  | none => rfl
  | some p => cases p <;> rfl

/-- **C86, exact.**  Whatever heads and applications there are and whatever pages were requested: the first page that an application
rendered by the server returns has the elements of the user's head, then the set-ups of **all** applications made with that head; in the
body the notice and the code that mounts the component. -/
theorem C86_server_page (ops : List Op) (ho : Ordered 0 ops) (i : Nat) (o : Opts) (hi : (madeApps ops)[i]? = some o) (hn : Op.get i ∉ ops)
    (setup : Option Str) (mount : Str) (hk : o.kind = .server setup mount) (attrs : Str) (els : List Str) (hh : HeadIs ops o attrs els) :
    (step (run {} ops) (.get i)).2 = .page (document o.lang attrs els [notice o.prepend, mount]) := by
  have h := after_run ops ho
  obtain ⟨a, ha⟩ := app_of h hi
  obtain ⟨hao, hhead⟩ := headHtml_of h hi ha hh
  have hp := h.fresh i a hn ha
  have hidx : indexHtml (run {} ops) a = some (document o.lang attrs els [notice o.prepend, mount]) := by
    simp only [indexHtml, hhead, hao, hk]
    rw [join_doc' o.lang attrs els _ (prependText o) mount rfl, notice_eq]
  simp only [step, getPage, ha, hp, hidx]

/-- The set-ups of a head given to one application only. -/
theorem setups_unshared (ops : List Op) (i j : Nat) (o : Opts) (hi : (madeApps ops)[i]? = some o) (hj : o.head = some j)
    (hu : ∀ (k : Nat) o', (madeApps ops)[k]? = some o' → o'.head = some j → k = i) :
    setups j ops = (match o.kind with | .server s _ => s.toList | _ => []) := by
  unfold setups
  generalize madeApps ops = l at hi hu
  induction l generalizing i with
  | nil => simp at hi
  | cons a l ih =>
    cases i with
    | zero =>
      simp only [List.getElem?_cons_zero, Option.some.injEq] at hi
      subst hi
      have hrest : l.filterMap (fun o => if o.head = some j then (match o.kind with | .server s _ => s | _ => none) else none) = [] := by
        rw [List.filterMap_eq_nil_iff]
        intro b hb
        obtain ⟨k, hk⟩ := List.mem_iff_getElem?.1 hb
        rw [if_neg]
        intro hc
        have := hu (k + 1) b (by simpa using hk) hc
        omega
      cases hkd : a.kind with
      | server s m => cases s <;> simp [hj, hkd, hrest]
      | browser f s p => simp [hj, hkd, hrest]
    | succ i =>
      have hne : ¬ a.head = some j := fun hc => by
        have := hu 0 a (by simp) hc
        omega
      rw [List.filterMap_cons_none (by simp [hne])]
      refine ih i (by simpa using hi) (fun k o' hk hh => ?_)
      have := hu (k + 1) o' (by simpa using hk) hh
      omega

/-- **C86, partial.**  An application rendered by the server whose head was not given to another one: its page has the elements of the
user's head, then its own set-up, once, if it was asked for. Missing: heads given to several applications (`C86_shared_head_violated`). -/
theorem C86_own_setup_partial (ops : List Op) (ho : Ordered 0 ops) (i : Nat) (o : Opts) (hi : (madeApps ops)[i]? = some o)
    (hn : Op.get i ∉ ops) (setup : Option Str) (mount : Str) (hk : o.kind = .server setup mount) (j : Nat) (hd : Head)
    (hj : o.head = some j) (hm : (madeHeads ops)[j]? = some hd) (hh : hd.isHead = true)
    (hu : ∀ (k : Nat) o', (madeApps ops)[k]? = some o' → o'.head = some j → k = i) :
    (step (run {} ops) (.get i)).2 =
      .page (document o.lang hd.attrs (hd.children.getD [] ++ setup.toList) [notice o.prepend, mount]) := by
  have hs : setups j ops = setup.toList := by
    have := setups_unshared ops i j o hi hj hu
    rw [hk] at this
    exact this
  rw [← hs]
  exact C86_server_page ops ho i o hi hn setup mount hk _ _ (HeadIs.given hj hm hh)

/-- The end tag isn't found across its own beginning. -/
theorem endTag_pass (s : Str) (hs : ¬ endTag <:+: s) (r : Str) : replaceAll endTag r 0 (s ++ endTag) = s ++ r := by
  have e : endTag = '<' :: "/head>".toList := by decide +kernel
  have e' : '<' ∉ "/head>".toList := by decide +kernel
  have key : ∀ (p s : Str), '<' ∉ p → p.isPrefixOf s = false → p.isPrefixOf (s ++ endTag) = false := by
    intro p
    induction p with
    | nil => intro s _ h; simp at h
    | cons c p ih =>
      intro s hc h
      simp only [List.mem_cons, not_or] at hc
      cases s with
      | nil => rw [e]; simp [List.isPrefixOf, Ne.symm hc.1]
      | cons d s =>
        simp only [List.cons_append, List.isPrefixOf, Bool.and_eq_false_iff] at h ⊢
        rcases h with h | h
        · exact Or.inl h
        · exact Or.inr (ih s hc.2 h)
  induction s with
  | nil =>
    have := Verif.Pyscript.Exec.replaceAll_hit endTag r [] (by rw [e]; simp)
    simpa [replaceAll] using this
  | cons d s ih =>
    have h1 : endTag.isPrefixOf (d :: s) = false := by
      cases hp : endTag.isPrefixOf (d :: s) with
      | false => rfl
      | true => exact absurd (List.isPrefixOf_iff_prefix.1 hp).isInfix hs
    have h2 : endTag.isPrefixOf (d :: (s ++ endTag)) = false := by
      rw [e] at h1 ⊢
      simp only [List.isPrefixOf, Bool.and_eq_false_iff] at h1 ⊢
      rcases h1 with h | h
      · exact Or.inl h
      · exact Or.inr (by have := key _ s e' h; rwa [e] at this)
    rw [List.cons_append, replaceAll, if_neg (by rw [h2]; decide), ih (fun hc => hs (hc.trans (List.suffix_cons d s).isInfix))]
    rfl

/-- **C86, partial.**  The page of an application rendered by the browser has the elements of its head, then its set-up, once; in the body
the notice and the program. Missing: head elements whose text contains `</head>` (`C86_end_tag_violated`). -/
theorem C86_browser_page_partial (ops : List Op) (ho : Ordered 0 ops) (i : Nat) (o : Opts) (hi : (madeApps ops)[i]? = some o)
    (hn : Op.get i ∉ ops) (files : Nat) (setup program : Str) (hk : o.kind = .browser files setup (some program)) (attrs : Str)
    (els : List Str) (hh : HeadIs ops o attrs els)
    (he : ¬ "</head>".toList <:+: "<head".toList ++ attrs ++ ">".toList ++ els.flatten) :
    (step (run {} ops) (.get i)).2 = .page (document o.lang attrs (els ++ [setup]) [notice o.prepend, program]) := by
  have h := after_run ops ho
  obtain ⟨a, ha⟩ := app_of h hi
  obtain ⟨hao, hhead⟩ := headHtml_of h hi ha hh
  have hp := h.fresh i a hn ha
  have hidx : indexHtml (run {} ops) a = some (document o.lang attrs (els ++ [setup]) [notice o.prepend, program]) := by
    simp only [indexHtml, hhead, hao, hk]
    rw [endTag_pass _ he, ← List.append_assoc (_ ++ els.flatten) setup endTag, join_doc o.lang attrs setup els _ (prependText o) program rfl, notice_eq]
  simp only [step, getPage, ha, hp, hidx]

/-- **C86.**  An application rendered by the browser is refused without files; nothing is changed. -/
theorem C86_no_files (s : Site) (o : Opts) (setup : Str) (program : Option Str) (hk : o.kind = .browser 0 setup program) :
    step s (.new o) = (s, .raised) := by
  simp only [step, newApp, hk]

/-- **C86.**  Once a page was returned, every later request of it gets the same page, whatever happens in between. -/
theorem C86_stays (s : Site) (i : Nat) (p : Str) (h : (step s (.get i)).2 = .page p) (ops : List Op) :
    (step (run (step s (.get i)).1 ops) (.get i)).2 = .page p := by
  have h0 : ∃ a, (step s (.get i)).1.apps[i]? = some a ∧ a.page = some p := by
    simp only [step, getPage] at h ⊢
    split at h
    · simp at h
    · rename_i a ha
      split at h
      · rename_i q hq
        simp only [Out.page.injEq] at h
        subst h
        exact ⟨a, by simp only [hq]; exact ha, hq⟩
      · rename_i hq
        split at h
        · simp at h
        · rename_i q hx
          simp only [Out.page.injEq] at h
          subst h
          have hlt : i < s.apps.length := by
            apply Classical.byContradiction
            intro hc
            rw [List.getElem?_eq_none (by omega)] at ha
            simp at ha
          exact ⟨{ a with page := some q }, by simp [hq, hx, List.getElem?_set, hlt], rfl⟩
  have keep : ∀ (ops : List Op) (s : Site), (∃ a, s.apps[i]? = some a ∧ a.page = some p) →
      ∃ a, (run s ops).apps[i]? = some a ∧ a.page = some p := by
    intro ops
    induction ops with
    | nil => intro s hs; exact hs
    | cons o ops ih =>
      intro s ⟨a, ha, hp⟩
      refine ih _ ?_
      have hlt : i < s.apps.length := by
        apply Classical.byContradiction
        intro hc
        rw [List.getElem?_eq_none (by omega)] at ha
        simp at ha
      cases o with
      | head hd => exact ⟨a, ha, hp⟩
      | new o =>
        refine ⟨a, ?_, hp⟩
        show (newApp s o).1.apps[i]? = _
        rw [newApp_eq]
        split
        · exact ha
        · show (s.apps ++ [_])[i]? = _
          rw [List.getElem?_append_left hlt, ha]
      | get k =>
        show ∃ a, (getPage s k).1.apps[i]? = some a ∧ _
        by_cases hki : k = i
        · subst hki
          exact ⟨a, by simp only [getPage, ha, hp], hp⟩
        · refine ⟨a, ?_, hp⟩
          unfold getPage
          split
          · exact ha
          · split
            · exact ha
            · split
              · exact ha
              · show (s.apps.set k _)[i]? = _
                rw [List.getElem?_set, if_neg hki, ha]
  obtain ⟨a, ha, hp⟩ := keep ops _ h0
  generalize run (step s (.get i)).1 ops = s' at ha
  simp only [step, getPage, ha, hp]

/-- A head with a title. -/
def titleHead : Head := { children := some ["<title>T</title>".toList] }

/-- Two applications with that head: each page is made as it should be when only one of them sets PyScript up. -/
example : let ops := [.head titleHead, .head titleHead, .new { head := some 0, kind := .server (some "A".toList) "m".toList },
      .new { head := some 1, kind := .browser 1 "B".toList (some "prog".toList) }, .get 0, .get 1]
    Ordered 0 ops ∧ (step (run {} (ops.take 5)) (.get 1)).2 =
      .page (document "en".toList [] ["<title>T</title>".toList, "B".toList]
        ["<noscript>Enable JavaScript to view this site.</noscript>".toList, "prog".toList]) := by
  refine ⟨?_, by decide +kernel⟩
  simp [Ordered]

/-- **C86 is violated** by a head given to two applications: the constructor adds the set-up to the user's dictionary, so the page of each
has both set-ups. -/
theorem C86_shared_head_violated :
    (step (run {} [.head titleHead, .new { head := some 0, kind := .server (some "A".toList) "m".toList },
        .new { head := some 0, kind := .server (some "B".toList) "m".toList }]) (.get 0)).2 =
      .page (document "en".toList [] ["<title>T</title>".toList, "A".toList, "B".toList]
        ["<noscript>Enable JavaScript to view this site.</noscript>".toList, "m".toList]) ∧
    (step (run {} [.head titleHead, .new { head := some 0, kind := .server (some "A".toList) "m".toList },
        .new { head := some 0, kind := .server none "m".toList }]) (.get 1)).2 =
      .page (document "en".toList [] ["<title>T</title>".toList, "A".toList]
        ["<noscript>Enable JavaScript to view this site.</noscript>".toList, "m".toList]) :=
  ⟨by decide +kernel, by decide +kernel⟩

/-- **C86 is violated** by a script of the head that mentions the end tag: the set-up is also put into the script's text. -/
theorem C86_end_tag_violated :
    (step (run {} [.head { children := some ["<script>f('</head>')</script>".toList] },
        .new { head := some 0, prepend := some none, kind := .browser 1 "S".toList (some "p".toList) }]) (.get 0)).2 =
      .page "<!doctype html><html lang=\"en\"><head><script>f('S</head>')</script>S</head><body>p</body></html>".toList := by
  decide +kernel

/-! ### A page component in a tree rendered by the server -/

/-- **C86, exact.**  An instance of a page component, whatever its arguments are from one run to the next, as long as they name files and
contain the root component: the first run shows nothing and asks for one more render; every later run shows the program with the
arguments and the id of this run, and asks for nothing. -/
theorem C86_component (c : Call) (u : Nat) (l : List (Call × Nat)) (h0 : c.files ≠ 0) (h : ∀ x ∈ l, x.1.files ≠ 0 ∧ x.1.found = true) :
    (runBodies {} ((c, u) :: l)).2 = .nothing :: l.map (fun x => .program x.2 x.1.initial x.1.root) ∧
    (runBodies {} ((c, u) :: l)).1.asked = l.isEmpty := by
  have key : ∀ (l : List (Call × Nat)) (b : Bool), (∀ x ∈ l, x.1.files ≠ 0 ∧ x.1.found = true) →
      (runBodies ⟨true, b⟩ l).2 = l.map (fun x => Shown.program x.2 x.1.initial x.1.root) ∧
      (runBodies ⟨true, b⟩ l).1.asked = (l.isEmpty && b) := by
    intro l
    induction l with
    | nil => intro b _; simp [runBodies]
    | cons x l ih =>
      intro b hl
      have hx := hl x (by simp)
      have := ih false (fun y hy => hl y (by simp [hy]))
      simp only [runBodies, runBody, if_neg hx.1, hx.2, Bool.not_true, Bool.false_eq_true, if_false, if_true, this, List.map_cons,
        List.isEmpty_cons, Bool.and_false, Bool.false_and, and_self]
  have := key l true h
  simp only [runBodies, runBody, if_neg h0, Bool.not_false, if_true, this, Bool.and_true, and_self]

/-- **C86.**  Without files every run fails, and none asks for another one. -/
theorem C86_component_no_files (i : Inst) (c : Call) (u : Nat) (h : c.files = 0) :
    (runBody i c u).2 = .failed ∧ (runBody i c u).1.asked = false ∧ (runBody i c u).1.rendered = i.rendered := by
  simp [runBody, h]

/-- **C86 is violated** when a parent is rendered again: the same call gets another id, so the page puts a new container and a new program
in the place of the running ones, whose state is lost. -/
theorem C86_component_restarts_violated (c : Call) (u v w : Nat) (h : c.files ≠ 0) (hf : c.found = true) (hne : v ≠ w) :
    ∃ a b, (runBodies {} [(c, u), (c, v), (c, w)]).2 = [.nothing, a, b] ∧ a ≠ b := by
  refine ⟨.program v c.initial c.root, .program w c.initial c.root, ?_, by simp [hne]⟩
  have := (C86_component c u [(c, v), (c, w)] h (by simp [h, hf])).1
  simpa using this

example : (runBodies {} [(⟨1, [], "root".toList, true⟩, 5), (⟨1, [], "root".toList, true⟩, 6)]).2 = [.nothing, .program 6 [] "root".toList] := by
  decide +kernel

end Verif.Pyscript.Page
