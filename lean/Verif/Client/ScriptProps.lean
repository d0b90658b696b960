import Verif.Client.Script
import Verif.Layout.Model
/-!
# C88: a script is put into the page when it appears and when its key changes, and at no other time
-/
namespace Verif.Client.Script

open Verif.Vdom (Val Elem)

/-! ### Specification -/

/-- What the parent shows after the events: the scripts of the last render. -/
def shown (evs : List Ev) : List Script :=
  evs.foldl (fun v e => match e with | .render ms => ms | .flush => v) []

/-- All scripts of all renders. -/
def history (evs : List Ev) : List Script :=
  evs.flatMap fun e => match e with | .render ms => ms | .flush => []

/-- The renders of the events. -/
def renders (evs : List Ev) : List (List Script) :=
  evs.filterMap fun e => match e with | .render ms => some ms | .flush => none

/-- The scripts that appear: those of a render whose key no script of the render before had. -/
def appearing : List Script → List (List Script) → List Script
  | _, [] => []
  | prev, v :: vs => v.filter (fun m => m.key ∉ prev.map Script.key) ++ appearing v vs

/-- The keys of the scripts of one parent are text, and all different. -/
def Distinct (ms : List Script) : Prop :=
  (∀ m ∈ ms, ∃ k, m.key = some (.str k)) ∧ (ms.map Script.key).Nodup

/-- Two lists have the same length, and their entries belong together place by place. -/
inductive Each {α β : Type} (R : α → β → Prop) : List α → List β → Prop where
  | nil : Each R [] []
  | cons {a : α} {b : β} {l : List α} {r : List β} : R a b → Each R l r → Each R (a :: l) (b :: r)

/-- A call of `html.script` without a key: the attributes, and the code, if any. -/
structure Call where
  attrs : List (String × Val)
  code : Option String

/-- What is sent for a call of `html.script`. -/
def Call.script (json : Val → JV) (isNone : Val → Bool) (c : Call) : Script :=
  match Vdom.script isNone { attributes := c.attrs } (c.code.toList.map .str) with
  | .ok e => sent json e
  | .error _ => {}

/-- The `src` attribute that is given, if it is text. -/
def Call.src (c : Call) : Option String :=
  match Vdom.get c.attrs "src" with
  | some (.str s) => some s
  | _ => none

/-- A component renders scripts, or the effects run. -/
def calls (json : Val → JV) (isNone : Val → Bool) (l : List (Option (List Call))) : List Ev :=
  l.map fun
    | some cs => .render (cs.map (Call.script json isNone))
    | none => .flush

/-- The calls of the last render. -/
def lastCalls (l : List (Option (List Call))) : List Call := ((l.filterMap id).getLast?).getD []

/-- The value of an attribute of a script element. -/
def Node.attr (n : Node) (k : String) : Option String := (n.attrs.find? (fun p => p.1 = k)).map (·.2)

/-! ### Whatever the keys are -/

/-- What holds of an instance for the script that is shown in its place. -/
structure Good (H : List Script) (i : Inst) (m : Script) : Prop where
  key : i.key = m.key
  dep : i.dep = m.key
  state : (∃ n ∈ H, i.pending = some n ∧ n.key = m.key ∧ i.nodes.length ≤ 1) ∨
    (∃ n ∈ H, i.pending = none ∧ n.key = m.key ∧ i.nodes = [n.node])

theorem good_mono {H H' : List Script} (h : ∀ n ∈ H, n ∈ H') {i : Inst} {m : Script} (g : Good H i m) : Good H' i m := by
  refine ⟨g.key, g.dep, ?_⟩
  rcases g.state with ⟨n, hn, r⟩ | ⟨n, hn, r⟩
  · exact .inl ⟨n, h n hn, r⟩
  · exact .inr ⟨n, h n hn, r⟩

theorem dropLast_short {α : Type} (l : List α) (h : l.length ≤ 1) : l.dropLast = [] := by
  match l, h with
  | [], _ => rfl
  | [_], _ => rfl

theorem good_flush {H : List Script} {i : Inst} {m : Script} (g : Good H i m) :
    Good H i.flush.1 m ∧ i.flush.1.pending = none := by
  rcases g.state with ⟨n, hn, hp, hk, hl⟩ | ⟨n, hn, hp, hk, hl⟩
  · unfold Inst.flush; rw [hp]
    refine ⟨⟨g.key, g.dep, .inr ⟨n, hn, rfl, hk, ?_⟩⟩, rfl⟩
    show i.nodes.dropLast ++ [n.node] = _
    rw [dropLast_short _ hl]; rfl
  · unfold Inst.flush; rw [hp]
    exact ⟨g, hp⟩

theorem good_update {H : List Script} {i : Inst} {m m' : Script} (g : Good H i m) (hm : m' ∈ H) :
    Good H (i.update m').1 m' := by
  obtain ⟨g', hp⟩ := good_flush g
  unfold Inst.update
  by_cases h : i.flush.1.dep = m'.key
  · simp only [if_pos h]
    refine ⟨rfl, h, ?_⟩
    have hk : m.key = m'.key := by rw [← g'.dep, h]
    rcases g'.state with ⟨n, hn, hp', _⟩ | ⟨n, hn, _, hk', hl⟩
    · rw [hp] at hp'; cases hp'
    · exact .inr ⟨n, hn, hp, hk'.trans hk, hl⟩
  · simp only [if_neg h]
    refine ⟨rfl, rfl, .inl ⟨m', hm, rfl, rfl, ?_⟩⟩
    rcases g'.state with ⟨n, hn, hp', _⟩ | ⟨n, hn, _, hk', hl⟩
    · rw [hp] at hp'; cases hp'
    · show i.flush.1.nodes.length ≤ 1
      rw [hl]; exact Nat.le_refl _

theorem take_mem {k : Option JV} {old : List Inst} {i : Inst} {rest : List Inst} (h : take k old = some (i, rest)) :
    i ∈ old ∧ (∀ j ∈ rest, j ∈ old) := by
  induction old generalizing i rest with
  | nil => cases h
  | cons a r ih =>
    unfold take at h
    split at h
    · cases h; exact ⟨List.mem_cons_self, fun j hj => List.mem_cons_of_mem _ hj⟩
    · cases ht : take k r with
      | none => rw [ht] at h; cases h
      | some p =>
        rw [ht] at h; cases h
        obtain ⟨h1, h2⟩ := ih ht
        refine ⟨List.mem_cons_of_mem _ h1, fun j hj => ?_⟩
        rcases List.mem_cons.1 hj with rfl | hj
        · exact List.mem_cons_self
        · exact List.mem_cons_of_mem _ (h2 j hj)

theorem good_reconcile {H : List Script} (ms : List Script) (old : List Inst) (ho : ∀ i ∈ old, ∃ m, Good H i m)
    (hm : ∀ m ∈ ms, m ∈ H) : Each (Good H) (reconcile old ms).1 ms := by
  induction ms generalizing old with
  | nil => exact .nil
  | cons m ms ih =>
    have hm' : ∀ m ∈ ms, m ∈ H := fun x hx => hm x (List.mem_cons_of_mem _ hx)
    unfold reconcile
    cases ht : take m.key old with
    | none =>
      exact .cons ⟨rfl, rfl, .inl ⟨m, hm m List.mem_cons_self, rfl, rfl, Nat.zero_le _⟩⟩ (ih old ho hm')
    | some p =>
      obtain ⟨h1, h2⟩ := take_mem ht
      obtain ⟨m0, g⟩ := ho _ h1
      exact .cons (good_update g (hm m List.mem_cons_self)) (ih _ (fun i hi => ho i (h2 i hi)) hm')

theorem good_step (H : List Script) (p : Page) (v : List Script) (hp : Each (Good H) p.insts v) (e : Ev) :
    Each (Good (H ++ history [e])) (p.step e).insts (match e with | .render ms => ms | .flush => v) := by
  cases e with
  | render ms =>
    show Each _ (reconcile p.insts ms).1 ms
    refine good_reconcile ms _ ?_ (fun m hm => ?_)
    · intro i hi
      have : ∃ m, Good H i m := by
        clear ms
        generalize p.insts = l at hp hi
        induction hp with
        | nil => cases hi
        | cons h _ ih =>
          rcases List.mem_cons.1 hi with rfl | hi
          · exact ⟨_, h⟩
          · exact ih hi
      obtain ⟨m, g⟩ := this
      exact ⟨m, good_mono (fun n hn => List.mem_append_left _ hn) g⟩
    · simp [history, hm]
  | flush =>
    show Each _ (p.insts.map _) v
    generalize p.insts = l at hp
    induction hp with
    | nil => exact .nil
    | cons h _ ih =>
      exact .cons (good_mono (fun n hn => List.mem_append_left _ hn) (good_flush h).1) ih

theorem history_append (a b : List Ev) : history (a ++ b) = history a ++ history b := by simp [history]

theorem good_from (evs : List Ev) (H : List Script) (p : Page) (v : List Script) (hp : Each (Good H) p.insts v) :
    Each (Good (H ++ history evs)) (p.run evs).insts
      (evs.foldl (fun v e => match e with | .render ms => ms | .flush => v) v) := by
  induction evs generalizing H p v with
  | nil => simpa [history, Page.run] using hp
  | cons e es ih =>
    have := ih _ _ _ (good_step H p v hp e)
    rw [List.append_assoc, ← history_append] at this
    exact this

theorem good_run (evs : List Ev) : Each (Good (history evs)) (Page.run {} evs).insts (shown evs) :=
  good_from evs [] {} [] .nil

/-- **C88**, the page: at any moment there is at most one script element for each script that is shown. After the effects have
run there is exactly one for each, in the same order, and it was made of a script with the same key that had been shown. -/
theorem C88_page (evs : List Ev) :
    (∀ i ∈ (Page.run {} evs).insts, i.nodes.length ≤ 1) ∧
    (Page.run {} evs).insts.length = (shown evs).length ∧
    ∃ made : List Script, (Page.run {} (evs ++ [.flush])).nodes = made.map Script.node ∧
      Each (fun n m => n.key = m.key ∧ n ∈ history evs) made (shown evs) := by
  have hg := good_run evs
  refine ⟨?_, ?_, ?_⟩
  · intro i hi
    generalize (Page.run {} evs).insts = l at hg hi
    generalize shown evs = v at hg
    induction hg with
    | nil => cases hi
    | cons h _ ih =>
      rcases List.mem_cons.1 hi with rfl | hi
      · rcases h.state with ⟨_, _, _, _, hl⟩ | ⟨_, _, _, _, hl⟩
        · exact hl
        · rw [hl]; exact Nat.le_refl _
      · exact ih hi
  · generalize (Page.run {} evs).insts = l at hg
    generalize shown evs = v at hg
    induction hg with
    | nil => rfl
    | cons _ _ ih => simp [ih]
  · have hr : (Page.run {} (evs ++ [.flush])).nodes = (Page.run {} evs).insts.flatMap (fun i => i.flush.1.nodes) := by
      simp [Page.run, List.foldl_append, Page.nodes, Page.step, List.flatMap_map]
    rw [hr]
    generalize (Page.run {} evs).insts = l at hg
    generalize shown evs = v at hg
    induction hg with
    | nil => exact ⟨[], rfl, .nil⟩
    | cons h _ ih =>
      obtain ⟨made, h1, h2⟩ := ih
      obtain ⟨g, hp⟩ := good_flush h
      rcases g.state with ⟨n, _, hp', _⟩ | ⟨n, hn, _, hk, hl⟩
      · rw [hp] at hp'; cases hp'
      · refine ⟨n :: made, ?_, .cons ⟨hk, hn⟩ h2⟩
        rw [List.flatMap_cons, h1, hl]; rfl

/-! ### With keys that are text and all different -/

theorem sameKey_str (a : Option JV) (k : String) (ha : ∃ s, a = some (.str s)) :
    sameKey a (some (.str k)) = true ↔ a = some (.str k) := by
  obtain ⟨s, rfl⟩ := ha
  show decide (s = k) = true ↔ _
  constructor
  · intro h; rw [of_decide_eq_true h]
  · intro h; cases h; exact decide_eq_true rfl

/-- The instances have keys that are text and all different, and the effect belongs to the key. -/
structure Neat (l : List Inst) : Prop where
  str : ∀ i ∈ l, ∃ k, i.key = some (.str k)
  dep : ∀ i ∈ l, i.dep = i.key
  nodup : (l.map (·.key)).Nodup

theorem take_neat {l : List Inst} (h : Neat l) (k : String) :
    (take (some (.str k)) l = none ∧ some (.str k) ∉ l.map (·.key)) ∨
    ∃ a i b, take (some (.str k)) l = some (i, a ++ b) ∧ l = a ++ i :: b ∧ i.key = some (.str k) := by
  induction l with
  | nil => exact .inl ⟨rfl, by simp⟩
  | cons x r ih =>
    have hr : Neat r := ⟨fun i hi => h.str i (List.mem_cons_of_mem _ hi), fun i hi => h.dep i (List.mem_cons_of_mem _ hi),
      (List.nodup_cons.1 h.nodup).2⟩
    unfold take
    by_cases hs : sameKey x.key (some (.str k)) = true
    · rw [if_pos hs]
      exact .inr ⟨[], x, r, rfl, rfl, (sameKey_str _ _ (h.str x List.mem_cons_self)).1 hs⟩
    · rw [if_neg hs]
      have hx : x.key ≠ some (.str k) := fun e => hs ((sameKey_str _ _ (h.str x List.mem_cons_self)).2 e)
      rcases ih hr with ⟨h1, h2⟩ | ⟨a, i, b, h1, h2, h3⟩
      · refine .inl ⟨by rw [h1]; rfl, ?_⟩
        rw [List.map_cons, List.mem_cons]
        rintro (e | e)
        · exact hx e.symm
        · exact h2 e
      · exact .inr ⟨x :: a, i, b, by rw [h1]; rfl, by rw [h2]; rfl, h3⟩

theorem neat_sub {a : List Inst} {i : Inst} {b : List Inst} (h : Neat (a ++ i :: b)) : Neat (a ++ b) := by
  refine ⟨fun j hj => h.str j ?_, fun j hj => h.dep j ?_, ?_⟩
  · rcases List.mem_append.1 hj with h | h
    · exact List.mem_append_left _ h
    · exact List.mem_append_right _ (List.mem_cons_of_mem _ h)
  · rcases List.mem_append.1 hj with h | h
    · exact List.mem_append_left _ h
    · exact List.mem_append_right _ (List.mem_cons_of_mem _ h)
  · have := h.nodup
    refine this.sublist ?_
    simp only [List.map_append, List.map_cons]
    exact List.Sublist.append_left (List.sublist_cons_self _ _) _

theorem flush_key (i : Inst) : i.flush.1.key = i.key ∧ i.flush.1.dep = i.dep := by
  unfold Inst.flush; cases i.pending <;> exact ⟨rfl, rfl⟩

theorem flush_pending (i : Inst) : i.flush.1.pending = none := by
  unfold Inst.flush
  cases h : i.pending with
  | none => exact h
  | some m => rfl

theorem flush_again (i : Inst) (h : i.pending = none) : i.flush.2 = [] := by
  unfold Inst.flush; rw [h]

theorem update_neat (i : Inst) (m : Script) (h : i.dep = m.key) :
    (i.update m).1.pending = none ∧ (i.update m).2 = i.flush.2 := by
  unfold Inst.update
  simp only [(flush_key i).2, if_pos h, and_true]
  exact flush_pending i

/-- The effects that have still to run. -/
def waiting (l : List Inst) : List Node := l.flatMap fun i => i.flush.2

theorem waiting_cons (i : Inst) (l : List Inst) : waiting (i :: l) = i.flush.2 ++ waiting l := by simp [waiting]

theorem waiting_append (a b : List Inst) : waiting (a ++ b) = waiting a ++ waiting b := by simp [waiting]

theorem waiting_none {l : List Inst} (h : ∀ i ∈ l, i.pending = none) : waiting l = [] := by
  simp only [waiting, List.flatMap_eq_nil_iff]
  exact fun i hi => flush_again i (h i hi)

theorem filter_congr_keys (ms : List Script) (k : Option JV) (hk : k ∉ ms.map Script.key) (a b : List (Option JV)) :
    ms.filter (fun m => m.key ∉ a ++ k :: b) = ms.filter (fun m => m.key ∉ a ++ b) := by
  apply List.filter_congr
  intro m hm
  have : m.key ≠ k := fun e => hk (e ▸ List.mem_map_of_mem hm)
  simp [this]

theorem reconcile_neat (ms : List Script) (old : List Inst) (ho : Neat old) (hd : Distinct ms) :
    Neat (reconcile old ms).1 ∧ (reconcile old ms).1.map (·.key) = ms.map Script.key ∧
    (∀ n, (reconcile old ms).2.count n + (waiting (reconcile old ms).1).count n ≤
      (waiting old).count n + ((ms.filter (fun m => m.key ∉ old.map (·.key))).map Script.node).count n) ∧
    ((∀ i ∈ old, i.pending = none) → (reconcile old ms).2 = [] ∧
      waiting (reconcile old ms).1 = (ms.filter (fun m => m.key ∉ old.map (·.key))).map Script.node) := by
  suffices h : (reconcile old ms).1.map (·.key) = ms.map Script.key ∧ (∀ i ∈ (reconcile old ms).1, i.dep = i.key) ∧
    (∀ n, (reconcile old ms).2.count n + (waiting (reconcile old ms).1).count n ≤
      (waiting old).count n + ((ms.filter (fun m => m.key ∉ old.map (·.key))).map Script.node).count n) ∧
    ((∀ i ∈ old, i.pending = none) → (reconcile old ms).2 = [] ∧
      waiting (reconcile old ms).1 = (ms.filter (fun m => m.key ∉ old.map (·.key))).map Script.node) by
    obtain ⟨h1, h2, h3, h4⟩ := h
    refine ⟨⟨fun i hi => ?_, h2, h1 ▸ hd.2⟩, h1, h3, h4⟩
    have : i.key ∈ ms.map Script.key := h1 ▸ List.mem_map_of_mem hi
    obtain ⟨m, hm, e⟩ := List.mem_map.1 this
    obtain ⟨k, hk⟩ := hd.1 m hm
    exact ⟨k, by rw [← e, hk]⟩
  induction ms generalizing old with
  | nil =>
    refine ⟨rfl, (fun i hi => by cases hi), (fun n => ?_), fun h => ⟨rfl, rfl⟩⟩
    simp [reconcile, waiting]
  | cons m ms ih =>
    have hd' : Distinct ms := ⟨fun x hx => hd.1 x (List.mem_cons_of_mem _ hx), (List.nodup_cons.1 hd.2).2⟩
    have hnot : m.key ∉ ms.map Script.key := (List.nodup_cons.1 hd.2).1
    obtain ⟨k, hk⟩ := hd.1 m List.mem_cons_self
    rcases take_neat ho k with ⟨h1, h2⟩ | ⟨a, i, b, h1, h2, h3⟩
    · have hr : reconcile old (m :: ms) = (mount m :: (reconcile old ms).1, (reconcile old ms).2) := by
        rw [reconcile, hk, h1]
      obtain ⟨i1, i2, i3, i4⟩ := ih old ho hd'
      have hf : (m :: ms).filter (fun m => m.key ∉ old.map (·.key)) =
          m :: ms.filter (fun m => m.key ∉ old.map (·.key)) := by
        rw [List.filter_cons_of_pos]; simpa [hk] using h2
      rw [hr, hf]
      refine ⟨by simp only [List.map_cons, i1]; rfl, ?_, ?_, ?_⟩
      · intro j hj
        rcases List.mem_cons.1 hj with rfl | hj
        · rfl
        · exact i2 j hj
      · intro n
        have := i3 n
        have hw : (mount m).flush.2 = [m.node] := rfl
        rw [waiting_cons, hw, List.map_cons, List.singleton_append, List.count_cons, List.count_cons]
        show (reconcile old ms).2.count n + _ ≤ _
        omega
      · intro hp
        obtain ⟨j1, j2⟩ := i4 hp
        refine ⟨j1, ?_⟩
        rw [waiting_cons, j2]; rfl
    · subst h2
      have hi : i ∈ a ++ i :: b := List.mem_append_right _ List.mem_cons_self
      have hdep : i.dep = m.key := by rw [ho.dep i hi, h3, hk]
      obtain ⟨u1, u2⟩ := update_neat i m hdep
      have hr : reconcile (a ++ i :: b) (m :: ms) =
          ((i.update m).1 :: (reconcile (a ++ b) ms).1, (i.update m).2 ++ (reconcile (a ++ b) ms).2) := by
        rw [reconcile, hk, h1]
      obtain ⟨i1, i2, i3, i4⟩ := ih (a ++ b) (neat_sub ho) hd'
      have hf : (m :: ms).filter (fun x => x.key ∉ (a ++ i :: b).map (·.key)) =
          ms.filter (fun x => x.key ∉ (a ++ b).map (·.key)) := by
        rw [List.filter_cons_of_neg]
        · simp only [List.map_append, List.map_cons]
          rw [h3, ← hk]
          exact filter_congr_keys ms _ hnot _ _
        · have : m.key ∈ (a ++ i :: b).map (·.key) := by
            rw [hk, ← h3]; exact List.mem_map_of_mem (f := Inst.key) hi
          simp only [this, not_true_eq_false, decide_false, Bool.false_eq_true, not_false_eq_true]
      have hkey : (i.update m).1.key = m.key := by
        unfold Inst.update; simp only [(flush_key i).2, if_pos hdep]
      have hdep' : (i.update m).1.dep = m.key := by
        unfold Inst.update; simp only [(flush_key i).2, if_pos hdep]; exact hdep
      rw [hr, hf]
      refine ⟨by simp only [List.map_cons, i1, hkey], ?_, ?_, ?_⟩
      · intro j hj
        rcases List.mem_cons.1 hj with rfl | hj
        · rw [hkey, hdep']
        · exact i2 j hj
      · intro n
        have := i3 n
        rw [waiting_append] at this
        simp only [waiting_cons, waiting_append, flush_again _ u1, u2, List.count_append, List.nil_append] at *
        omega
      · intro hp
        have hp' : ∀ j ∈ a ++ b, j.pending = none := fun j hj => hp j (by
          rcases List.mem_append.1 hj with h | h
          · exact List.mem_append_left _ h
          · exact List.mem_append_right _ (List.mem_cons_of_mem _ h))
        obtain ⟨j1, j2⟩ := i4 hp'
        refine ⟨by rw [u2, flush_again _ (hp i hi), j1]; rfl, ?_⟩
        rw [waiting_cons, flush_again _ u1, j2]; rfl

theorem neat_flush {l : List Inst} (h : Neat l) : Neat (l.map fun i => i.flush.1) := by
  refine ⟨?_, ?_, ?_⟩
  · intro i hi
    obtain ⟨j, hj, rfl⟩ := List.mem_map.1 hi
    rw [(flush_key j).1]; exact h.str j hj
  · intro i hi
    obtain ⟨j, hj, rfl⟩ := List.mem_map.1 hi
    rw [(flush_key j).1, (flush_key j).2]; exact h.dep j hj
  · rw [List.map_map]
    have : ((fun x : Inst => x.key) ∘ fun i => (Inst.flush i).1) = Inst.key := by
      funext i; exact (flush_key i).1
    rw [this]; exact h.nodup

theorem keys_flush (l : List Inst) : (l.map fun i => (Inst.flush i).1).map Inst.key = l.map Inst.key := by
  rw [List.map_map]
  congr 1
  funext i; exact (flush_key i).1

theorem runs_from (views : List (List Script)) (hd : ∀ v ∈ views, Distinct v) (p : Page) (prev : List Script)
    (hn : Neat p.insts) (hk : p.insts.map (·.key) = prev.map Script.key) (hp : ∀ i ∈ p.insts, i.pending = none) :
    (p.run (views.flatMap fun v => [.render v, .flush])).log = p.log ++ (appearing prev views).map Script.node := by
  induction views generalizing p prev with
  | nil => simp [Page.run, appearing]
  | cons v vs ih =>
    obtain ⟨r1, r2, _, r4⟩ := reconcile_neat v p.insts hn (hd v List.mem_cons_self)
    obtain ⟨r5, r6⟩ := r4 hp
    have hstep : Page.run p ((v :: vs).flatMap fun v => [.render v, .flush]) =
        Page.run ((p.step (.render v)).step .flush) (vs.flatMap fun v => [.render v, .flush]) := by
      simp [Page.run]
    have hk' : ((p.step (.render v)).step .flush).insts.map (·.key) = v.map Script.key := by
      show (((reconcile p.insts v).1.map fun i => (Inst.flush i).1).map Inst.key) = _
      rw [keys_flush]; exact r2
    have hp' : ∀ i ∈ ((p.step (.render v)).step .flush).insts, i.pending = none := by
      intro i hi
      obtain ⟨j, hj, rfl⟩ := List.mem_map.1 hi
      exact flush_pending j
    rw [hstep, ih (fun v hv => hd v (List.mem_cons_of_mem _ hv)) _ v (neat_flush r1) hk' hp']
    show ((p.log ++ (reconcile p.insts v).2) ++ waiting (reconcile p.insts v).1) ++ _ = _
    rw [r5, r6, hk]
    simp [appearing]

/-- **C88**, when a script runs: if the page comes to rest after every render, the scripts that were put into the page are those that
appear, in their order: a script runs when it is first shown, again when its key changes or when it is shown again after it was
gone, and in no other case. -/
theorem C88_runs (views : List (List Script)) (hd : ∀ v ∈ views, Distinct v) :
    (Page.run {} (views.flatMap fun v => [.render v, .flush])).log = (appearing [] views).map Script.node := by
  have := runs_from views hd {} [] ⟨(by intro i hi; cases hi), (by intro i hi; cases hi), .nil⟩ rfl
    (by intro i hi; cases hi)
  simpa using this

theorem at_most_from (evs : List Ev) (hd : ∀ v ∈ renders evs, Distinct v) (p : Page) (prev : List Script)
    (hn : Neat p.insts) (hk : p.insts.map (·.key) = prev.map Script.key) (n : Node) :
    (p.run evs).log.count n + (waiting (p.run evs).insts).count n ≤
      p.log.count n + (waiting p.insts).count n + ((appearing prev (renders evs)).map Script.node).count n := by
  induction evs generalizing p prev with
  | nil => simp [Page.run, renders, appearing]
  | cons e es ih =>
    cases e with
    | render v =>
      have hrs : renders (.render v :: es) = v :: renders es := rfl
      rw [hrs] at hd ⊢
      obtain ⟨r1, r2, r3, _⟩ := reconcile_neat v p.insts hn (hd v List.mem_cons_self)
      have := ih (fun v hv => hd v (List.mem_cons_of_mem _ hv)) (p.step (.render v)) v r1 r2
      refine Nat.le_trans this ?_
      have h3 := r3 n
      rw [hk] at h3
      show (p.log ++ (reconcile p.insts v).2).count n + (waiting (reconcile p.insts v).1).count n + _ ≤ _
      rw [appearing, List.map_append, List.count_append, List.count_append]
      omega
    | flush =>
      have hrs : renders (.flush :: es) = renders es := rfl
      rw [hrs] at hd ⊢
      have := ih hd (p.step .flush) prev (neat_flush hn) (by
        show ((p.insts.map fun i => (Inst.flush i).1).map Inst.key) = _
        rw [keys_flush]; exact hk)
      refine Nat.le_trans this ?_
      have hw : waiting (p.step .flush).insts = [] := by
        apply waiting_none
        intro i hi
        obtain ⟨j, hj, rfl⟩ := List.mem_map.1 hi
        exact flush_pending j
      rw [hw]
      show (p.log ++ waiting p.insts).count n + _ + _ ≤ _
      rw [List.count_append, List.count_nil]
      omega

/-- **C88**, however late the effects run: no script runs more often than it appears. -/
theorem C88_at_most (evs : List Ev) (hd : ∀ v ∈ renders evs, Distinct v) (n : Node) :
    (Page.run {} evs).log.count n ≤ ((appearing [] (renders evs)).map Script.node).count n := by
  have := at_most_from evs hd {} [] ⟨(by intro i hi; cases hi), (by intro i hi; cases hi), .nil⟩ rfl n
  simp only [waiting, List.flatMap_nil, List.count_nil] at this
  omega

/-! ### What `html.script` gives -/

theorem find_put_same (d : List (String × Val)) (k : String) (v : Val) (json : Val → JV) :
    ((Vdom.put d k v).map fun p => (p.1, json p.2)).find? (fun p => p.1 = k) = some (k, json v) := by
  induction d with
  | nil => simp [Vdom.put]
  | cons p r ih =>
    by_cases h : p.1 = k
    · simp [Vdom.put, h]
    · simp only [Vdom.put, if_neg h, List.map_cons]
      rw [List.find?_cons_of_neg (by simpa using h)]; exact ih

theorem find_put_other (d : List (String × Val)) (k k' : String) (v : Val) (hk : k ≠ k') (json : Val → JV) :
    ((Vdom.put d k v).map fun p => (p.1, json p.2)).find? (fun p => p.1 = k') =
      (d.map fun p => (p.1, json p.2)).find? (fun p => p.1 = k') := by
  induction d with
  | nil => simp [Vdom.put, hk]
  | cons p r ih =>
    by_cases h : p.1 = k
    · simp only [Vdom.put, if_pos h, List.map_cons]
      rw [List.find?_cons_of_neg (by simpa using hk), List.find?_cons_of_neg (by simp [h, hk])]
    · simp only [Vdom.put, if_neg h, List.map_cons, List.find?_cons]
      rw [ih]

theorem script_code (json : Val → JV) (isNone : Val → Bool) (attrs : List (String × Val)) (s : String)
    (hk : Vdom.get attrs "key" = none) :
    Call.script json isNone ⟨attrs, some s⟩ =
      { attrs := (Vdom.put attrs "key" (.str s)).map fun p => (p.1, json p.2), kids := [some s] } := by
  simp [Call.script, Vdom.script, hk, Vdom.known, sent, Vdom.nonEmpty]

/-- **C88**: code that is flagged as `InlineJavaScript` is sent, and gets into the page, as text is. -/
theorem C88_inline (json : Val → JV) (isNone : Val → Bool) (attrs : List (String × Val)) (s : String)
    (hk : Vdom.get attrs "key" = none) (hj : json (.js s) = .str s) (hs : json (.str s) = .str s) :
    ∃ e, Vdom.script isNone { attributes := attrs } [.js s] = .ok e ∧ sent json e = Call.script json isNone ⟨attrs, some s⟩ := by
  rw [script_code json isNone attrs s hk]
  have hp : ∀ d : List (String × Val), ((Vdom.put d "key" (.js s)).map fun p => (p.1, json p.2)) =
      ((Vdom.put d "key" (.str s)).map fun p => (p.1, json p.2)) := by
    intro d
    induction d with
    | nil => simp [Vdom.put, hj, hs]
    | cons p r ih =>
      by_cases h : p.1 = "key"
      · simp [Vdom.put, h, hj, hs]
      · simp only [Vdom.put, if_neg h, List.map_cons, ih]
  refine ⟨_, by simp only [Vdom.script]; rfl, ?_⟩
  simp [hk, Vdom.known, sent, Vdom.nonEmpty, hp]

theorem script_src (json : Val → JV) (isNone : Val → Bool) (attrs : List (String × Val)) (s : String)
    (hk : Vdom.get attrs "key" = none) (hs : Vdom.get attrs "src" = some (.str s)) (hn : isNone (.str s) = false) :
    Call.script json isNone ⟨attrs, none⟩ =
      { attrs := (Vdom.put attrs "key" (.str s)).map fun p => (p.1, json p.2), kids := [] } := by
  have hne : attrs.isEmpty = false := by
    cases attrs with
    | nil => cases hs
    | cons _ _ => rfl
  simp [Call.script, Vdom.script, hk, hs, Vdom.known, sent, Vdom.nonEmpty, hne, hn]

theorem node_text (a : List (String × JV)) (s : String) :
    (Script.node { attrs := a, kids := [some s] }).text.getD "" = s := by
  show ((some s).filter (fun x => decide (x ≠ ""))).getD "" = s
  by_cases he : s = ""
  · rw [he]; rfl
  · rw [Option.filter_some, if_pos (decide_eq_true he)]; rfl

theorem shown_calls (json : Val → JV) (isNone : Val → Bool) (l : List (Option (List Call))) :
    shown (calls json isNone l) = (lastCalls l).map (Call.script json isNone) := by
  have h : ∀ (l : List (Option (List Call))) (d : List Call),
      (calls json isNone l).foldl (fun v e => match e with | .render ms => ms | .flush => v)
        (d.map (Call.script json isNone)) =
      (((l.filterMap id).getLast?).getD d).map (Call.script json isNone) := by
    intro l
    induction l with
    | nil => intro d; rfl
    | cons x xs ih =>
      intro d
      cases x with
      | none => exact ih d
      | some cs =>
        refine (ih cs).trans ?_
        simp [List.getLast?_cons]
  exact h l []

theorem history_calls (json : Val → JV) (isNone : Val → Bool) (l : List (Option (List Call))) (n : Script)
    (h : n ∈ history (calls json isNone l)) : ∃ cs, some cs ∈ l ∧ ∃ c ∈ cs, n = Call.script json isNone c := by
  simp only [history, calls, List.mem_flatMap, List.mem_map] at h
  obtain ⟨e, ⟨o, ho, rfl⟩, hn⟩ := h
  cases o with
  | none => cases hn
  | some cs =>
    obtain ⟨c, hc, rfl⟩ := List.mem_map.1 hn
    exact ⟨cs, ho, c, hc, rfl⟩

/-- **C88**, without keys (partial: no script's code is another's `src`; attributes other than `src` may be those of an earlier
render): once the effects have run, the script elements in the page hold the code, or the `src`, of the scripts that the component
rendered last. -/
theorem C88_content_partial (json : Val → JV) (isNone : Val → Bool) (hj : ∀ s, json (.str s) = .str s)
    (hn : ∀ s, isNone (.str s) = false) (l : List (Option (List Call)))
    (hl : ∀ cs, some cs ∈ l → ∀ c ∈ cs, Vdom.get c.attrs "key" = none ∧ (c.code.isSome ∨ c.src.isSome))
    (hx : ∀ cs, some cs ∈ l → ∀ ds, some ds ∈ l → ∀ c ∈ cs, ∀ d ∈ ds, d.code = none → c.code ≠ d.src) :
    Each (fun n c => n.text.getD "" = c.code.getD "" ∧ (c.code = none → n.attr "src" = c.src))
      (Page.run {} (calls json isNone l ++ [.flush])).nodes (lastCalls l) := by
  obtain ⟨_, _, made, h1, h2⟩ := C88_page (calls json isNone l)
  rw [h1]
  rw [shown_calls] at h2
  have hlast : ∀ c ∈ lastCalls l, ∃ cs, some cs ∈ l ∧ c ∈ cs := by
    intro c hc
    unfold lastCalls at hc
    cases hg : (l.filterMap id).getLast? with
    | none => rw [hg] at hc; cases hc
    | some cs =>
      rw [hg] at hc
      have := List.mem_of_getLast? hg
      exact ⟨cs, by simpa using this, hc⟩
  -- the key, the text and the `src` of a call
  have key : ∀ c cs, some cs ∈ l → c ∈ cs → (Call.script json isNone c).key = (c.code.or c.src).map .str := by
    intro c cs hcs hc
    obtain ⟨hk, ho⟩ := hl cs hcs c hc
    cases c with
    | mk attrs code =>
      cases code with
      | some s => rw [script_code _ _ _ _ hk]; simp only [Script.key, find_put_same, hj]; rfl
      | none =>
        simp only [Option.isSome_none, Bool.false_eq_true, false_or] at ho
        obtain ⟨s, hs⟩ := Option.isSome_iff_exists.1 ho
        have hs' : Vdom.get attrs "src" = some (.str s) := by
          unfold Call.src at hs
          split at hs
          · cases hs; assumption
          · cases hs
        rw [script_src _ _ _ _ hk hs' (hn s)]
        simp only [Script.key, find_put_same, hj, hs, Option.or]; rfl
  have text : ∀ c cs, some cs ∈ l → c ∈ cs → (Call.script json isNone c).node.text.getD "" = c.code.getD "" := by
    intro c cs hcs hc
    obtain ⟨hk, ho⟩ := hl cs hcs c hc
    cases c with
    | mk attrs code =>
      cases code with
      | some s =>
        rw [script_code _ _ _ _ hk]
        exact node_text _ s
      | none =>
        simp only [Option.isSome_none, Bool.false_eq_true, false_or] at ho
        obtain ⟨s, hs⟩ := Option.isSome_iff_exists.1 ho
        have hs' : Vdom.get attrs "src" = some (.str s) := by
          unfold Call.src at hs
          split at hs
          · cases hs; assumption
          · cases hs
        rw [script_src _ _ _ _ hk hs' (hn s)]; rfl
  have src : ∀ c cs, some cs ∈ l → c ∈ cs → c.code = none → (Call.script json isNone c).node.attr "src" = c.src := by
    intro c cs hcs hc hcode
    obtain ⟨hk, ho⟩ := hl cs hcs c hc
    cases c with
    | mk attrs code =>
      cases hcode
      simp only [Option.isSome_none, Bool.false_eq_true, false_or] at ho
      obtain ⟨s, hs⟩ := Option.isSome_iff_exists.1 ho
      have hs' : Vdom.get attrs "src" = some (.str s) := by
        unfold Call.src at hs
        split at hs
        · cases hs; assumption
        · cases hs
      rw [script_src _ _ _ _ hk hs' (hn s), hs]
      have := find_put_other attrs "key" "src" (.str s) (by decide) json
      have h' : (attrs.map fun p => (p.1, json p.2)).find? (fun p => p.1 = "src") = some ("src", .str s) := by
        unfold Vdom.get at hs'
        obtain ⟨p, hp, e⟩ := Option.map_eq_some_iff.1 hs'
        have hp1 : p.1 = "src" := by simpa using List.find?_some hp
        rw [List.find?_map]
        have : ((fun p : String × JV => decide (p.1 = "src")) ∘ fun p : String × Val => (p.1, json p.2)) =
            fun p => decide (p.1 = "src") := rfl
        rw [this, hp]
        simp [hp1, e, hj]
      rw [h'] at this
      have hf : ∀ L : List (String × JV), L.find? (fun p => p.1 = "src") = some ("src", .str s) →
          Node.attr (Script.node { attrs := L, kids := [] }) "src" = some s := by
        intro L hL
        show ((L.map fun p => (p.1, p.2.text)).find? (fun p => p.1 = "src")).map (·.2) = _
        rw [List.find?_map]
        have : ((fun p : String × String => decide (p.1 = "src")) ∘ fun p : String × JV => (p.1, p.2.text)) =
            fun p => decide (p.1 = "src") := rfl
        rw [this, hL]; rfl
      exact hf _ this
  clear h1
  generalize hm : (lastCalls l).map (Call.script json isNone) = v at h2
  generalize lastCalls l = cs at hm hlast
  induction h2 generalizing cs with
  | nil => cases cs with
    | nil => exact .nil
    | cons _ _ => cases hm
  | @cons n m made v h _ ih =>
    cases cs with
    | nil => cases hm
    | cons c cs =>
      cases hm
      refine .cons ?_ (ih cs rfl fun c hc => hlast c (List.mem_cons_of_mem _ hc))
      obtain ⟨ds, hds, hc⟩ := hlast c List.mem_cons_self
      obtain ⟨es, hes, d, hd, rfl⟩ := history_calls json isNone l n h.2
      have hkey := h.1
      rw [key c ds hds hc, key d es hes hd] at hkey
      have hkey' : d.code.or d.src = c.code.or c.src := by
        cases ha : d.code.or d.src <;> cases hb : c.code.or c.src <;> rw [ha, hb] at hkey <;> simp_all
      rw [text d es hes hd]
      cases hcc : c.code with
      | some s =>
        cases hdc : d.code with
        | some t =>
          rw [hcc, hdc] at hkey'
          simp only [Option.or] at hkey'
          cases hkey'
          exact ⟨rfl, fun h => nomatch h⟩
        | none =>
          rw [hcc, hdc] at hkey'
          exact absurd (hcc.trans (by simpa using hkey'.symm)) (hx ds hds es hes c hc d hd hdc)
      | none =>
        cases hdc : d.code with
        | some t =>
          rw [hcc, hdc] at hkey'
          exact absurd (hdc.trans (by simpa using hkey')) (hx es hes ds hds d hd c hc hcc)
        | none =>
          rw [hcc, hdc] at hkey'
          refine ⟨rfl, fun _ => ?_⟩
          rw [src d es hes hd hdc]
          simpa using hkey'

/-! ### Examples -/

/-- Text stays text; `other 0` is `None`, `other 1` is `False`, other objects are numbers. -/
def exJson : Val → JV
  | .str s => .str s
  | .js s => .str s
  | .other 0 => .null
  | .other 1 => .bool false
  | .other n => .num n
  | _ => .null

/-- `other 0` is `None`. -/
def exNone : Val → Bool
  | .other 0 => true
  | _ => false

/-- A script with a key. -/
def keyed (k code : String) : Script := { attrs := [("key", .str k)], kids := [some code] }

-- two scripts; their order changes; one gets another key; all are gone; one comes back
example : (∀ v ∈ [[keyed "a" "1", keyed "b" "2"], [keyed "b" "2", keyed "a" "3"], [keyed "c" "2", keyed "a" "3"], [],
      [keyed "a" "3"]], (∀ m ∈ v, m.key ∈ [some (.str "a"), some (.str "b"), some (.str "c")]) ∧ (v.map Script.key).Nodup) ∧
    (appearing [] [[keyed "a" "1", keyed "b" "2"], [keyed "b" "2", keyed "a" "3"], [keyed "c" "2", keyed "a" "3"], [],
      [keyed "a" "3"]]) = [keyed "a" "1", keyed "b" "2", keyed "c" "2", keyed "a" "3"] := by decide +kernel

-- a script that is gone before the effects run does not run
example : (Page.run {} [.render [keyed "a" "1"], .render [], .flush]).log = [] ∧
    (Page.run {} [.render [keyed "a" "1"], .render [keyed "b" "2", keyed "a" "1"], .flush, .flush]).log =
      [(keyed "a" "1").node, (keyed "b" "2").node] := by decide +kernel

-- a key that changes from a number to the same text: the element is used again, the script runs again
example : let m : Script := { attrs := [("key", .num 1)], kids := [some "x"] }
    (Page.run {} [.render [m], .flush, .render [keyed "1" "y"], .flush]).log = [m.node, (keyed "1" "y").node] ∧
    (Page.run {} [.render [m], .flush, .render [keyed "1" "y"], .flush]).nodes = [(keyed "1" "y").node] := by decide +kernel

-- `C88_content_partial`: a script with code and one with `src`, then other code
example : (∀ cs, some cs ∈ [some [⟨[], some "f()"⟩, ⟨[("src", .str "a.js")], none⟩], none, some [⟨[], some "g()"⟩]] →
      ∀ c ∈ cs, Vdom.get c.attrs "key" = none ∧ (c.code.isSome ∨ (Call.src c).isSome)) ∧
    (Page.run {} (calls exJson exNone [some [⟨[], some "f()"⟩, ⟨[("src", .str "a.js")], none⟩], none,
      some [⟨[], some "g()"⟩]] ++ [.flush])).nodes = [⟨[("key", "g()")], some "g()"⟩] := by
  refine ⟨?_, by decide +kernel⟩
  intro cs hcs c hc
  simp at hcs
  rcases hcs with rfl | rfl
  · simp at hc
    rcases hc with rfl | rfl <;> exact ⟨by decide +kernel, by decide +kernel⟩
  · simp at hc; subst hc; exact ⟨by decide +kernel, by decide +kernel⟩

/-! ### Where it goes wrong -/

/-- C88 is violated: two scripts with the same code next to each other get the same key, and the layout refuses two children with the
same key: the component that renders them fails. -/
theorem C88_same_code_violated (json : Val → JV) (isNone : Val → Bool) (hj : ∀ s, json (.str s) = .str s) (s : String) :
    (Call.script json isNone ⟨[], some s⟩).key = some (.str s) ∧
    Layout.hasDupKeys (Layout.childrenInfo 0
      [.elem { tag := "script", attrs := some [("key", .key (.str s))] } [.text s],
       .elem { tag := "script", attrs := some [("key", .key (.str s))] } [.text s]]) = true := by
  constructor
  · rw [script_code _ _ _ _ rfl]; simp only [Script.key, find_put_same, hj]; rfl
  · simp [Layout.hasDupKeys, Layout.childrenInfo, Layout.dictGet]

/-- C88 is violated: a script with `src` that follows a script whose code is the same text is never loaded. -/
theorem C88_code_and_src_violated :
    ∃ l : List (Option (List Call)), lastCalls l = [⟨[("src", .str "main")], none⟩] ∧
      (Page.run {} (calls exJson exNone l ++ [.flush])).nodes = [⟨[("key", "main")], some "main"⟩] :=
  ⟨[some [⟨[], some "main"⟩], none, some [⟨[("src", .str "main")], none⟩]], rfl, by decide +kernel⟩

/-- C88 is violated: an attribute that changes while the code stays the same is not changed in the page. -/
theorem C88_attribute_violated :
    ∃ l : List (Option (List Call)), lastCalls l = [⟨[("type", .str "module")], some "f()"⟩] ∧
      (Page.run {} (calls exJson exNone l ++ [.flush])).nodes = [⟨[("key", "f()")], some "f()"⟩] :=
  ⟨[some [⟨[], some "f()"⟩], none, some [⟨[("type", .str "module")], some "f()"⟩]], rfl, by decide +kernel⟩

/-- C88 is violated: every attribute is given to the script element as text, so that `async=False` and `integrity=None` are there as
`async="false"`, which means that it is asynchronous, and `integrity="null"`. -/
theorem C88_false_violated :
    (Page.run {} (calls exJson exNone
      [some [⟨[("src", .str "a.js"), ("async", .other 1), ("integrity", .other 0)], none⟩]] ++ [.flush])).nodes =
      [⟨[("src", "a.js"), ("async", "false"), ("integrity", "null"), ("key", "a.js")], none⟩] := by decide +kernel

end Verif.Client.Script
