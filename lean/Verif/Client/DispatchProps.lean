import Verif.Client.Dispatch
/-! # Listeners get the messages they have subscribed to -/
namespace Verif.Client.Dispatch

/-! ## Specification -/

/-- The subscriptions: those in force, each with its number, type and listener, and all that were ever made. -/
structure Book where
  active : List (Nat × Str × Nat)
  made : List (Str × Nat)
deriving DecidableEq, Repr

/-- Nobody has subscribed. -/
def Book.init : Book := { active := [], made := [] }

/-- A subscription is in force from when it is made until it is ended. -/
def Book.act (k : Book) : Act → Book
  | .subscribe type h => { active := k.active ++ [(k.made.length, type, h)], made := k.made ++ [(type, h)] }
  | .unsubscribe n => { k with active := k.active.filter (fun s => s.1 ≠ n) }

/-- The listeners of a type, in the order of their subscriptions. -/
def Book.listeners (k : Book) (type : Str) : List Nat := (k.active.filter (fun s => s.2.1 = type)).map (·.2.2)

/-- The listeners up to and including the first that throws. -/
def upTo (b : Behaviour) (m : Msg) : List Nat → List Nat
  | [] => []
  | h :: l => if (b h m).2 then [h] else h :: upTo b m l

/-- What is to happen: a message goes to those who listened to its type when it came; what they do then counts from the next message
on. -/
def Book.step (b : Behaviour) (k : Book) : Event → Book × Seen
  | .message m =>
    match m with
    | .typed type _ =>
      let calls := upTo b m (k.listeners type)
      ((calls.flatMap (fun h => (b h m).1)).foldl Book.act k,
       { calls := calls, warned := k.made.all (fun r => r.1 ≠ type), threw := (k.listeners type).any (fun h => (b h m).2) })
    | _ => (k, { calls := [], warned := true, threw := false })
  | .act a => (k.act a, { calls := [], warned := false, threw := false })

/-- A history. -/
def Book.run (b : Behaviour) (k : Book) : List Event → Book × List Seen
  | [] => (k, [])
  | e :: l => ((Book.run b (k.step b e).1 l).1, (k.step b e).2 :: (Book.run b (k.step b e).1 l).2)

/-- The names of `Object.prototype`. -/
def prototypeNames : List Str :=
  ["constructor".toList, "toString".toList, "toLocaleString".toList, "valueOf".toList, "hasOwnProperty".toList, "isPrototypeOf".toList,
   "propertyIsEnumerable".toList, "__proto__".toList, "__defineGetter__".toList, "__defineSetter__".toList, "__lookupGetter__".toList,
   "__lookupSetter__".toList]

/-- What the theorem excludes: that one listener subscribes twice to one type, and types that are names of `Object.prototype`. -/
def Usual (made : List (Str × Nat)) : Prop := made.Nodup ∧ ∀ r ∈ made, r.1 ∉ prototypeNames

/-- Messages have a type that is no name of `Object.prototype`, or none. -/
def UsualMsg : Event → Prop
  | .message .null => False
  | .message (.typed type _) => type ∉ prototypeNames
  | _ => True

/-! ## Auxiliary -/

theorem Usual.of_prefix {l r : List (Str × Nat)} (h : Usual r) (hp : l <+: r) : Usual l :=
  ⟨h.1.sublist hp.sublist, fun x hx => h.2 x (hp.sublist.mem hx)⟩

theorem act_made (k : Book) (a : Act) : k.made <+: (k.act a).made := by
  cases a with
  | subscribe type h => exact List.prefix_append _ _
  | unsubscribe n => exact List.prefix_refl _

theorem acts_made (k : Book) (l : List Act) : k.made <+: (l.foldl Book.act k).made := by
  induction l generalizing k with
  | nil => exact List.prefix_refl _
  | cons a l ih => exact (act_made k a).trans (ih (k.act a))

theorem step_made (b : Behaviour) (k : Book) (e : Event) : k.made <+: (k.step b e).1.made := by
  cases e with
  | message m => cases m <;> first | exact List.prefix_refl _ | exact acts_made _ _
  | act a => exact act_made k a

theorem run_made (b : Behaviour) (k : Book) (l : List Event) : k.made <+: (k.run b l).1.made := by
  induction l generalizing k with
  | nil => exact List.prefix_refl _
  | cons a l ih => exact (step_made b k a).trans (ih (k.step b a).1)

theorem find_filter_ne {l : List (Str × List Nat)} {a x : Str} (h : x ≠ a) :
    (l.filter (fun p => p.1 ≠ a)).find? (fun p => p.1 = x) = l.find? (fun p => p.1 = x) := by
  induction l with
  | nil => rfl
  | cons p l ih =>
    by_cases h1 : p.1 = a
    · have h2 : p.1 ≠ x := fun e => h (e ▸ h1)
      rw [List.filter_cons_of_neg (by simp [h1]), List.find?_cons_of_neg (by simp [h2]), ih]
    · rw [List.filter_cons_of_pos (by simp [h1])]
      by_cases h2 : p.1 = x
      · rw [List.find?_cons_of_pos (by simp [h2]), List.find?_cons_of_pos (by simp [h2])]
      · rw [List.find?_cons_of_neg (by simp [h2]), List.find?_cons_of_neg (by simp [h2]), ih]

theorem get_set (c : Client) (t x : Str) (l : List Nat) : get (set c t l) x = if x = t then .list l else get c x := by
  unfold get set
  by_cases h : x = t
  · subst h; rw [List.find?_cons_of_pos (by simp)]; simp
  · rw [List.find?_cons_of_neg (by simp; exact fun e => h e.symm)]
    simp only [h, if_false]
    rw [find_filter_ne h]

structure Inv (c : Client) (k : Book) : Prop where
  made : c.made = k.made
  ready : c.ready = true ↔ k.made ≠ []
  ids : ∀ n t h, (n, t, h) ∈ k.active → k.made[n]? = some (t, h)
  slot : ∀ t, t ∉ inherited → get c t = if k.made.all (fun r => r.1 ≠ t) then .missing else .list (k.listeners t)

theorem inv_init : Inv init Book.init := by
  refine ⟨rfl, by simp [init, Book.init], by simp [Book.init], fun t ht => ?_⟩
  show (if t ∈ inherited then Slot.other else .missing) = _
  rw [if_neg ht]; rfl

theorem listeners_append (k : Book) (x : Nat × Str × Nat) (t : Str) (made) :
    Book.listeners { active := k.active ++ [x], made := made } t = k.listeners t ++ (if x.2.1 = t then [x.2.2] else []) := by
  unfold Book.listeners
  rw [List.filter_append, List.map_append]
  by_cases h : x.2.1 = t
  · simp [h]
  · simp [h]

theorem listeners_empty {c k} (I : Inv c k) {t} (h : k.made.all (fun r => r.1 ≠ t) = true) : k.listeners t = [] := by
  unfold Book.listeners
  rw [List.map_eq_nil_iff, List.filter_eq_nil_iff]
  rintro ⟨n, t', h'⟩ hm
  have := I.ids n t' h' hm
  have hmem : (t', h') ∈ k.made := List.mem_of_getElem? this
  have := List.all_eq_true.1 h _ hmem
  simpa using this

theorem onMessage_inv {c k t h} (I : Inv c k) (hi : t ∉ inherited) :
    Inv (onMessage c t h).1 (k.act (.subscribe t h)) ∧ (onMessage c t h).2 = true := by
  have ids : ∀ n t' h', (n, t', h') ∈ (k.act (.subscribe t h)).active → (k.act (.subscribe t h)).made[n]? = some (t', h') := by
    intro n t' h' hm
    simp only [Book.act, List.mem_append, List.mem_singleton] at hm ⊢
    rcases hm with hm | hm
    · have := I.ids n t' h' hm
      rw [List.getElem?_append_left (List.getElem?_eq_some_iff.1 this).1]; exact this
    · injection hm with h1 h2; injection h2 with h2 h3; subst h1; subst h2; subst h3
      rw [List.getElem?_append_right (Nat.le_refl _), Nat.sub_self]; rfl
  have all : ∀ x, (k.made ++ [(t, h)]).all (fun r => decide (r.1 ≠ x)) = (k.made.all (fun r => decide (r.1 ≠ x)) && decide (t ≠ x)) := by
    intro x; rw [List.all_append]; simp
  have slot : ∀ l, (if k.made.all (fun r => decide (r.1 ≠ t)) then l = [] else l = k.listeners t) → ∀ x, x ∉ inherited →
      get (set c t (l ++ [h])) x = if (k.act (.subscribe t h)).made.all (fun r => r.1 ≠ x) then .missing else .list ((k.act (.subscribe t h)).listeners x) := by
    intro l hl x hx
    rw [get_set]
    show _ = if (k.made ++ [(t, h)]).all (fun r => decide (r.1 ≠ x)) = true then _ else
      Slot.list (Book.listeners { active := k.active ++ [(k.made.length, t, h)], made := k.made ++ [(t, h)] } x)
    simp only [all, listeners_append]
    by_cases he : x = t
    · subst he
      have hd : decide (x ≠ x) = false := by simp
      simp only [if_true, hd, Bool.and_false, Bool.false_eq_true, if_false]
      split at hl
      · rename_i ha; rw [hl, listeners_empty I ha]
      · rw [hl]
    · have hd : decide (t ≠ x) = true := by simp; exact fun e => he e.symm
      have hn : t ≠ x := fun e => he e.symm
      simp only [he, if_false, hd, Bool.and_true, hn, List.append_nil]
      exact I.slot x hx
  have hs := I.slot t hi
  unfold onMessage
  by_cases ha : k.made.all (fun r => decide (r.1 ≠ t)) = true
  · rw [if_pos ha] at hs; rw [hs]
    refine ⟨⟨by simp only [I.made]; rfl, by simp [Book.act], ids, fun x hx => ?_⟩, rfl⟩
    exact slot [] (by rw [if_pos ha]) x hx
  · rw [if_neg ha] at hs; rw [hs]
    refine ⟨⟨by simp only [I.made]; rfl, by simp [Book.act], ids, fun x hx => ?_⟩, rfl⟩
    exact slot (k.listeners t) (by rw [if_neg ha]) x hx

theorem nodup_index {l : List (Str × Nat)} (h : l.Nodup) {i j : Nat} {x} (hi : l[i]? = some x) (hj : l[j]? = some x) : i = j := by
  obtain ⟨a, ha⟩ := List.getElem?_eq_some_iff.1 hi
  obtain ⟨b, hb⟩ := List.getElem?_eq_some_iff.1 hj
  have hp := List.pairwise_iff_getElem.1 h
  rcases Nat.lt_trichotomy i j with hl | hl | hl
  · exact absurd (ha.trans hb.symm) (hp i j a b hl)
  · exact hl
  · exact absurd (hb.trans ha.symm) (hp j i b a hl)

theorem offMessage_inv {c k n} (I : Inv c k) (hu : Usual k.made) : Inv (offMessage c n) (k.act (.unsubscribe n)) := by
  have ids : ∀ n' t' h', (n', t', h') ∈ (k.act (.unsubscribe n)).active → (k.act (.unsubscribe n)).made[n']? = some (t', h') :=
    fun n' t' h' hm => I.ids n' t' h' (List.mem_filter.1 hm).1
  have same : ∀ x, (∀ h', k.made[n]? ≠ some (x, h')) → (k.act (.unsubscribe n)).listeners x = k.listeners x := by
    intro x hx
    unfold Book.listeners Book.act
    simp only [List.filter_filter]
    congr 1
    apply List.filter_congr
    rintro ⟨n', t', h'⟩ hm
    by_cases ht : t' = x
    · subst ht
      have : n' ≠ n := fun e => hx h' (e ▸ I.ids n' t' h' hm)
      simp [this]
    · simp [ht]
  unfold offMessage
  rw [I.made]
  cases hn : k.made[n]? with
  | none =>
    refine ⟨I.made, I.ready, ids, fun x hx => ?_⟩
    rw [same x (by rw [hn]; intro h' e; cases e)]
    exact I.slot x hx
  | some r =>
    obtain ⟨t, h⟩ := r
    have hmem : (t, h) ∈ k.made := List.mem_of_getElem? hn
    have hi : t ∉ inherited := hu.2 _ hmem
    have ha : ¬ k.made.all (fun r => decide (r.1 ≠ t)) = true := by
      intro ha; have := List.all_eq_true.1 ha _ hmem; simp at this
    have hs := I.slot t hi
    rw [if_neg ha] at hs
    simp only [hs]
    refine ⟨I.made, I.ready, ids, fun x hx => ?_⟩
    rw [get_set]
    by_cases he : x = t
    · subst he
      simp only [if_true]
      show _ = if k.made.all (fun r => decide (r.1 ≠ x)) = true then _ else _
      rw [if_neg ha]
      congr 1
      unfold Book.listeners Book.act
      simp only [List.filter_map, List.filter_filter]
      congr 1
      apply List.filter_congr
      rintro ⟨n', t', h'⟩ hm
      have hid := I.ids n' t' h' hm
      by_cases ht : t' = x
      · subst ht
        by_cases hh : h' = h
        · subst hh
          have : n' = n := nodup_index hu.1 hid hn
          simp [this]
        · have : n' ≠ n := by
            intro e; subst e; rw [hn] at hid; injection hid with hid; injection hid with _ hid; exact hh hid.symm
          simp [hh, this]
      · simp [ht]
    · simp only [he, if_false]
      rw [same x]
      · exact I.slot x hx
      · intro h' e; rw [hn] at e; injection e with e; injection e with e _; exact he e.symm

theorem act_inv {c k a} (I : Inv c k) (hu : Usual (k.act a).made) : Inv (act c a).1 (k.act a) ∧ (act c a).2 = true := by
  cases a with
  | subscribe t h =>
    exact onMessage_inv I (hu.2 (t, h) (by simp [Book.act]))
  | unsubscribe n => exact ⟨offMessage_inv I hu, rfl⟩

theorem acts_inv {c k} {l : List Act} (I : Inv c k) (hu : Usual (l.foldl Book.act k).made) :
    Inv (acts c l).1 (l.foldl Book.act k) ∧ (acts c l).2 = true := by
  induction l generalizing c k with
  | nil => exact ⟨I, rfl⟩
  | cons a l ih =>
    have h1 := act_inv I (hu.of_prefix (acts_made (k.act a) l))
    simp only [acts]
    rw [show act c a = ((act c a).1, true) by rw [← h1.2]]
    exact ih h1.1 hu

theorem forEach_inv {b m c k} {l : List Nat} (I : Inv c k)
    (hu : Usual (((upTo b m l).flatMap (fun h => (b h m).1)).foldl Book.act k).made) :
    Inv (forEach b m c l).1 (((upTo b m l).flatMap (fun h => (b h m).1)).foldl Book.act k) ∧
    (forEach b m c l).2.1 = upTo b m l ∧ (forEach b m c l).2.2 = !l.any (fun h => (b h m).2) := by
  induction l generalizing c k with
  | nil => exact ⟨I, rfl, rfl⟩
  | cons h l ih =>
    simp only [forEach]
    by_cases ht : (b h m).2 = true
    · have e : upTo b m (h :: l) = [h] := by simp only [upTo, ht, if_true]
      rw [e] at hu ⊢
      simp only [List.flatMap_cons, List.flatMap_nil, List.append_nil] at hu ⊢
      have h1 := acts_inv I hu
      rw [show acts c (b h m).1 = ((acts c (b h m).1).1, true) by rw [← h1.2]]
      simp only [ht, if_true, List.any_cons, Bool.true_or, Bool.not_true, and_self, and_true]
      exact h1.1
    · have e : upTo b m (h :: l) = h :: upTo b m l := by simp only [upTo, ht]; rfl
      rw [e] at hu ⊢
      simp only [List.flatMap_cons, List.foldl_append] at hu ⊢
      have h1 := acts_inv I (hu.of_prefix (acts_made _ _))
      rw [show acts c (b h m).1 = ((acts c (b h m).1).1, true) by rw [← h1.2]]
      have hf : (b h m).2 = false := by simpa using ht
      simp only [hf, Bool.false_eq_true, if_false, List.any_cons, Bool.false_or]
      have h2 := ih h1.1 hu
      exact ⟨h2.1, by rw [h2.2.1], h2.2.2⟩

theorem step_inv {b c k e} (I : Inv c k) (hm : UsualMsg e) (hu : Usual (k.step b e).1.made) :
    Inv (step b c e).1 (k.step b e).1 ∧ (step b c e).2 = (k.step b e).2 := by
  cases e with
  | act a =>
    have := act_inv I hu
    refine ⟨this.1, ?_⟩
    simp only [step, Book.step, this.2, Bool.not_true]
  | message m =>
    cases m with
    | null => exact absurd hm id
    | untyped n => exact ⟨I, rfl⟩
    | typed t n =>
      simp only [step, handleIncoming, I.slot t hm]
      by_cases ha : k.made.all (fun r => decide (r.1 ≠ t)) = true
      · have hl := listeners_empty I ha
        simp only [Book.step, hl, upTo, List.flatMap_nil, List.foldl_nil, List.any_nil]
        rw [if_pos ha, ha]; exact ⟨I, rfl⟩
      · simp only [Book.step] at hu ⊢
        rw [if_neg ha]
        have h2 := forEach_inv I hu
        refine ⟨h2.1, ?_⟩
        simp only [h2.2.1, h2.2.2, Bool.not_not]
        congr 1
        exact (Bool.eq_false_iff.2 ha).symm

theorem run_inv {b c k} {es : List Event} (I : Inv c k) (hm : ∀ e ∈ es, UsualMsg e) (hu : Usual (k.run b es).1.made) :
    Inv (run b c es).1 (k.run b es).1 ∧ (run b c es).2 = (k.run b es).2 := by
  induction es generalizing c k with
  | nil => exact ⟨I, rfl⟩
  | cons e l ih =>
    have h1 := step_inv (b := b) I (hm e (List.mem_cons_self ..)) (hu.of_prefix (run_made b _ l))
    have h2 := ih h1.1 (fun x hx => hm x (List.mem_cons_of_mem _ hx)) hu
    exact ⟨h2.1, by simp only [run, Book.run]; rw [h1.2, h2.2]⟩

/-! ## Properties -/

/-- A listener that subscribes 2 to the type of its message and ends its own subscription, one that throws, and others. -/
def sampleB : Behaviour := fun h m =>
  match m with
  | .typed t _ => if h = 1 then ([.subscribe t 2, .unsubscribe 0], false) else if h = 9 then ([], true) else ([], false)
  | _ => ([], false)

def sampleEvents : List Event :=
  [.message (.typed "a".toList 0), .act (.subscribe "a".toList 1), .act (.subscribe "b".toList 1), .act (.subscribe "a".toList 3),
   .message (.typed "a".toList 1), .message (.typed "a".toList 2), .act (.unsubscribe 2), .act (.subscribe "a".toList 9),
   .act (.subscribe "a".toList 4), .message (.typed "a".toList 3), .message (.untyped 5)]

/-- Every message goes to exactly those who listen to its type at that moment, each once per subscription and in the order of the
subscriptions, up to the first that throws; messages without a type, and of a type that nobody has ever listened to, only cause a warning.
Excluded: the same listener twice for a type, and names of `Object.prototype` as types. -/
theorem C84_delivery_partial (b : Behaviour) (es : List Event) (hm : ∀ e ∈ es, UsualMsg e) (hu : Usual (Book.init.run b es).1.made) :
    (run b init es).2 = (Book.init.run b es).2 :=
  (run_inv inv_init hm hu).2

example : (∀ e ∈ sampleEvents, UsualMsg e) ∧ Usual (Book.init.run sampleB sampleEvents).1.made := by
  refine ⟨?_, ?_⟩
  · simp only [sampleEvents, List.forall_mem_cons, List.not_mem_nil, false_implies, implies_true, and_true, UsualMsg, true_and]
    decide +kernel
  · unfold Usual
    decide +kernel
example : (run sampleB init sampleEvents).2.map (fun s => (s.calls, s.warned, s.threw)) =
    [([], true, false), ([], false, false), ([], false, false), ([], false, false), ([1, 3], false, false), ([3, 2], false, false),
     ([], false, false), ([], false, false), ([], false, false), ([2, 9], false, true), ([], true, false)] := by decide +kernel

/-- A subscription that has ended gets no later message, and one in force gets each of them, as long as nobody throws. -/
theorem C84_in_force_partial (b : Behaviour) (es : List Event) (hm : ∀ e ∈ es, UsualMsg e) (hu : Usual (Book.init.run b es).1.made)
    {t : Str} {n : Nat} (ht : t ∉ prototypeNames) (hq : ∀ h, (b h (.typed t n)).2 = false)
    (hu2 : Usual ((Book.init.run b es).1.step b (.message (.typed t n))).1.made) :
    (step b (run b init es).1 (.message (.typed t n))).2.calls = (Book.init.run b es).1.listeners t := by
  have I := (run_inv inv_init hm hu).1
  rw [(step_inv (b := b) (e := .message (.typed t n)) I ht hu2).2]
  simp only [Book.step]
  generalize (Book.init.run b es).1.listeners t = l
  induction l with
  | nil => rfl
  | cons h l ih => simp only [upTo, hq h, Bool.false_eq_true, if_false, ih]

example : (Book.init.run sampleB (sampleEvents.take 4)).1.listeners "a".toList = [1, 3] := by decide +kernel

/-- The connection is made (its promise is kept) exactly when somebody has subscribed: no message can come before. -/
theorem C84_ready_partial (b : Behaviour) (es : List Event) (hm : ∀ e ∈ es, UsualMsg e) (hu : Usual (Book.init.run b es).1.made) :
    (run b init es).1.ready = true ↔ (Book.init.run b es).1.made ≠ [] :=
  (run_inv inv_init hm hu).1.ready

/-- C84 is violated for a listener that has subscribed twice to a type: ending one of its subscriptions ends both. -/
theorem C84_twice_violated : ∃ (b : Behaviour) (es : List Event), (∀ h m, b h m = ([], false)) ∧
    (Book.init.run b es).2.getLast?.map (·.calls) = some [7] ∧ (run b init es).2.getLast?.map (·.calls) = some [] :=
  ⟨fun _ _ => ([], false),
   [.act (.subscribe "a".toList 7), .act (.subscribe "a".toList 7), .act (.unsubscribe 0), .message (.typed "a".toList 0)],
   fun _ _ => rfl, by decide +kernel, by decide +kernel⟩

/-- C84 is violated for the names of `Object.prototype`: nobody can subscribe to such a type, and a message of such a type, or the message
`null`, throws instead of causing a warning.  If a listener tries to subscribe to such a type, the listeners after it do not get the message. -/
theorem C84_prototype_violated (b : Behaviour) (h n : Nat) : ∀ t ∈ prototypeNames,
    (step b init (.act (.subscribe t h))).2.threw = true ∧ (step b init (.message (.typed t n))).2 = ⟨[], false, true⟩ ∧
    (Book.init.step b (.message (.typed t n))).2 = ⟨[], true, false⟩ ∧ (step b init (.message .null)).2 = ⟨[], false, true⟩ ∧
    ∀ m l rest, (b h m).1 = .subscribe t l :: rest → ∀ others, (forEach b m init (h :: others)).2 = ([h], false) := by
  intro t ht
  have ht : t ∈ inherited := ht
  have hg : get init t = .other := by
    show (if t ∈ inherited then Slot.other else .missing) = _
    rw [if_pos ht]
  refine ⟨?_, ?_, rfl, rfl, fun m l rest hb others => ?_⟩
  · simp only [step, act, onMessage, hg]; rfl
  · simp only [step, handleIncoming, hg]
  · simp only [forEach, hb, acts, act, onMessage, hg]

/-- C84 is violated by a listener that throws: those after it do not get the message. -/
theorem C84_throw_violated : ∃ (b : Behaviour) (es : List Event), (Book.init.run b es).1.listeners "a".toList = [9, 4] ∧
    (step b (run b init es).1 (.message (.typed "a".toList 0))).2.calls = [9] :=
  ⟨sampleB, [.act (.subscribe "a".toList 9), .act (.subscribe "a".toList 4)], by decide +kernel, by decide +kernel⟩

/-- C84 is violated during a message: a subscription that another listener ends is still served with that message. -/
theorem C84_late_violated : ∃ (b : Behaviour) (es : List Event), (b 1 (.typed "a".toList 0)).1 = [.unsubscribe 1] ∧
    (step b (run b init es).1 (.message (.typed "a".toList 0))).2.calls = [1, 2] ∧ (run b init es).1.made[1]? = some ("a".toList, 2) :=
  ⟨fun h _ => if h = 1 then ([.unsubscribe 1], false) else ([], false),
   [.act (.subscribe "a".toList 1), .act (.subscribe "a".toList 2)], by decide +kernel, by decide +kernel, by decide +kernel⟩

/-- C84 is violated for imported modules: the `sendMessage` and `onMessage` that the `bind` function of a module is given throw whenever
they are called, because they have lost their object. -/
theorem C84_context_violated {α : Type} (c : Client) (send : Client → α) (t : Str) (h : Nat) :
    sendMessageOf (givenToModule c) send = none ∧ onMessageOf (givenToModule c) t h = none ∧
    sendMessageOf (.client c) send = some (send c) ∧ onMessageOf (.client c) t h = some (onMessage c t h) := ⟨rfl, rfl, rfl, rfl⟩

/-! ### Cases that meet the hypotheses -/

example : (run sampleB init sampleEvents).1.ready = true := by
  refine (C84_ready_partial sampleB sampleEvents ?_ ?_).2 (by decide +kernel)
  · simp only [sampleEvents, List.forall_mem_cons, List.not_mem_nil, false_implies, implies_true, and_true, UsualMsg, true_and]
    decide +kernel
  · unfold Usual
    decide +kernel

end Verif.Client.Dispatch
