import Verif.Option.Lemmas
/-!
# Properties of options (`_option.py`)
-/
namespace Verif.Option
variable {V : Type} [DecidableEq V] {ne : V → V → Bool}

/-- Python's `!=` on the natural numbers, and validators for the examples. -/
def neNat (a b : Nat) : Bool := a != b
def accept (v : Nat) : Except Err Nat := .ok v
/-- Accepts even numbers only. -/
def evens (v : Nat) : Except Err Nat := if v % 2 = 0 then .ok v else .error .value
theorem neNat_sane : Sane neNat where
  refl := by simp [neNat]
  symm := by simp [neNat]
  trans := by simp [neNat]

/-! ### C34 -/

/-- **C34** (partial: the action does not raise).  Any action on any option of a tree calls exactly
the callbacks of the options whose value it changes, once, with the new value, and children take
over the values of parents that changed. -/
theorem C34_notified_partial (hne : ∀ x, ne x x = false) (t : Tree V) (path : List Nat) (a : Act V) (r : Option V)
    (hok : (actAt ne a path t).2 = .ok r) : Told ne none t (actAt ne a path t).1 :=
  actAt_told hne a path t hok

/-- **C34** over histories (partial: no action raises).  Starting from an option without subscribers,
after any sequence of actions anywhere in the tree that grows under it, every callback was last
called with the present value of its option, and its consecutive calls were with different values. -/
theorem C34_in_sync_partial (hne : Sane ne) (i : Info V) (c : Option V) (ops : List (List Nat × Act V))
    (hok : ∀ r ∈ (run ne (.opt i c []) ops).2, ∃ v, r = .ok v) : Synced ne (run ne (.opt i c []) ops).1 :=
  run_synced hne ops _ (by simp [Synced, SyncedL]) hok

/-- A history for the examples: a child, a subscriber at both, changes at both, unset. -/
def exOps : List (List Nat × Act Nat) :=
  [([], .subscribe (fun _ => false)), ([], .child true evens (some 6)), ([1], .subscribe (fun _ => false)),
   ([], .set 4), ([1], .set 8), ([], .set 4), ([], .reload (some 10)), ([], .unset)]

example : (run neNat (.opt ⟨true, accept, 0⟩ none []) exOps).2.all (fun r => match r with | .ok _ => true | _ => false) = true ∧
    (match (run neNat (.opt ⟨true, accept, 0⟩ none []) exOps).1 with
      | .opt _ none [.user _ g, .opt _ (some v) [.user _ g']] => (g, v, g')
      | _ => ([], 1, [])) = ([0, 4, 10, 0], 0, [0, 4, 8, 10, 0]) := by decide

/-- **C34 is violated** when a subscriber raises: here the child's validator rejects the value 5.  The
parent has the value 5, but the callback subscribed after the child was not called. -/
theorem C34_notified_violated : ∃ (t : Tree Nat) (a : Act Nat),
    (∃ ops, t = (run neNat (.opt ⟨true, accept, 0⟩ none []) ops).1) ∧
    (act neNat a t).1.value = some 5 ∧ t.value = some 0 ∧ ¬ Told neNat none t (act neNat a t).1 := by
  refine ⟨.opt ⟨true, accept, 0⟩ none [.opt ⟨true, evens, 0⟩ none [], .user (fun _ => false) [0]], .set 5,
    ⟨[([], .child true evens none), ([], .subscribe (fun _ => false))], by rfl⟩, by rfl, by rfl, ?_⟩
  rintro ⟨c', subs', h1, _, h2⟩
  have e : (act neNat (.set 5) (.opt ⟨true, accept, 0⟩ none [.opt ⟨true, evens, 0⟩ none [], .user (fun _ => false) [0]])).1 =
    .opt ⟨true, accept, 0⟩ (some 5) [.opt ⟨true, evens, 0⟩ none [], .user (fun _ => false) [0]] := by rfl
  rw [e] at h1
  cases h1
  obtain ⟨_, _, h3, _, h4⟩ := h2
  cases h3
  obtain ⟨_, _, h5, ⟨r, h6⟩, _⟩ := h4
  cases h5

/-- What setting does to the value (when it does not raise): the object that is the value already changes nothing;
any other is validated, and what the validator returns is the new value. -/
theorem C34_set_value (i : Info V) (c : Option V) (subs : List (Tree V)) (v : V) (r : Option V)
    (hok : (act ne (.set v) (.opt i c subs)).2 = .ok r) :
    (v = c.getD i.default ∧ (act ne (.set v) (.opt i c subs)).1 = .opt i c subs) ∨
    ∃ w, v ≠ c.getD i.default ∧ i.mutable = true ∧ i.validator v = .ok w ∧ (act ne (.set v) (.opt i c subs)).1.value = some w := by
  simp only [act, setTo] at hok ⊢
  by_cases hv : v = c.getD i.default
  · left; simp [call, hv]
  · right
    cases hm : i.mutable with
    | false => simp [call, hv, hm] at hok
    | true =>
      cases hw : i.validator v with
      | error e => simp [call, hv, hm, hw] at hok
      | ok w =>
        refine ⟨w, hv, rfl, rfl, ?_⟩
        cases hn : ne w (c.getD i.default) <;> simp [call, hv, hm, hw, hn, Tree.value]

example : (match act neNat (.set 6) (.opt ⟨true, evens, 0⟩ (some 4) []) with | (t, .ok _) => t.value | _ => none) = some 6 := rfl

/-- Unsetting (when it does not raise) brings back the default. -/
theorem C34_unset_value (i : Info V) (c : Option V) (subs : List (Tree V)) (r : Option V)
    (hok : (act ne .unset (.opt i c subs)).2 = .ok r) :
    (act ne .unset (.opt i c subs)).1.value = some i.default := by
  simp only [act, unset] at hok ⊢
  split at hok
  · simp at hok
  · rename_i hm
    rw [if_neg hm]
    split <;> rfl

example : (match act neNat .unset (.opt ⟨true, evens, 0⟩ (some 4) []) with | (t, .ok _) => t.value | _ => none) = some 0 := rfl

/-- Reloading is setting the environment variable's value, or the default if there is no such variable. -/
theorem C34_reload_value (i : Info V) (c : Option V) (subs : List (Tree V)) (env : Option V) :
    act ne (.reload env) (.opt i c subs) = act ne (.set (match env with | some v => v | none => i.default)) (.opt i c subs) := by
  cases env <;> rfl

/-- Subscribing (when it does not raise) calls the callback once, with the present value, and registers it. -/
theorem C34_subscribe (i : Info V) (c : Option V) (subs : List (Tree V)) (raises : V → Bool) (r : Option V)
    (hok : (act ne (.subscribe raises) (.opt i c subs)).2 = .ok r) :
    (act ne (.subscribe raises) (.opt i c subs)).1 = .opt i c (subs ++ [.user raises [c.getD i.default]]) := by
  simp only [act, subscribe, call] at hok ⊢
  split at hok
  · simp at hok
  · rename_i hm
    rw [if_neg hm]; rfl

example : (match act neNat (.subscribe (fun _ => false)) (.opt ⟨true, evens, 0⟩ (some 4) []) with
    | (.opt _ _ [.user _ g], .ok _) => g | _ => []) = [4] := rfl

/-! ### C35 -/

/-- **C35** (partial: options without a parent).  A valid environment variable determines the value. -/
theorem C35_env_partial (m : Bool) (validator : V → Except Err V) (default env v : V) (h : validator env = .ok v) :
    ∃ t, create m validator default (some env) = .ok t ∧ t.value = some v :=
  ⟨.opt ⟨m, validator, default⟩ (some v) [], by simp [create, h], rfl⟩

/-- An invalid environment variable is not ignored: constructing the option raises the validator's exception. -/
theorem C35_env_invalid (m : Bool) (validator : V → Except Err V) (default env : V) (e : Err) (h : validator env = .error e) :
    create m validator default (some env) = .error e := by
  simp [create, h]

example : (match create true evens 0 (some 3) with | .error .value => true | _ => false) = true := rfl

/-- Without the variable the value is the default. -/
theorem C35_no_env (m : Bool) (validator : V → Except Err V) (default : V) :
    ∃ t, create m validator default none = .ok t ∧ t.value = some default :=
  ⟨_, rfl, rfl⟩

/-- For an option with a parent the variable decides nothing: if the construction succeeds, the value
is the parent's value, or what the validator makes of that. -/
theorem C35_child_value (validator : V → Except Err V) (env : Option V) (i : Info V) (c : Option V)
    (subs : List (Tree V)) (r : Option V) (hne : ∀ x, ne x x = false)
    (h : (createChild ne true validator env i c subs).2 = .ok r) :
    ∃ child v, (createChild ne true validator env i c subs).1 = .opt i c (subs ++ [child]) ∧
      child.value = some v ∧ (v = c.getD i.default ∨ validator (c.getD i.default) = .ok v) := by
  simp only [createChild] at h ⊢
  split at h
  · simp at h
  · rename_i t heq
    split at h
    · rename_i hm
      rw [if_pos hm]
      simp only [subscribe] at h ⊢
      split at h
      · simp at h
      · rename_i hm'
        rw [if_neg hm']
        simp only at h ⊢
        split at h
        · simp at h
        · rename_i h1
          have ht : ∃ d, t = .opt ⟨true, validator, i.default⟩ d [] := by
            simp only [create] at heq
            split at heq
            · simp at heq; exact ⟨none, heq.symm⟩
            · split at heq
              · simp at heq
              · simp at heq; exact ⟨_, heq.symm⟩
          obtain ⟨d, rfl⟩ := ht
          obtain ⟨c', subs', h3, h4, _⟩ := call_told hne _ _ h1
          refine ⟨_, c'.getD i.default, rfl, by rw [h3]; rfl, ?_⟩
          rcases h4 _ rfl with h5 | h5
          · exact .inl h5
          · exact .inr h5
    · simp at h

example : (match createChild neNat true evens (some 4) ⟨true, accept, 0⟩ (some 2) [] with
    | (_, .ok _) => true | _ => false) = true := by decide

/-- **C35 is violated** for options with a parent (`REACTPY_CHECK_VDOM_SPEC`): the parent's value 0
replaces the value 1 of the variable. -/
theorem C35_env_violated : ∃ (i : Info Nat) (validator : Nat → Except Err Nat) (env v : Nat),
    validator env = .ok v ∧
    ∃ child, (createChild neNat true validator (some env) i none []).1 = .opt i none [child] ∧ child.value ≠ some v :=
  ⟨⟨true, accept, 0⟩, accept, 1, 1, rfl, _, rfl, by decide⟩

/-! ### C36 -/

/-- **C36**: no sequence of actions changes the value of an immutable option. -/
theorem C36_immutable (i : Info V) (hi : i.mutable = false) (c : Option V) (subs : List (Tree V))
    (ops : List (List Nat × Act V)) : ((run ne (.opt i c subs) ops).1).value = some (c.getD i.default) := by
  have : ∀ (t : Tree V), (∃ subs, t = .opt i c subs) → ∃ subs, (run ne t ops).1 = .opt i c subs := by
    induction ops with
    | nil => exact fun t h => h
    | cons o ops ih =>
      rintro t ⟨subs, rfl⟩
      obtain ⟨p, a⟩ := o
      simp only [run]
      apply ih
      cases p with
      | cons n p => exact ⟨_, rfl⟩
      | nil =>
        have hcall : ∀ v, ∃ e, call ne v (.opt i c subs) = (.opt i c subs, e) := by
          intro v
          simp only [call]
          split
          · exact ⟨_, rfl⟩
          · exact ⟨_, rfl⟩
        cases a with
        | set v => obtain ⟨e, he⟩ := hcall v; exact ⟨subs, by simp [actAt, act, setTo, he]⟩
        | unset => exact ⟨subs, by simp [actAt, act, unset, hi]⟩
        | reload env => obtain ⟨e, he⟩ := hcall (env.getD i.default); exact ⟨subs, by simp [actAt, act, setTo, he]⟩
        | setDefault v =>
          obtain ⟨e, he⟩ := hcall v
          refine ⟨subs, ?_⟩
          simp only [actAt, act, setDefault]
          cases c with
          | some w => rfl
          | none => simp only [he]; cases e <;> rfl
        | subscribe rs => exact ⟨subs, by simp [actAt, act, subscribe, hi]⟩
        | child m f env =>
          refine ⟨subs, ?_⟩
          simp only [actAt, act, createChild, hi]
          split <;> simp
  obtain ⟨s', h⟩ := this _ ⟨subs, rfl⟩
  rw [h]; rfl

/-- **C36**: trying to change an immutable option raises `TypeError`, as does subscribing to it. -/
theorem C36_immutable_raises (i : Info V) (hi : i.mutable = false) (c : Option V) (subs : List (Tree V)) (raises : V → Bool)
    (v : V) (hv : v ≠ c.getD i.default) :
    (act ne (.set v) (.opt i c subs)).2 = .error .type ∧ (act ne .unset (.opt i c subs)).2 = .error .type ∧
    (act ne (.subscribe raises) (.opt i c subs)).2 = .error .type := by
  refine ⟨?_, ?_, ?_⟩ <;> simp [act, setTo, unset, subscribe, call, hi, hv]

/-- **C36**: a value that the option's validator rejects changes nothing anywhere, and the caller gets
the exception. -/
theorem C36_rejected (i : Info V) (c : Option V) (subs : List (Tree V)) (v : V) (e : Err)
    (hm : i.mutable = true) (hv : v ≠ c.getD i.default) (hr : i.validator v = .error e) :
    act ne (.set v) (.opt i c subs) = (.opt i c subs, .error e) := by
  simp [act, setTo, call, hm, hv, hr]

example : act neNat (.set 5) (.opt ⟨true, evens, 0⟩ (some 4) []) = (.opt ⟨true, evens, 0⟩ (some 4) [], .error .value) := by rfl

/-- **C36**: `set_default` on an option that is set returns its value and changes nothing. -/
theorem C36_set_default_set (i : Info V) (w v : V) (subs : List (Tree V)) :
    act ne (.setDefault v) (.opt i (some w) subs) = (.opt i (some w) subs, .ok (some w)) := rfl

/-- **C36** (partial: the value is not the default object itself).  `set_default` on an option that is
not set stores the validated value and returns it, unless a subscriber raises. -/
theorem C36_set_default_unset_partial (i : Info V) (v w : V) (subs : List (Tree V)) (hm : i.mutable = true)
    (hv : v ≠ i.default) (hw : i.validator v = .ok w) :
    (act ne (.setDefault v) (.opt i none subs)).1.value = some w ∧
    ((act ne (.setDefault v) (.opt i none subs)).2 = .ok (some w) ∨ (callAll ne w subs).2 ≠ none) := by
  simp only [act, setDefault, call]
  cases hn : ne w i.default with
  | false => simp [hm, hv, hw, current!, Tree.value, hn]
  | true =>
    cases hr : (callAll ne w subs).2 with
    | none => simp [hm, hv, hw, current!, Tree.value, hr, hn]
    | some e => simp [hm, hv, hw, Tree.value, hr, hn]

example : (act neNat (.setDefault 4) (.opt ⟨true, evens, 0⟩ none [])).1.value = some 4 := rfl

/-- **C36 is violated**: `set_default(default)` on an option that is not set raises `AttributeError`
(`REACTPY_DEBUG.set_default(False)`). -/
theorem C36_set_default_violated (i : Info V) (subs : List (Tree V)) :
    (act ne (.setDefault i.default) (.opt i none subs)).2 = .error .attribute := by
  simp [act, setDefault, call, current!]

/-- **C36 is violated** in another way: setting a value that a child rejects raises, but the value has
been changed. -/
theorem C36_rejected_by_child_violated : ∃ (i : Info Nat) (subs : List (Tree Nat)),
    (act neNat (.set 5) (.opt i none subs)).2 = .error .value ∧
    (act neNat (.set 5) (.opt i none subs)).1.value = some 5 ∧ (Tree.opt i none subs).value = some 0 :=
  ⟨⟨true, accept, 0⟩, [.opt ⟨true, evens, 0⟩ none []], rfl, rfl, rfl⟩

end Verif.Option
