import Verif.Option.Reentrant
/-! # C119: subscribers that assign the option they are told about -/
namespace Verif.Option.Reentrant
variable {V : Type} [DecidableEq V]

/-! ## Specification -/

/-- No value twice in a row. -/
def Fresh (l : List V) : Prop := ∀ before a b after, l = before ++ a :: b :: after → a ≠ b

/-- The subscriber's last call was with the present value, and it was never told the value that it had been told just before. -/
def Current (c : Cell V) (s : Sub V) : Prop := s.got.getLast? = some c.value ∧ Fresh s.got

/-- The subscriber does nothing to the option. -/
def Quiet (s : Sub V) : Prop := ∀ v, s.react v = []

/-! ## Proofs -/

theorem Fresh.snoc {l : List V} {v : V} (h : Fresh l) (hv : l.getLast? ≠ some v) : Fresh (l ++ [v]) := by
  intro before a b after he
  rcases List.eq_nil_or_concat after with rfl | ⟨after', x, rfl⟩
  · have e : l ++ [v] = (before ++ [a]) ++ [b] := by rw [he]; simp
    obtain ⟨e1, e2⟩ := List.append_inj' e rfl
    intro hab
    apply hv
    rw [e1, List.getLast?_append]
    simp only [List.cons.injEq, and_true] at e2
    simp [hab, e2]
  · have e : l ++ [v] = (before ++ a :: b :: after') ++ [x] := by rw [he]; simp
    exact h before a b after' (List.append_inj' e rfl).1

/-- Ready to be told the present value. -/
def Ready (c : Cell V) (s : Sub V) : Prop := s.got.getLast? ≠ some c.value ∧ Fresh s.got

/-- What is kept: the subscribers' functions, and that subscriber `k` is up to date. -/
structure Keep (k : Nat) (c c' : Cell V) : Prop where
  reacts : c'.subs.map (·.react) = c.subs.map (·.react)
  current : (∀ s, c.subs[k]? = some s → Current c s) → ∀ s, c'.subs[k]? = some s → Current c' s

/-- No subscriber before the `k`-th does anything. -/
def QuietBefore (k : Nat) (c : Cell V) : Prop := ∀ f ∈ (c.subs.map (·.react)).take k, ∀ v, f v = []

theorem Keep.refl (k : Nat) (c : Cell V) : Keep k c c := ⟨rfl, id⟩
theorem Keep.trans {k : Nat} {a b c : Cell V} (h : Keep k a b) (h' : Keep k b c) : Keep k a c :=
  ⟨h'.reacts.trans h.reacts, fun hs => h'.current (h.current hs)⟩

theorem QuietBefore.of_eq {k : Nat} {c c' : Cell V} (h : QuietBefore k c) (he : c'.subs.map (·.react) = c.subs.map (·.react)) :
    QuietBefore k c' := by
  rw [QuietBefore, he]; exact h

theorem doAll_keep {k : Nat} {p : Cmd V → Cell V → Option (Cell V)}
    (hp : ∀ a c c', QuietBefore k c → p a c = some c' → Keep k c c') : ∀ (as : List (Cmd V)) (c c' : Cell V),
    QuietBefore k c → doAll p as c = some c' → Keep k c c'
  | [], c, c', _, h => by injection h with h; subst h; exact .refl k c
  | a :: as, c, c', hq, h => by
    rw [doAll] at h
    split at h
    · rename_i c1 h1
      have k1 := hp a c c1 hq h1
      exact k1.trans (doAll_keep hp as c1 c' (hq.of_eq k1.reacts) h)
    · cases h

theorem set_reacts (l : List (Sub V)) (i : Nat) (s t : Sub V) (hs : l[i]? = some s) (ht : t.react = s.react) :
    (l.set i t).map (·.react) = l.map (·.react) := by
  rw [List.map_set, ht]
  apply List.ext_getElem?
  intro j
  rw [List.getElem?_set]
  split
  · rename_i he
    subst he
    have : i < l.length := (List.getElem?_eq_some_iff.1 hs).1
    simp only [List.length_map, this, if_true, List.getElem?_map, hs, Option.map_some]
  · rfl

/-- Telling another subscriber than the `k`-th. -/
theorem tell_other {k i : Nat} {p : Cmd V → Cell V → Option (Cell V)}
    (hp : ∀ a c c', QuietBefore k c → p a c = some c' → Keep k c c') (v : V) (c c' : Cell V) (hi : i ≠ k)
    (hq : QuietBefore k c) (h : tell p v i c = some c') : Keep k c c' := by
  rw [tell] at h
  split at h
  · injection h with h; subst h; exact .refl k c
  · rename_i s hs
    have hr := set_reacts c.subs i s { s with got := s.got ++ [v] } hs rfl
    have k1 : Keep k c { c with subs := c.subs.set i { s with got := s.got ++ [v] } } := by
      refine ⟨hr, fun hc t ht => ?_⟩
      simp only [List.getElem?_set, hi, if_false] at ht
      exact hc t ht
    exact k1.trans (doAll_keep hp _ _ c' (hq.of_eq hr) h)

/-- Telling the `k`-th subscriber the present value. -/
theorem tell_self {k : Nat} {p : Cmd V → Cell V → Option (Cell V)}
    (hp : ∀ a c c', QuietBefore k c → p a c = some c' → Keep k c c') (c c' : Cell V)
    (hq : QuietBefore k c) (hf : ∀ s, c.subs[k]? = some s → Ready c s) (h : tell p c.value k c = some c') :
    ∀ s, c'.subs[k]? = some s → Current c' s := by
  rw [tell] at h
  split at h
  · rename_i hn
    injection h with h; subst h
    exact fun s hs => by rw [hn] at hs; cases hs
  · rename_i s hs
    have hr := set_reacts c.subs k s { s with got := s.got ++ [c.value] } hs rfl
    have k1 := doAll_keep hp _ _ c' (hq.of_eq hr) h
    refine k1.current fun t ht => ?_
    have hlt : k < c.subs.length := (List.getElem?_eq_some_iff.1 hs).1
    simp only [List.getElem?_set, hlt, if_true, Option.some.injEq] at ht
    subst ht
    exact ⟨by simp [Cell.value], (hf s hs).2.snoc (hf s hs).1⟩

theorem tell_reacts {k i : Nat} {v : V} {p : Cmd V → Cell V → Option (Cell V)}
    (hp : ∀ a c c', QuietBefore k c → p a c = some c' → Keep k c c') (c c' : Cell V)
    (hq : QuietBefore k c) (h : tell p v i c = some c') : c'.subs.map (·.react) = c.subs.map (·.react) := by
  rw [tell] at h
  split at h
  · injection h with h; subst h; rfl
  · rename_i s hs
    have hr := set_reacts c.subs i s { s with got := s.got ++ [v] } hs rfl
    exact (doAll_keep hp _ _ c' (hq.of_eq hr) h).reacts.trans hr

/-- A quiet subscriber that is told leaves the value as it is. -/
theorem tell_quiet {i : Nat} {p : Cmd V → Cell V → Option (Cell V)} (v : V) (c c' : Cell V)
    (hq : ∀ s, c.subs[i]? = some s → Quiet s) (h : tell p v i c = some c') :
    c'.value = c.value ∧ c'.subs.map (·.react) = c.subs.map (·.react) ∧ ∀ k, i ≠ k → c'.subs[k]? = c.subs[k]? := by
  rw [tell] at h
  split at h
  · injection h with h; subst h; exact ⟨rfl, rfl, fun _ _ => rfl⟩
  · rename_i s hs
    rw [hq s hs v, doAll] at h
    injection h with h
    subst h
    exact ⟨rfl, set_reacts c.subs i s _ hs rfl, fun k hk => by simp [List.getElem?_set, hk]⟩

theorem tellAll_append (p : Cmd V → Cell V → Option (Cell V)) (new : Option V) (is js : List Nat) (c : Cell V) :
    tellAll p new (is ++ js) c = (tellAll p new is c).bind (tellAll p new js) := by
  induction is generalizing c with
  | nil => rfl
  | cons i is ih =>
    rw [List.cons_append, tellAll, tellAll]
    split
    · exact ih _
    · rfl

/-- The subscribers after the `k`-th. -/
theorem tellAll_other {k : Nat} {p : Cmd V → Cell V → Option (Cell V)}
    (hp : ∀ a c c', QuietBefore k c → p a c = some c' → Keep k c c') (new : Option V) : ∀ (is : List Nat) (c c' : Cell V),
    k ∉ is → QuietBefore k c → tellAll p new is c = some c' → Keep k c c'
  | [], c, c', _, _, h => by injection h with h; subst h; exact .refl k c
  | i :: is, c, c', hk, hq, h => by
    rw [tellAll] at h
    split at h
    · rename_i c1 h1
      have k1 := tell_other hp _ c c1 (fun e => hk (by simp [e])) hq h1
      exact k1.trans (tellAll_other hp new is c1 c' (fun h => hk (by simp [h])) (hq.of_eq k1.reacts) h)
    · cases h

/-- The subscribers before the `k`-th. -/
theorem tellAll_quiet {k : Nat} {p : Cmd V → Cell V → Option (Cell V)} (new : Option V) : ∀ (is : List Nat) (c c' : Cell V),
    (∀ i ∈ is, i < k) → QuietBefore k c → tellAll p new is c = some c' →
    c'.value = c.value ∧ c'.subs.map (·.react) = c.subs.map (·.react) ∧ c'.subs[k]? = c.subs[k]?
  | [], c, c', _, _, h => by injection h with h; subst h; exact ⟨rfl, rfl, rfl⟩
  | i :: is, c, c', hi, hq, h => by
    rw [tellAll] at h
    split at h
    · rename_i c1 h1
      have hik := hi i (by simp)
      obtain ⟨e1, e2, e5⟩ := tell_quiet _ c c1 (fun s hs v => hq s.react (by
        refine List.mem_of_getElem? (i := i) ?_
        rw [List.getElem?_take, if_pos hik, List.getElem?_map, hs]; rfl) v) h1
      obtain ⟨e3, e4, e6⟩ := tellAll_quiet new is c1 c' (fun j hj => hi j (by simp [hj])) (hq.of_eq e2) h
      exact ⟨e3.trans e1, e4.trans e2, e6.trans (e5 k (Nat.ne_of_lt hik))⟩
    · cases h

/-- All subscribers are told; for an assignment the option has the value they are told when it begins. -/
theorem tellAll_keep {k : Nat} {p : Cmd V → Cell V → Option (Cell V)}
    (hp : ∀ a c c', QuietBefore k c → p a c = some c' → Keep k c c') (new : Option V) (c c' : Cell V)
    (hn : ∀ v, new = some v → c.value = v) (hq : QuietBefore k c)
    (h : tellAll p new (List.range c.subs.length) c = some c') :
    c'.subs.map (·.react) = c.subs.map (·.react) ∧
    ((∀ s, c.subs[k]? = some s → Ready c s) → ∀ s, c'.subs[k]? = some s → Current c' s) := by
  by_cases hk : k < c.subs.length
  · have hr : List.range c.subs.length = List.range k ++ k :: (List.range' (k + 1) (c.subs.length - (k + 1))) := by
      obtain ⟨d, hd⟩ : ∃ d, c.subs.length = k + (d + 1) := ⟨c.subs.length - k - 1, by omega⟩
      have hd' : k + (d + 1) - (k + 1) = d := by omega
      rw [hd, hd', List.range_eq_range', List.range_eq_range', ← List.range'_append_1, List.range'_succ, Nat.zero_add]
    rw [hr, tellAll_append] at h
    obtain ⟨c1, h1, h2⟩ := Option.bind_eq_some_iff.1 h
    obtain ⟨e1, e2, e5⟩ := tellAll_quiet new _ c c1 (fun i hi => List.mem_range.1 hi) hq h1
    rw [tellAll] at h2
    split at h2
    · rename_i c2 h3
      have hv : new.getD c1.value = c1.value := by
        cases new with
        | none => rfl
        | some v => rw [Option.getD_some, e1, hn v rfl]
      rw [hv] at h3
      have e3 := tell_reacts hp c1 c2 (hq.of_eq e2) h3
      have k3 := tellAll_other hp new _ c2 c' (by simp [List.mem_range']; try omega) (hq.of_eq (e3.trans e2)) h2
      refine ⟨k3.reacts.trans (e3.trans e2), fun hf => k3.current (tell_self hp c1 c2 (hq.of_eq e2) (fun s hs => ?_) h3)⟩
      rw [e5] at hs
      rw [Ready, e1]
      exact hf s hs
    · cases h2
  · have k1 := tellAll_other hp new _ c c' (by simpa using hk) hq h
    exact ⟨k1.reacts, fun _ => k1.current fun s hs => absurd (List.getElem?_eq_some_iff.1 hs).1 hk⟩

theorem perform_keep (k : Nat) : ∀ (depth : Nat) (a : Cmd V) (c c' : Cell V), QuietBefore k c → perform depth a c = some c' → Keep k c c'
  | 0, _, _, _, _, h => by cases h
  | depth + 1, .set new, c, c', hq, h => by
    rw [perform] at h
    split at h
    · injection h with h; subst h; exact .refl k c
    · rename_i hne
      obtain ⟨h1, h2⟩ := tellAll_keep (c := { c with current := some new }) (perform_keep k depth) _ c'
        (fun v hv => by cases hv; rfl) hq h
      refine ⟨h1, fun hc => h2 fun s hs => ⟨?_, (hc s hs).2⟩⟩
      rw [(hc s hs).1]
      exact fun he => hne (Option.some.inj he).symm
  | depth + 1, .unset, c, c', hq, h => by
    rw [perform] at h
    split at h
    · rename_i he
      injection h with h
      subst h
      refine ⟨rfl, fun hc s hs => ?_⟩
      have := hc s hs
      rw [Current, ← he] at this
      exact this
    · rename_i hne
      obtain ⟨h1, h2⟩ := tellAll_keep (c := { c with current := none }) (perform_keep k depth) _ c'
        (fun v hv => by cases hv) hq h
      refine ⟨h1, fun hc => h2 fun s hs => ⟨?_, (hc s hs).2⟩⟩
      rw [(hc s hs).1]
      exact fun he => hne (Option.some.inj he).symm

theorem quiet_zero (c : Cell V) : QuietBefore 0 c := by simp [QuietBefore]

theorem act_reacts (depth : Nat) (a : Act V) (c c' : Cell V) (h : act depth a c = some c') :
    ∃ l, c'.subs.map (·.react) = c.subs.map (·.react) ++ l := by
  cases a with
  | cmd a => exact ⟨[], by rw [List.append_nil]; exact (perform_keep 0 depth a c c' (quiet_zero c) h).reacts⟩
  | subscribe react =>
    refine ⟨[react], ?_⟩
    rw [tell_reacts (perform_keep 0 depth) { c with subs := c.subs ++ [⟨react, []⟩] } c' (quiet_zero _) h]
    simp

theorem act_keep (k depth : Nat) (a : Act V) (c c' : Cell V) (hq : QuietBefore k c') (hc : ∀ s, c.subs[k]? = some s → Current c s)
    (h : act depth a c = some c') : ∀ s, c'.subs[k]? = some s → Current c' s := by
  cases a with
  | cmd a =>
    have hr := (perform_keep 0 depth a c c' (quiet_zero c) h).reacts
    exact (perform_keep k depth a c c' (hq.of_eq hr.symm) h).current hc
  | subscribe react =>
    have h' : tell (perform depth) c.value c.subs.length { c with subs := c.subs ++ [⟨react, []⟩] } = some c' := h
    have hr := tell_reacts (perform_keep 0 depth) { c with subs := c.subs ++ [⟨react, []⟩] } c' (quiet_zero _) h
    by_cases hk : k = c.subs.length
    · subst hk
      refine tell_self (perform_keep _ depth) { c with subs := c.subs ++ [⟨react, []⟩] } c' (hq.of_eq hr.symm) (fun s hs => ?_) h
      simp only [List.getElem?_append_right (Nat.le_refl _), Nat.sub_self, List.getElem?_cons_zero, Option.some.injEq] at hs
      subst hs
      exact ⟨nofun, fun before a b after he => by cases before <;> cases he⟩
    · refine (tell_other (perform_keep k depth) c.value _ c' (Ne.symm hk) (hq.of_eq hr.symm) h').current fun s hs => ?_
      simp only [List.getElem?_append] at hs
      split at hs
      · exact hc s hs
      · have : 0 < k - c.subs.length := by omega
        rw [List.getElem?_eq_none (by simp; omega)] at hs
        cases hs

theorem run_reacts (depth : Nat) : ∀ (acts : List (Act V)) (c c' : Cell V), run depth acts c = some c' →
    ∃ l, c'.subs.map (·.react) = c.subs.map (·.react) ++ l
  | [], c, c', h => by injection h with h; subst h; exact ⟨[], by simp⟩
  | a :: acts, c, c', h => by
    rw [run] at h
    split at h
    · rename_i c1 h1
      obtain ⟨l, hl⟩ := act_reacts depth a c c1 h1
      obtain ⟨l', hl'⟩ := run_reacts depth acts c1 c' h
      exact ⟨l ++ l', by rw [hl', hl, List.append_assoc]⟩
    · cases h

theorem run_keep (k depth : Nat) : ∀ (acts : List (Act V)) (c c' : Cell V), run depth acts c = some c' → QuietBefore k c' →
    (∀ s, c.subs[k]? = some s → Current c s) → ∀ s, c'.subs[k]? = some s → Current c' s
  | [], c, c', h, _, hc => by injection h with h; subst h; exact hc
  | a :: acts, c, c', h, hq, hc => by
    rw [run] at h
    split at h
    · rename_i c1 h1
      obtain ⟨l, hl⟩ := run_reacts depth acts c1 c' h
      have hq1 : QuietBefore k c1 := by
        intro f hf v
        refine hq f ?_ v
        rw [hl, List.take_append]
        exact List.mem_append_left _ hf
      exact run_keep k depth acts c1 c' h hq (act_keep k depth a c c1 hq1 hc h1)
    · cases h

/-- **C119.**  Whatever is done to the option, by the user or by subscribers while they are told of a change, a subscriber was last called
with the present value, and never with the value it was told just before, if none of those registered before it does anything to the
option.  Partial: for the others it is false
(`C119_violated`). -/
theorem C119_told_partial (depth : Nat) (default : V) (acts : List (Act V)) (c : Cell V) (before after : List (Sub V)) (s : Sub V)
    (hr : run depth acts ⟨default, none, []⟩ = some c) (hs : c.subs = before ++ s :: after) (hq : ∀ t ∈ before, Quiet t) :
    Current c s := by
  refine run_keep before.length depth acts _ c hr ?_ (fun t ht => by cases ht) s (by simp [hs])
  intro f hf
  rw [hs, List.map_append, List.take_append_of_le_length (by simp), List.take_of_length_le (by simp)] at hf
  obtain ⟨t, ht, rfl⟩ := List.mem_map.1 hf
  exact hq t ht

/-- A subscriber that keeps the value below 4: it assigns 3 instead of more. -/
def clamp (v : Nat) : List (Cmd Nat) := if 3 < v then [.set 3] else []

/-- A subscriber before the one that corrects the value, that one, and one after it. -/
def clampActs : List (Act Nat) := [.subscribe fun _ => [], .subscribe clamp, .subscribe fun _ => [], .cmd (.set 1), .cmd (.set 7)]

/-- Everything each subscriber was told: the first two end with the value, the last with the value that was replaced. -/
theorem clamp_run : (run 5 clampActs ⟨0, none, []⟩).map (fun c => (c.value, c.subs.map (·.got))) =
    some (3, [[0, 1, 7, 3], [0, 1, 7, 3], [0, 1, 3, 7]]) := by decide +kernel

/-- The corrector itself is told last what it assigned. -/
example : ∃ (c : Cell Nat) (a b d : Sub Nat), run 5 clampActs ⟨0, none, []⟩ = some c ∧ c.subs = [a, b, d] ∧ c.value = 3 ∧ Current c b := by
  refine ⟨_, _, _, _, rfl, rfl, rfl, ?_⟩
  exact C119_told_partial 5 0 clampActs _ [_] [_] _ rfl rfl (by intro t ht v; simp at ht; subst ht; rfl)

/-- **C119 is violated**: a subscriber registered after one that corrects the value is told last the value that was replaced. -/
theorem C119_violated : ∃ (acts : List (Act Nat)) (c : Cell Nat), run 5 acts ⟨0, none, []⟩ = some c ∧
    c.value = 3 ∧ ∃ s ∈ c.subs, Quiet s ∧ s.got.getLast? = some 7 := by
  refine ⟨clampActs, _, rfl, rfl, ⟨fun _ => [], [0, 1, 3, 7]⟩, ?_, fun _ => rfl, rfl⟩
  exact List.mem_of_getElem? (i := 2) rfl

/-- **C119 is violated** by unsetting in another way: here each subscriber gets the value of the moment, so one registered after a subscriber that reacts to it (here
to the default 0) is not told the replaced value, but the new one twice. -/
theorem C119_unset_violated : (run 5 [.subscribe (fun v => if v = 0 then [.set 2] else []), .subscribe fun _ => [], .cmd (.set 7), .cmd .unset]
      ⟨0, none, []⟩).map (fun c => (c.value, c.subs.map (·.got))) = some (2, [[0, 2, 7, 0, 2], [2, 7, 2, 2]]) := by decide +kernel

end Verif.Option.Reentrant
