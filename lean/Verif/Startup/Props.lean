import Verif.Startup.Model
import Verif.Option.Lemmas
import Verif.Asgi.Lemmas
/-! # Starting applications, and the pages they serve: properties C69 and C70 -/
namespace Verif.Startup
open Verif.Option (Tree Info Err)

/-! ## Tables of options -/

theorem get_put_same : ∀ (c : Config) (n : Str) (t t' : Tree Val), c.get n = some t → (c.put n t').get n = some t'
  | [], n, t, t', h => by simp [Config.get] at h
  | p :: c, n, t, t', h => by
    have ih := get_put_same c n t t'
    simp only [Config.get, Config.put, List.map_cons, List.find?_cons] at h ih ⊢
    cases hp : p.1 == n with
    | true => simp
    | false =>
      simp only [hp] at h
      simp only [Bool.false_eq_true, if_false, hp]
      exact ih h

theorem get_put_other {n m : Str} (h : m ≠ n) : ∀ (c : Config) (t : Tree Val), (c.put n t).get m = c.get m
  | [], _ => rfl
  | p :: c, t => by
    have ih := get_put_other h c t
    simp only [Config.get, Config.put, List.map_cons, List.find?_cons] at ih ⊢
    cases hp : p.1 == n with
    | true =>
      have : p.1 = n := by simpa using hp
      simp only [if_true, this, show (n == m) = false by simpa using fun e => h e.symm]
      exact ih
    | false =>
      simp only [Bool.false_eq_true, if_false]
      cases p.1 == m <;> simp only [ih]

/-- Every entry is an option. -/
def Options (c : Config) : Prop := ∀ n t, c.get n = some t → ∃ i o s, t = Tree.opt i o s

/-- Setting an option: it has the value already, or it can be changed and has the value its validator returned. -/
theorem set_root (i : Info Val) (o : Option Val) (s : List (Tree Val)) (v : Val) :
    ∃ o' s', (Verif.Option.actAt pyNe (.set v) [] (.opt i o s)).1 = .opt i o' s' ∧
      (v = o.getD i.default → o' = o ∧ s' = s ∧ ∃ r, (Verif.Option.actAt pyNe (.set v) [] (.opt i o s)).2 = .ok r) ∧
      (∀ r, (Verif.Option.actAt pyNe (.set v) [] (.opt i o s)).2 = .ok r →
        (v = o.getD i.default ∧ o'.getD i.default = v) ∨ (i.mutable = true ∧ i.validator v = .ok (o'.getD i.default))) := by
  simp only [Verif.Option.actAt, Verif.Option.act, Verif.Option.setTo, Verif.Option.call]
  by_cases hv : v = o.getD i.default
  · rw [if_pos hv]
    exact ⟨o, s, rfl, fun _ => ⟨rfl, rfl, none, rfl⟩, fun _ _ => .inl ⟨hv, hv.symm⟩⟩
  · rw [if_neg hv]
    cases hm : i.mutable with
    | false => exact ⟨o, s, by simp, fun h => absurd h hv, fun r hr => by simp at hr⟩
    | true =>
      simp only [Bool.true_eq_false, if_false]
      cases hw : i.validator v with
      | error e => exact ⟨o, s, rfl, fun h => absurd h hv, fun r hr => by simp at hr⟩
      | ok w =>
        simp only
        split
        · exact ⟨some w, _, rfl, fun h => absurd h hv, fun r _ => .inr ⟨by simp, by simp⟩⟩
        · exact ⟨some w, _, rfl, fun h => absurd h hv, fun r _ => .inr ⟨by simp, by simp⟩⟩

/-- An action inside a tree leaves an option an option. -/
theorem actAt_opt (a : Verif.Option.Act Val) (n : Nat) (p : List Nat) (i : Info Val) (o : Option Val) (s : List (Tree Val)) :
    ∃ s', (Verif.Option.actAt pyNe a (n :: p) (.opt i o s)).1 = .opt i o s' := by
  rw [Verif.Option.actAt]
  exact ⟨_, rfl⟩

theorem actAt_user (a : Verif.Option.Act Val) (p : List Nat) (r : Val → Bool) (g : List Val) :
    (Verif.Option.actAt pyNe a p (.user r g)) = (.user r g, .ok none) := by
  cases p with
  | nil => cases a <;> rfl
  | cons n p => rw [Verif.Option.actAt]

/-- One setting changes one entry of the table. -/
theorem applySetting_get (c : Config) (k : Str) (v : Val) :
    (applySetting c k v = (c, some .unknown)) ∨
    ∃ root path t, c.locate (optionName k) = some (root, path) ∧ c.get root = some t ∧
      (applySetting c k v).1 = c.put root (Verif.Option.actAt pyNe (.set v) path t).1 ∧
      ((applySetting c k v).2 = none → ∃ r, (Verif.Option.actAt pyNe (.set v) path t).2 = .ok r) := by
  simp only [applySetting]
  cases hl : c.locate (optionName k) with
  | none => exact .inl rfl
  | some rp =>
    obtain ⟨root, path⟩ := rp
    simp only
    cases hg : c.get root with
    | none => exact .inl rfl
    | some t =>
      right
      refine ⟨root, path, t, rfl, hg, ?_⟩
      simp only
      generalize Verif.Option.actAt pyNe (.set v) path t = r
      obtain ⟨t', e⟩ := r
      cases e with
      | error e => exact ⟨rfl, fun h => by simp at h⟩
      | ok r => exact ⟨rfl, fun _ => ⟨r, rfl⟩⟩

theorem get_apply_other {c : Config} {k : Str} {v : Val} {m : Str}
    (h : ∀ path, c.locate (optionName k) ≠ some (m, path)) : (applySetting c k v).1.get m = c.get m := by
  rcases applySetting_get c k v with hu | ⟨root, path, t, hl, hg, he, _⟩
  · rw [hu]
  · rw [he]
    refine get_put_other ?_ c _
    intro hm
    subst hm
    exact h path hl

theorem locate_root {c : Config} {n : Str} (h : (c.get n).isSome = true) : c.locate n = some (n, []) := by
  simp [Config.locate, h]

theorem options_apply {c : Config} (h : Options c) (k : Str) (v : Val) : Options (applySetting c k v).1 := by
  rcases applySetting_get c k v with hu | ⟨root, path, t, hl, hg, he, _⟩
  · rw [hu]; exact h
  · rw [he]
    intro n t' ht'
    by_cases hn : n = root
    · subst hn
      rw [get_put_same c n t _ hg] at ht'
      obtain ⟨i, o, s, rfl⟩ := h n t hg
      cases path with
      | nil =>
        obtain ⟨o', s', h1, _⟩ := set_root i o s v
        exact ⟨i, o', s', by rw [← h1]; exact (Option.some.inj ht').symm⟩
      | cons m p =>
        obtain ⟨s', h1⟩ := actAt_opt (.set v) m p i o s
        exact ⟨i, o, s', by rw [← h1]; exact (Option.some.inj ht').symm⟩
    · rw [get_put_other hn] at ht'
      exact h n t' ht'

/-- Which options there are does not change. -/
theorem isSome_apply (c : Config) (k : Str) (v : Val) (n : Str) : ((applySetting c k v).1.get n).isSome = (c.get n).isSome := by
  rcases applySetting_get c k v with hu | ⟨root, path, t, hl, hg, he, _⟩
  · rw [hu]
  · rw [he]
    by_cases hn : n = root
    · subst hn
      rw [get_put_same c n t _ hg, hg]; rfl
    · rw [get_put_other hn]

theorem locate_apply (c : Config) (k : Str) (v : Val) (n : Str) : (applySetting c k v).1.locate n = c.locate n := by
  simp only [Config.locate, isSome_apply]

/-! ## C69: settings -/

/-- **What a setting asks for**: the option of its name exists, and its value is then the given one, or what the option's
validator makes of it. -/
def Applied (before after : Config) (k : Str) (v : Val) : Prop :=
  ∃ i o s w, before.get (optionName k) = some (.opt i o s) ∧ after.value (optionName k) = some w ∧
    ((v = o.getD i.default ∧ w = v) ∨ (i.mutable = true ∧ i.validator v = .ok w))

theorem value_of_get {c : Config} {n : Str} {i : Info Val} {o : Option Val} {s : List (Tree Val)}
    (h : c.get n = some (.opt i o s)) : c.value n = some (o.getD i.default) := by
  simp [Config.value, h, Tree.value]

theorem apply_applied {c : Config} (hc : Options c) {k : Str} {v : Val} (hk : (c.get (optionName k)).isSome = true)
    (hok : (applySetting c k v).2 = none) : Applied c (applySetting c k v).1 k v := by
  rcases applySetting_get c k v with hu | ⟨root, path, t, hl, hg, he, hr⟩
  · rw [hu] at hok; simp at hok
  · rw [locate_root hk] at hl
    simp only [Option.some.injEq, Prod.mk.injEq] at hl
    obtain ⟨rfl, rfl⟩ := hl
    obtain ⟨i, o, s, rfl⟩ := hc _ t hg
    obtain ⟨r, hr⟩ := hr hok
    obtain ⟨o', s', h1, _, h3⟩ := set_root i o s v
    refine ⟨i, o, s, o'.getD i.default, hg, ?_, ?_⟩
    · rw [he, h1]
      exact value_of_get (get_put_same c _ _ _ hg)
    · exact h3 r hr

theorem process_other : ∀ (settings : List (Str × Val)) (c : Config) (m : Str),
    (∀ k v path, (k, v) ∈ settings → c.locate (optionName k) ≠ some (m, path)) → (processSettings c settings).1.get m = c.get m
  | [], _, _, _ => rfl
  | (k, v) :: l, c, m, h => by
    have h1 := get_apply_other (v := v) (fun path => h k v path (by simp))
    simp only [processSettings]
    generalize hr : applySetting c k v = r at h1
    obtain ⟨c', e⟩ := r
    cases e with
    | some e => exact h1
    | none =>
      simp only
      rw [← h1]
      refine process_other l c' m (fun k' v' path hm => ?_)
      have : c'.locate (optionName k') = c.locate (optionName k') := by
        have := locate_apply c k v (optionName k')
        rw [hr] at this
        exact this
      rw [this]
      exact h k' v' path (by simp [hm])

/-- Processing settings for distinct options without a parent. -/
theorem process_applied : ∀ (settings : List (Str × Val)) (c : Config), Options c →
    (∀ k v, (k, v) ∈ settings → (c.get (optionName k)).isSome = true) → (settings.map (fun p => optionName p.1)).Nodup →
    (processSettings c settings).2 = none → ∀ k v, (k, v) ∈ settings → Applied c (processSettings c settings).1 k v
  | [], _, _, _, _, _, _, _, h => by simp at h
  | (k, v) :: l, c, hc, hroots, hnd, hok, k', v', hm => by
    simp only [List.map_cons, List.nodup_cons] at hnd
    have hroot := hroots k v (by simp)
    have ha := apply_applied hc (v := v) hroot
    have hopt := options_apply hc k v
    have hsome := isSome_apply c k v
    have hother := fun m h => get_apply_other (c := c) (k := k) (v := v) (m := m) h
    simp only [processSettings] at hok ⊢
    generalize hr : applySetting c k v = r at ha hopt hsome hok hother
    obtain ⟨c', e⟩ := r
    cases e with
    | some e => simp at hok
    | none =>
      simp only at hok ha hopt hsome hother ⊢
      have hroots' : ∀ k v, (k, v) ∈ l → (c'.get (optionName k)).isSome = true := fun a b h => by
        rw [hsome]; exact hroots a b (by simp [h])
      rw [List.mem_cons] at hm
      rcases hm with hm | hm
      · cases hm
        obtain ⟨i, o, s, w, h1, h2, h3⟩ := ha trivial
        refine ⟨i, o, s, w, h1, ?_, h3⟩
        have hkeep : (processSettings c' l).1.get (optionName k) = c'.get (optionName k) := by
          refine process_other l c' _ (fun a b path h => ?_)
          rw [locate_root (hroots' a b h)]
          intro he
          simp only [Option.some.injEq, Prod.mk.injEq] at he
          exact hnd.1 (List.mem_map.2 ⟨(a, b), h, he.1⟩)
        simp only [Config.value, hkeep] at h2 ⊢
        exact h2
      · have hne : optionName k' ≠ optionName k := by
          intro he
          exact hnd.1 (List.mem_map.2 ⟨(k', v'), hm, he⟩)
        obtain ⟨i, o, s, w, h1, h2, h3⟩ := process_applied l c' hopt hroots' hnd.2 hok k' v' hm
        refine ⟨i, o, s, w, ?_, h2, h3⟩
        rw [← h1]
        refine (hother _ (fun path => ?_)).symm
        rw [locate_root hroot]
        intro he
        simp only [Option.some.injEq, Prod.mk.injEq] at he
        exact hne he.1.symm

theorem start_ok {dirExists : Val → Bool} {c c' : Config} {settings : List (Str × Val)} {p : Val}
    (h : start dirExists c settings = (c', .ok p)) :
    (∀ v, lookup settings prefixKey = some v → checkPath v = true) ∧
    (∀ v, lookup settings modulesKey = some v → dirExists v = true) ∧
    processSettings c settings = (c', none) ∧ p = (c'.value prefixOption).getD (.other 0) := by
  simp only [start] at h
  split at h
  · simp at h
  · rename_i h1
    split at h
    · simp at h
    · rename_i h2
      refine ⟨fun v hv => ?_, fun v hv => ?_, ?_⟩
      · simp only [badPrefix, hv] at h1; simpa using h1
      · simp only [badDir, hv] at h2; simpa using h2
      · generalize processSettings c settings = r at h
        obtain ⟨c1, e⟩ := r
        cases e with
        | some e => simp at h
        | none =>
          simp only [Prod.mk.injEq, Except.ok.injEq] at h
          obtain ⟨rfl, rfl⟩ := h
          exact ⟨rfl, rfl⟩

/-- **C69** (partial: the settings are for different options, none of which has a parent).  When an application starts, every
setting has taken effect, and every other option is as it was. -/
theorem C69_applied_partial (dirExists : Val → Bool) (c c' : Config) (settings : List (Str × Val)) (p : Val) (hc : Options c)
    (hroots : ∀ k v, (k, v) ∈ settings → (c.get (optionName k)).isSome = true)
    (hnd : (settings.map (fun p => optionName p.1)).Nodup)
    (h : start dirExists c settings = (c', .ok p)) :
    (∀ k v, (k, v) ∈ settings → Applied c c' k v) ∧
    (∀ name, (∀ k v, (k, v) ∈ settings → optionName k ≠ name) → c'.get name = c.get name) := by
  obtain ⟨_, _, hp, _⟩ := start_ok h
  refine ⟨fun k v hm => ?_, fun name hn => ?_⟩
  · have := process_applied settings c hc hroots hnd (by rw [hp]) k v hm
    rwa [hp] at this
  · have := process_other settings c name (fun k v path hm => by
      rw [locate_root (hroots k v hm)]
      intro he
      simp only [Option.some.injEq, Prod.mk.injEq] at he
      exact hn k v hm he.1)
    rwa [hp] at this

/-- **C69.**  A path prefix that does not begin and end with a slash, or a directory for modules that does not exist, is refused,
and then nothing has been changed. -/
theorem C69_refused (dirExists : Val → Bool) (c : Config) (settings : List (Str × Val)) (v : Val)
    (h : (lookup settings prefixKey = some v ∧ ¬ ∃ s, v = .str ('/' :: s) ∧ ('/' :: s).getLast? = some '/') ∨
      (lookup settings modulesKey = some v ∧ dirExists v = false)) :
    start dirExists c settings = (c, .error .invalid) := by
  simp only [start]
  rcases h with ⟨hl, hv⟩ | ⟨hl, hv⟩
  · have : checkPath v = false := by
      cases hcp : checkPath v with
      | false => rfl
      | true =>
        exfalso
        cases v with
        | str s =>
          cases s with
          | nil => simp [checkPath, truthy] at hcp
          | cons a s =>
            simp only [checkPath, truthy, Verif.Asgi.pathOk, List.head?_cons, Bool.and_eq_true, beq_iff_eq, Option.some.injEq] at hcp
            obtain ⟨_, ⟨_, rfl⟩, h2⟩ := hcp
            exact hv ⟨s, rfl, h2⟩
        | _ => simp [checkPath] at hcp
    simp [badPrefix, hl, this]
  · simp only [badDir, hl, hv, Bool.not_false, if_true]
    split <;> rfl

/-- **C69.**  Unknown settings are never passed over: an application that starts knows all of its settings. -/
theorem C69_known (dirExists : Val → Bool) (c c' : Config) (settings : List (Str × Val)) (p : Val)
    (h : start dirExists c settings = (c', .ok p)) : ∀ k v, (k, v) ∈ settings → ∃ root path, c.locate (optionName k) = some (root, path) := by
  have hp := (start_ok h).2.2.1
  clear h
  induction settings generalizing c with
  | nil => intro k v hm; simp at hm
  | cons q l ih =>
    obtain ⟨k, v⟩ := q
    intro k' v' hm
    have hloc := locate_apply c k v
    have hget := applySetting_get c k v
    simp only [processSettings] at hp
    generalize applySetting c k v = r at hp hloc hget
    obtain ⟨c1, e⟩ := r
    cases e with
    | some e => simp at hp
    | none =>
      simp only at hp hloc
      rw [List.mem_cons] at hm
      rcases hm with hm | hm
      · cases hm
        rcases hget with hu | ⟨root, path, _, hl, _⟩
        · simp at hu
        · exact ⟨root, path, hl⟩
      · have := ih c1 hp k' v' hm
        rwa [hloc] at this

/-- **C69** (partial: one setting for the prefix, spelled in lower case).  The prefix of an application that starts is the one
that was asked for, and begins and ends with a slash. -/
theorem C69_prefix_partial (dirExists : Val → Bool) (c c' : Config) (settings : List (Str × Val)) (p v : Val) (hc : Options c)
    (hroots : ∀ k v, (k, v) ∈ settings → (c.get (optionName k)).isSome = true)
    (hnd : (settings.map (fun p => optionName p.1)).Nodup)
    (hstr : ∀ i o s, c.get prefixOption = some (.opt i o s) → ∀ t, i.validator (.str t) = .ok (.str t))
    (hv : (prefixKey, v) ∈ settings) (h : start dirExists c settings = (c', .ok p)) :
    p = v ∧ ∃ s, v = .str ('/' :: s) ∧ ('/' :: s).getLast? = some '/' := by
  have hpre := (start_ok h).1
  have hp := (start_ok h).2.2.2
  have hname : optionName prefixKey = prefixOption := by decide +kernel
  -- the setting found is the one given
  have hlook : lookup settings prefixKey = some v := by
    clear h hpre hp hroots
    induction settings with
    | nil => simp at hv
    | cons q l ih =>
      simp only [List.map_cons, List.nodup_cons] at hnd
      simp only [lookup, List.find?_cons]
      rw [List.mem_cons] at hv
      rcases hv with hv | hv
      · subst hv; simp
      · have : (q.1 == prefixKey) = false := by
          simp only [beq_eq_false_iff_ne, ne_eq]
          intro he
          exact hnd.1 (List.mem_map.2 ⟨_, hv, by rw [he]⟩)
        rw [this]
        exact ih hnd.2 hv
  have hcheck := hpre v hlook
  obtain ⟨s, rfl, hs⟩ : ∃ s, v = .str ('/' :: s) ∧ ('/' :: s).getLast? = some '/' := by
    cases v with
    | str s =>
      cases s with
      | nil => simp [checkPath, truthy] at hcheck
      | cons a s =>
        simp only [checkPath, truthy, Verif.Asgi.pathOk, List.head?_cons, Bool.and_eq_true, beq_iff_eq, Option.some.injEq] at hcheck
        obtain ⟨_, ⟨_, rfl⟩, h2⟩ := hcheck
        exact ⟨s, rfl, h2⟩
    | _ => simp [checkPath] at hcheck
  obtain ⟨ha, _⟩ := C69_applied_partial dirExists c c' settings p hc hroots hnd h
  obtain ⟨i, o, t, w, h1, h2, h3⟩ := ha _ _ hv
  rw [hname] at h1 h2
  have hw : w = .str ('/' :: s) := by
    rcases h3 with ⟨_, h3⟩ | ⟨_, h3⟩
    · exact h3
    · rw [hstr i o t h1] at h3
      exact (Except.ok.inj h3).symm
  refine ⟨?_, s, rfl, hs⟩
  rw [hp, h2, hw]
  rfl

/-- Validators for the examples: everything is accepted as it is, only integers are integers. -/
def demo : Builtins where
  int := fun v => match v with
    | .int n => .ok (.int n)
    | _ => .error .value
  float := .ok
  str := .ok
  path := .ok

/-- The options of reactpy are options. -/
theorem defaults_options (b : Builtins) : Options (defaults b) := by
  intro n t h
  simp only [Config.get, Option.map_eq_some_iff] at h
  obtain ⟨p, hp, rfl⟩ := h
  have := List.mem_of_find?_eq_some hp
  simp only [defaults, List.mem_cons, List.not_mem_nil, or_false] at this
  rcases this with rfl | rfl | rfl | rfl | rfl | rfl | rfl | rfl | rfl | rfl <;> exact ⟨_, _, _, rfl⟩

/-- Settings for the examples. -/
def demoSettings : List (Str × Val) :=
  [("path_prefix".toList, .str "/app/".toList), ("reconnect_max_retries".toList, .int 3), ("debug".toList, .str "True".toList)]

example : (∀ q ∈ demoSettings, ((defaults demo).get (optionName q.1)).isSome = true) ∧
    (demoSettings.map (fun p => optionName p.1)).Nodup ∧
    (start (fun _ => true) (defaults demo) demoSettings).2.toOption = some (.str "/app/".toList) ∧
    (start (fun _ => true) (defaults demo) demoSettings).1.value "REACTPY_DEBUG".toList = some (.bool true) ∧
    (start (fun _ => true) (defaults demo) demoSettings).1.value "REACTPY_RECONNECT_MAX_RETRIES".toList = some (.int 3) := by
  decide +kernel

/-- **C69 is violated** when a later setting is refused: the application does not start, but the earlier settings stay changed
for the whole process (here `reconnect_interval` is refused, `max_queue_size` has been set). -/
theorem C69_half_violated :
    (start (fun _ => true) (defaults demo) [("max_queue_size".toList, .int 5), ("reconnect_interval".toList, .str "x".toList)]).2.toOption = none ∧
    (defaults demo).value "REACTPY_MAX_QUEUE_SIZE".toList = some (.int 1000) ∧
    (start (fun _ => true) (defaults demo) [("max_queue_size".toList, .int 5), ("reconnect_interval".toList, .str "x".toList)]).1.value
      "REACTPY_MAX_QUEUE_SIZE".toList = some (.int 5) := by
  decide +kernel

/-- **C69 is violated** by the spelling of names: `PATH_PREFIX="app"` is accepted without being checked. -/
theorem C69_spelling_violated :
    (start (fun _ => true) (defaults demo) [("PATH_PREFIX".toList, .str "app".toList)]).2.toOption = some (.str "app".toList) := by
  decide +kernel

/-- **C69 is violated** for options with a parent: `check_vdom_spec=False, debug=True` starts with the check on. -/
theorem C69_child_violated :
    (start (fun _ => true) (defaults demo) [("check_vdom_spec".toList, .bool false), ("debug".toList, .bool true)]).2.toOption.isSome = true ∧
    ((start (fun _ => true) (defaults demo) [("check_vdom_spec".toList, .bool false), ("debug".toList, .bool true)]).1.get
      "REACTPY_DEBUG".toList).bind (fun t => match t with
        | .opt _ _ (child :: _) => child.value
        | _ => none) = some (.bool true) := by
  decide +kernel

/-- **C69.**  What a boolean option makes of a text: `true`, `1`, `false` and `0` in any letter case; everything else is refused. -/
theorem C69_boolean (s : Str) :
    (boolean (.str s) = .ok (.bool true) ↔ lower s = "true".toList ∨ lower s = "1".toList) ∧
    (boolean (.str s) = .ok (.bool false) ↔ lower s = "false".toList ∨ lower s = "0".toList) ∧
    ((∃ v, boolean (.str s) = .ok v) ↔ lower s = "true".toList ∨ lower s = "1".toList ∨ lower s = "false".toList ∨ lower s = "0".toList) := by
  simp only [boolean, List.mem_cons, List.not_mem_nil, or_false]
  have d1 : ¬ ("true".toList = "false".toList ∨ "true".toList = "0".toList) := by decide
  have d2 : ¬ ("1".toList = "false".toList ∨ "1".toList = "0".toList) := by decide
  generalize lower s = t
  generalize "true".toList = a at d1
  generalize "1".toList = b at d2
  generalize "false".toList = c at d1 d2
  generalize "0".toList = d at d1 d2
  by_cases h1 : t = a ∨ t = b
  · rw [if_pos h1]
    have h2 : ¬ (t = c ∨ t = d) := by rcases h1 with rfl | rfl <;> assumption
    refine ⟨by simp [h1], by simp [h2], ?_⟩
    simp only [Except.ok.injEq, exists_eq', true_iff]
    grind
  · rw [if_neg h1]
    by_cases h2 : t = c ∨ t = d
    · rw [if_pos h2]
      refine ⟨by simp [h1], by simp [h2], ?_⟩
      simp only [Except.ok.injEq, exists_eq', true_iff]
      grind
    · rw [if_neg h2]
      refine ⟨by simp [h1], by simp [h2], ?_⟩
      simp only [reduceCtorEq, exists_false, false_iff]
      grind

/-! ### Which settings are accepted -/

/-- The settings that can be changed, and what their values are passed through: `ReactPyConfig` (types.py 1124–1134) without
`tests_default_timeout`.  Specification, not code of /repo. -/
def documented (b : Builtins) : List (Str × (Val → Except Err Val)) :=
  [("path_prefix".toList, b.str), ("web_modules_dir".toList, b.path), ("reconnect_interval".toList, b.int),
    ("reconnect_max_interval".toList, b.int), ("reconnect_max_retries".toList, b.int), ("reconnect_backoff_multiplier".toList, b.float),
    ("async_rendering".toList, boolean), ("debug".toList, boolean), ("max_queue_size".toList, b.int)]

/-- Children that follow a boolean option. -/
def Follows (l : List (Tree Val)) : Prop := ∀ t ∈ l, ∃ d o, t = .opt ⟨true, boolean, d⟩ o []

theorem boolean_bool {v w : Val} (h : boolean v = .ok w) : ∃ x, w = .bool x := by
  cases v with
  | bool b => cases h; exact ⟨_, rfl⟩
  | int n => cases h; exact ⟨_, rfl⟩
  | str s =>
    simp only [boolean] at h
    split at h
    · cases h; exact ⟨_, rfl⟩
    · split at h
      · cases h; exact ⟨_, rfl⟩
      · cases h
  | other i => cases h

theorem callAll_follows (x : Bool) : ∀ l, Follows l → Follows (Verif.Option.callAll pyNe (.bool x) l).1 ∧ (Verif.Option.callAll pyNe (.bool x) l).2 = none
  | [], h => by simp [Verif.Option.callAll, Follows]
  | t :: l, h => by
    obtain ⟨d, o, rfl⟩ := h t (by simp)
    obtain ⟨h1, h2⟩ := callAll_follows x l fun t ht => h t (by simp [ht])
    have hc : ∃ o', Verif.Option.call pyNe (.bool x) (.opt ⟨true, boolean, d⟩ o []) = (.opt ⟨true, boolean, d⟩ o' [], none) := by
      simp only [Verif.Option.call, boolean, Verif.Option.callAll]
      split
      · exact ⟨_, rfl⟩
      · split
        · rename_i h; cases h
        · split <;> exact ⟨_, rfl⟩
    obtain ⟨o', hc⟩ := hc
    simp only [Verif.Option.callAll, hc]
    refine ⟨fun t ht => ?_, h2⟩
    rcases List.mem_cons.1 ht with rfl | ht
    · exact ⟨d, o', rfl⟩
    · exact h1 t ht

/-- The options that settings are for are there and can be changed. -/
def Std (b : Builtins) (c : Config) : Prop := ∀ k f, (k, f) ∈ documented b →
  ∃ d o s, c.get (optionName k) = some (.opt ⟨true, f, d⟩ o s) ∧ Follows s ∧ (s ≠ [] → f = boolean)

theorem std_defaults (b : Builtins) : Std b (defaults b) := by
  intro k f h
  simp only [documented, List.mem_cons, List.not_mem_nil, or_false, Prod.mk.injEq] at h
  rcases h with ⟨rfl, rfl⟩ | ⟨rfl, rfl⟩ | ⟨rfl, rfl⟩ | ⟨rfl, rfl⟩ | ⟨rfl, rfl⟩ | ⟨rfl, rfl⟩ | ⟨rfl, rfl⟩ | ⟨rfl, rfl⟩ | ⟨rfl, rfl⟩
  all_goals refine ⟨_, _, _, by with_unfolding_all rfl, ?_, ?_⟩
  all_goals first
    | (intro t ht; simp only [List.mem_cons, List.not_mem_nil, or_false, or_self] at ht; subst ht; exact ⟨_, _, rfl⟩)
    | (intro t ht; cases ht)
    | (intro h; exact absurd rfl h)
    | (intro _; rfl)

theorem std_apply {b : Builtins} {c : Config} (hc : Std b c) {k : Str} {f : Val → Except Err Val} (hk : (k, f) ∈ documented b) {v w : Val}
    (hv : f v = .ok w) : (applySetting c k v).2 = none ∧ Std b (applySetting c k v).1 := by
  obtain ⟨d, o, s, hg, hs, hb⟩ := hc k f hk
  have hl : c.locate (optionName k) = some (optionName k, []) := locate_root (by rw [hg]; rfl)
  have hcall : ∃ o' s', Verif.Option.call pyNe v (.opt ⟨true, f, d⟩ o s) = (.opt ⟨true, f, d⟩ o' s', none) ∧ Follows s' ∧ (s' ≠ [] → f = boolean) := by
    simp only [Verif.Option.call, hv]
    split
    · exact ⟨_, _, rfl, hs, hb⟩
    · simp only [Bool.true_eq_false, if_false]
      split
      · cases s with
        | nil => exact ⟨_, [], rfl, (fun t ht => by cases ht), fun h => absurd rfl h⟩
        | cons t r =>
          have hf := hb (by simp)
          rw [hf] at hv
          obtain ⟨x, rfl⟩ := boolean_bool hv
          obtain ⟨h1, h2⟩ := callAll_follows x (t :: r) hs
          rw [h2]
          exact ⟨_, _, rfl, h1, fun _ => hf⟩
      · exact ⟨_, _, rfl, hs, hb⟩
  obtain ⟨o', s', hcall, hs', hb'⟩ := hcall
  have hr : applySetting c k v = (c.put (optionName k) (.opt ⟨true, f, d⟩ o' s'), none) := by
    simp only [applySetting, hl, hg, Verif.Option.actAt, Verif.Option.act, Verif.Option.setTo, hcall]
  rw [hr]
  refine ⟨rfl, fun k' f' hk' => ?_⟩
  obtain ⟨d1, o1, s1, hg1, hs1, hb1⟩ := hc k' f' hk'
  by_cases he : optionName k' = optionName k
  · rw [he] at hg1 ⊢
    rw [hg] at hg1
    cases hg1
    exact ⟨_, _, _, get_put_same c _ _ _ hg, hs', hb'⟩
  · exact ⟨_, _, _, by rw [get_put_other he]; exact hg1, hs1, hb1⟩

theorem std_process (b : Builtins) : ∀ (settings : List (Str × Val)) (c : Config), Std b c →
    (∀ k v, (k, v) ∈ settings → ∃ f w, (k, f) ∈ documented b ∧ f v = .ok w) → (processSettings c settings).2 = none
  | [], _, _, _ => rfl
  | (k, v) :: l, c, hc, h => by
    obtain ⟨f, w, hk, hv⟩ := h k v (by simp)
    obtain ⟨h1, h2⟩ := std_apply hc hk hv
    simp only [processSettings]
    generalize applySetting c k v = r at h1 h2
    obtain ⟨c', e⟩ := r
    simp only at h1
    subst h1
    exact std_process b l c' h2 fun k v hm => h k v (by simp [hm])

/-- **C69** (partial: without `tests_default_timeout`, see `C69_timeout_violated`).  Whatever documented settings are given, with values
of their types: the application starts. -/
theorem C69_accepted_partial (b : Builtins) (dirExists : Val → Bool) (settings : List (Str × Val))
    (h : ∀ k v, (k, v) ∈ settings → ∃ f w, (k, f) ∈ documented b ∧ f v = .ok w)
    (hp : ∀ v, (prefixKey, v) ∈ settings → ∃ s, v = .str ('/' :: s) ∧ ('/' :: s).getLast? = some '/')
    (hd : ∀ v, (modulesKey, v) ∈ settings → dirExists v = true) : ∃ c p, start dirExists (defaults b) settings = (c, .ok p) := by
  have look : ∀ k v, lookup settings k = some v → (k, v) ∈ settings := by
    intro k v hl
    simp only [lookup, Option.map_eq_some_iff] at hl
    obtain ⟨⟨k', v'⟩, hf, rfl⟩ := hl
    have hk : k' = k := by simpa using List.find?_some hf
    subst hk
    exact List.mem_of_find?_eq_some hf
  have h1 : badPrefix settings = false := by
    simp only [badPrefix]
    split
    · rename_i v hv
      obtain ⟨s, rfl, hs⟩ := hp v (look _ _ hv)
      simp [checkPath, truthy, Verif.Asgi.pathOk, hs]
    · rfl
  have h2 : badDir dirExists settings = false := by
    simp only [badDir]
    split
    · rename_i v hv
      simp [hd v (look _ _ hv)]
    · rfl
  have h3 := std_process b settings (defaults b) (std_defaults b) h
  simp only [start, h1, h2]
  generalize processSettings (defaults b) settings = r at h3
  obtain ⟨c, e⟩ := r
  simp only at h3
  subst h3
  exact ⟨_, _, rfl⟩

/-- The settings of the examples are documented, and have values of their types. -/
example : ∀ k v, (k, v) ∈ demoSettings → ∃ f w, (k, f) ∈ documented demo ∧ f v = .ok w := by
  intro k v h
  simp only [demoSettings, List.mem_cons, List.not_mem_nil, or_false, Prod.mk.injEq] at h
  rcases h with ⟨rfl, rfl⟩ | ⟨rfl, rfl⟩ | ⟨rfl, rfl⟩
  · exact ⟨_, .str "/app/".toList, .head _, rfl⟩
  · exact ⟨_, .int 3, .tail _ (.tail _ (.tail _ (.tail _ (.head _)))), rfl⟩
  · exact ⟨_, .bool true, .tail _ (.tail _ (.tail _ (.tail _ (.tail _ (.tail _ (.tail _ (.head _))))))), by with_unfolding_all rfl⟩

/-- **C69 is violated** for `tests_default_timeout`, a setting that `ReactPyConfig` declares: no value but the default can be given. -/
theorem C69_timeout_violated (b : Builtins) (dirExists : Val → Bool) (v : Val) (hv : v ≠ .other 15) :
    (start dirExists (defaults b) [("tests_default_timeout".toList, v)]).2.toOption = none := by
  have h1 : badPrefix [("tests_default_timeout".toList, v)] = false := by
    have : lookup [("tests_default_timeout".toList, v)] prefixKey = none := by
      simp only [lookup, List.find?_cons, show ("tests_default_timeout".toList == prefixKey) = false by decide +kernel]; rfl
    simp only [badPrefix, this]
  have h2 : badDir dirExists [("tests_default_timeout".toList, v)] = false := by
    have : lookup [("tests_default_timeout".toList, v)] modulesKey = none := by
      simp only [lookup, List.find?_cons, show ("tests_default_timeout".toList == modulesKey) = false by decide +kernel]; rfl
    simp only [badDir, this]
  have hg : (defaults b).get (optionName "tests_default_timeout".toList) = some (.opt ⟨false, b.float, .other 15⟩ none []) := by
    with_unfolding_all rfl
  have hl := locate_root (c := defaults b) (n := optionName "tests_default_timeout".toList) (by rw [hg]; rfl)
  have ha : (applySetting (defaults b) "tests_default_timeout".toList v).2 = some (.option .type) := by
    simp only [applySetting, hl, hg, Verif.Option.actAt, Verif.Option.act, Verif.Option.setTo, Verif.Option.call, Option.getD_none, if_neg hv,
      if_true]
  simp only [start, h1, h2, processSettings]
  generalize applySetting (defaults b) "tests_default_timeout".toList v = r at ha
  obtain ⟨c, e⟩ := r
  simp only at ha
  subst ha
  rfl

end Verif.Startup
