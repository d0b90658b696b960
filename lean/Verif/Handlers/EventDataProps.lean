import Verif.Handlers.EventData
/-!
# C96: the data of an event can be read as attributes

"In a handler `event.a.b` is `event["a"]["b"]`, whatever the names and however deep; what the event does not have is `None`.  Values that
are not objects arrive as they were sent."

False of the code for names of methods, and behind lists, whose objects stay plain dictionaries.
-/
namespace Verif.Handlers.EventData

/-! ### Specification -/

/-- Where data are found by following names. -/
inductive At : Data → List String → Data → Prop
  | here (d : Data) : At d [] d
  | entry (l : List (String × Data)) (n : String) (d : Data) (r : List String) (d' : Data) : l.lookup n = some d → At d r d' →
    At (.dict l) (n :: r) d'

/-- `value.a.b…` -/
def dotted (special : String → Bool) : List String → PVal → Except Err PVal
  | [], v => .ok v
  | n :: r, v => (attr special n v).bind (dotted special r)

/-- `value["a"]["b"]…` -/
def subscripted : List String → PVal → Except Err PVal
  | [], v => .ok v
  | n :: r, v => (item n v).bind (subscripted r)

/-- The value equals these data. -/
def PVal.Is : PVal → Data → Prop
  | .data d, d' => d = d'
  | .event l _, d' => Data.dict l = d'
  | .method _, _ => False

/-- The names that are no attributes of events themselves. -/
def Free (special : String → Bool) (name : String) : Prop :=
  special name = false ∧ name ∉ ["preventDefault", "stopPropagation", "clear", "copy", "fromkeys", "get", "items", "keys", "pop", "popitem",
    "setdefault", "update", "values"]

/-! ### Lemmas -/

theorem wrap_is (d d' : Data) : (wrap d).Is d' ↔ d = d' := by cases d <;> exact Iff.rfl

theorem attr_free {special : String → Bool} {n : String} (h : Free special n) (l : List (String × Data)) :
    attr special n (.event l []) = .ok (wrap ((l.lookup n).getD .null)) := by
  have h1 : methods.contains n = false := by
    have := h.2
    simp only [methods, dictMethods, List.cons_append, List.nil_append]
    simpa using this
  simp only [attr, List.lookup_nil, h.1, h1, Bool.or_self]
  cases l.lookup n <;> rfl

theorem attr_atom {special : String → Bool} {n : String} {d : Data} (h : ∀ l, d ≠ .dict l) : attr special n (wrap d) = .error .attribute := by
  cases d with
  | dict l => exact absurd rfl (h l)
  | _ => rfl

theorem item_is {n : String} {v : PVal} {l : List (String × Data)} (h : v.Is (.dict l)) :
    item n v = match l.lookup n with
      | some d => .ok (.data d)
      | none => .error .key := by
  cases v with
  | data d => cases h; rfl
  | event l' a => cases h; rfl
  | method m => cases h

theorem read (special : String → Bool) (d : Data) : ∀ (path : List String) (x : Data), (∀ n ∈ path, Free special n) →
    ((∃ v, dotted special path (wrap x) = .ok v ∧ v.Is d) ↔
      At x path d ∨ (d = .null ∧ ∃ p n m, path = p ++ [n] ∧ At x p (.dict m) ∧ m.lookup n = none))
  | [], x, _ => by
    constructor
    · rintro ⟨v, h1, h2⟩
      cases h1
      rw [wrap_is] at h2
      subst h2
      exact .inl (.here _)
    · rintro (h | ⟨_, p, n, m, h, _⟩)
      · cases h
        exact ⟨_, rfl, (wrap_is _ _).2 rfl⟩
      · cases p <;> cases h
  | n :: r, x, hf => by
    have hn := hf n (by simp)
    have hr := fun y => read special d r y fun a ha => hf a (by simp [ha])
    by_cases hx : ∃ l, x = .dict l
    · obtain ⟨l, rfl⟩ := hx
      have hd : dotted special (n :: r) (wrap (.dict l)) = dotted special r (wrap ((l.lookup n).getD .null)) := by
        show (attr special n (.event l [])).bind _ = _
        rw [attr_free hn]
        rfl
      rw [hd, hr]
      cases hl : l.lookup n with
      | some y =>
        simp only [Option.getD_some]
        constructor
        · rintro (h | ⟨h0, p, m, q, rfl, h1, h2⟩)
          · exact .inl (.entry _ _ _ _ _ hl h)
          · exact .inr ⟨h0, n :: p, m, q, rfl, .entry _ _ _ _ _ hl h1, h2⟩
        · rintro (h | ⟨h0, p, m, q, he, h1, h2⟩)
          · cases h with
            | entry _ _ y' _ _ hl' h =>
              rw [hl] at hl'
              cases hl'
              exact .inl h
          · cases p with
            | nil =>
              simp only [List.nil_append, List.cons.injEq] at he
              cases h1
              rw [he.1] at hl
              rw [hl] at h2
              cases h2
            | cons a p =>
              simp only [List.cons_append, List.cons.injEq] at he
              obtain ⟨rfl, rfl⟩ := he
              cases h1 with
              | entry _ _ y' _ _ hl' h1 =>
                rw [hl] at hl'
                cases hl'
                exact .inr ⟨h0, p, m, q, rfl, h1, h2⟩
      | none =>
        simp only [Option.getD_none]
        constructor
        · rintro (h | ⟨h0, p, m, q, rfl, h1, h2⟩)
          · cases h
            exact .inr ⟨rfl, [], n, l, rfl, .here _, hl⟩
          · cases h1
        · rintro (h | ⟨h0, p, m, q, he, h1, h2⟩)
          · cases h with
            | entry _ _ y' _ _ hl' h =>
              rw [hl] at hl'
              cases hl'
          · cases p with
            | nil =>
              simp only [List.nil_append, List.cons.injEq] at he
              obtain ⟨rfl, rfl⟩ := he
              subst h0
              exact .inl (.here _)
            | cons a p =>
              simp only [List.cons_append, List.cons.injEq] at he
              obtain ⟨rfl, rfl⟩ := he
              cases h1 with
              | entry _ _ y' _ _ hl' h1 =>
                rw [hl] at hl'
                cases hl'
    · have hd : dotted special (n :: r) (wrap x) = .error .attribute := by
        show (attr special n (wrap x)).bind _ = _
        rw [attr_atom fun l e => hx ⟨l, e⟩]
        rfl
      rw [hd]
      constructor
      · rintro ⟨v, h, _⟩
        cases h
      · rintro (h | ⟨_, p, m, q, he, h1, _⟩)
        · cases h with
          | entry l => exact absurd ⟨l, rfl⟩ hx
        · cases p with
          | nil => cases h1; exact absurd ⟨q, rfl⟩ hx
          | cons a p =>
            simp only [List.cons_append, List.cons.injEq] at he
            obtain ⟨rfl, rfl⟩ := he
            cases h1 with
            | entry l => exact absurd ⟨l, rfl⟩ hx

theorem read_items (d : Data) : ∀ (path : List String) (v : PVal) (x : Data), v.Is x →
    ((∃ w, subscripted path v = .ok w ∧ w.Is d) ↔ At x path d)
  | [], v, x, hv => by
    constructor
    · rintro ⟨w, h, hw⟩
      cases h
      have : x = d := by
        cases v with
        | data e => exact hv.symm.trans hw
        | event l a => exact hv.symm.trans hw
        | method m => cases hv
      subst this
      exact .here _
    · intro h
      cases h
      exact ⟨v, rfl, hv⟩
  | n :: r, v, x, hv => by
    by_cases hx : ∃ l, x = .dict l
    · obtain ⟨l, rfl⟩ := hx
      simp only [subscripted, item_is hv]
      cases hl : l.lookup n with
      | none =>
        constructor
        · rintro ⟨w, h, _⟩; cases h
        · intro h
          cases h with
          | entry _ _ y _ _ hl' _ => rw [hl] at hl'; cases hl'
      | some y =>
        have := read_items d r (.data y) y rfl
        constructor
        · intro h
          exact .entry _ _ _ _ _ hl (this.1 h)
        · intro h
          cases h with
          | entry _ _ y' _ _ hl' h =>
            rw [hl] at hl'
            cases hl'
            exact this.2 h
    · have hi : item n v = .error .type := by
        cases v with
        | data e =>
          cases hv
          cases x with
          | dict l => exact absurd ⟨l, rfl⟩ hx
          | _ => rfl
        | event l a => cases hv; exact absurd ⟨l, rfl⟩ hx
        | method m => cases hv
      simp only [subscripted, hi]
      constructor
      · rintro ⟨w, h, _⟩; cases h
      · intro h
        cases h with
        | entry l => exact absurd ⟨l, rfl⟩ hx

/-! ### Properties -/

/-- **C96 (partial).**  An argument of a handler, read through attributes: what was sent is found at the names that lead to it, `None` if the
last name is missing, and nothing else.  Missing: names of methods (`C96_method_violated`) and what is in lists
(`C96_list_violated`). -/
theorem C96_attributes_partial (special : String → Bool) (sent : List Data) (i : Nat) (x : Data) (hx : sent[i]? = some x) (path : List String)
    (hf : ∀ n ∈ path, Free special n) (d : Data) :
    ∃ v, (received sent)[i]? = some v ∧ ((∃ w, dotted special path v = .ok w ∧ w.Is d) ↔
      At x path d ∨ (d = .null ∧ ∃ p n m, path = p ++ [n] ∧ At x p (.dict m) ∧ m.lookup n = none)) :=
  ⟨wrap x, by simp [received, hx], read special d path x hf⟩

/-- **C96.**  Read through items, whatever the names: what was sent is found at the names that lead to it, and nothing else. -/
theorem C96_items (sent : List Data) (i : Nat) (x : Data) (hx : sent[i]? = some x) (path : List String) (d : Data) :
    ∃ v, (received sent)[i]? = some v ∧ ((∃ w, subscripted path v = .ok w ∧ w.Is d) ↔ At x path d) :=
  ⟨wrap x, by simp [received, hx], read_items d path (wrap x) x ((wrap_is x x).2 rfl)⟩

/-- **C96.**  Each value that was sent is one argument, in order. -/
theorem C96_arguments (sent : List Data) : (received sent).length = sent.length ∧
    ∀ (i : Nat) (x : Data), sent[i]? = some x → ∃ v : PVal, (received sent)[i]? = some v ∧ v.Is x :=
  ⟨by simp [received], fun i x hx => ⟨wrap x, by simp [received, hx], (wrap_is x x).2 rfl⟩⟩

/-- **C96.**  An attribute that a handler assigns is read back, and nothing else is changed. -/
theorem C96_assigned (special : String → Bool) (l attrs : List (String × Data)) (name : String) (d : Data) :
    ∃ v, setAttr name d (.event l attrs) = .ok v ∧ attr special name v = .ok (.data d) ∧
      (∀ n, n ≠ name → attr special n v = attr special n (.event l attrs)) ∧ ∀ n, item n v = item n (.event l attrs) := by
  refine ⟨_, rfl, by simp [attr, List.lookup_cons], fun n hn => ?_, fun n => rfl⟩
  have : (n == name) = false := by simpa using hn
  simp [attr, List.lookup_cons, this]

/-- An event of a form: `{"target": {"value": 1, "files": [{"name": 2}]}, "dataTransfer": {"items": []}}`. -/
def exEvent : Data :=
  .dict [("target", .dict [("value", .atom 1), ("files", .list [.dict [("name", .atom 2)]])]), ("dataTransfer", .dict [("items", .list [])])]

example : (∀ n ∈ ["target", "value"], Free (· == "__class__") n) ∧ At exEvent ["target", "value"] (.atom 1) ∧
    dotted (· == "__class__") ["target", "value"] (wrap exEvent) = .ok (.data (.atom 1)) ∧
    dotted (· == "__class__") ["target", "checked"] (wrap exEvent) = .ok (.data .null) ∧
    dotted (· == "__class__") ["detail", "value"] (wrap exEvent) = .error .attribute := by
  refine ⟨?_, .entry _ _ _ _ _ rfl (.entry _ _ _ _ _ rfl (.here _)), ?_, ?_, ?_⟩
  · intro n hn
    simp only [List.mem_cons, List.not_mem_nil, or_false] at hn
    rcases hn with rfl | rfl <;> exact ⟨by decide +kernel, by decide⟩
  all_goals (simp only [exEvent, wrap]; rfl)

/-- C96 is violated for entries with the names of methods: `event.dataTransfer.items` is a method of the dictionary, not what was sent.
So it is for every name of a method, whatever the event. -/
theorem C96_method_violated (special : String → Bool) (l : List (String × Data)) (n : String)
    (hn : n ∈ ["preventDefault", "stopPropagation", "clear", "copy", "fromkeys", "get", "items", "keys", "pop", "popitem",
      "setdefault", "update", "values"]) : attr special n (.event l []) = .ok (.method n) := by
  have : methods.contains n = true := by
    simp only [methods, dictMethods, List.cons_append, List.nil_append]
    simpa using hn
  simp only [attr, List.lookup_nil, this, Bool.or_true, if_true]

/-- C96 is violated behind lists: in `event.target.files[0].name` the element of the list is a plain dictionary, and reading its entry as
an attribute raises.  So it is for every list of objects. -/
theorem C96_list_violated (special : String → Bool) (l : List (String × Data)) (n : String) (xs : List Data) (hl : l.lookup n = some (.list xs))
    (hf : Free special n) (i : Nat) (m : List (String × Data)) (hi : xs[i]? = some (.dict m)) (k : String) (hk : Free special k) :
    (((attr special n (.event l [])).bind (index i)).bind (attr special k)) = .error .attribute := by
  rw [attr_free hf, hl]
  have h1 : dictMethods.contains k = false := by
    have := hk.2
    simp only [List.mem_cons, not_or] at this
    simp only [dictMethods]
    simp only [List.contains_cons, List.contains_nil]
    grind
  show ((index i (.data (.list xs))).bind _) = _
  simp only [index, hi]
  show attr special k (.data (.dict m)) = _
  simp only [attr, hk.1, h1, Bool.or_self]
  rfl

example : ((attr (· == "__class__") "target" (wrap exEvent)).bind fun t => ((attr (· == "__class__") "files" t).bind (index 0)).bind
    (attr (· == "__class__") "name")) = .error .attribute := by
  simp only [exEvent, wrap]; rfl

end Verif.Handlers.EventData
