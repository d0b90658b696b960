import Verif.Console.Keys
/-! # C79: moving keys into the attributes keeps the program -/
namespace Verif.Console

/-! ## Specification: what a program means

The meaning of an expression, as far as elements and dicts go: an element has attributes, of which `key` is one, however it was
given; a dict is its entries other than `"key"`, and the value of `"key"`; everything else is taken literally. -/

mutual
/-- Meanings. -/
inductive Val where
  | str (s : Str)
  | const (n : Nat)
  | joined (l : List Val)
  | name (id : Str)
  | attr (v : Val) (a : Str)
  | call (f : Val) (args : List Val) (kws : List (Option Str × Val))
  | mapping (l : List Entry) (key : Option Val)
  | elem (f : Val) (before : List Val) (attributes : Val) (kids : List Val) (kws : List (Option Str × Val))
  | other (l : List Val)
/-- Entries of a dict. -/
inductive Entry where
  | item (k v : Val)
  | spread (v : Val)
end

/-- What a function is: an element constructor with the place of its attributes, `dict`, or some other function.  `N` tells
which plain names are element constructors. -/
inductive Role where
  | elem (i : Nat)
  | dict
  | fn
deriving DecidableEq

def role (N : Str → Bool) : Expr → Role
  | .name id =>
    if id = "dict".toList then .dict
    else if N id then .elem (if id = "vdom".toList then 1 else 0) else .fn
  | f =>
    match constructorName f with
    | some n => .elem (if n = "vdom".toList then 1 else 0)
    | none => .fn

/-- The name of the argument that is moved. -/
def keyWord : Str := "key".toList

/-- A string or another constant, or a formatted string. -/
def literal : Expr → Bool
  | .str _ => true
  | .const _ => true
  | .joined _ => true
  | .name _ => false
  | .attr _ _ => false
  | .call _ _ _ => false
  | .dict _ => false
  | .other _ => false

/-- The keyword arguments other than `key`. -/
def othersOf (ks : List (Option Str × Val)) : List (Option Str × Val) := ks.filter (fun p => p.1 ≠ some keyWord)

/-- The keyword argument `key`. -/
def keyOf (ks : List (Option Str × Val)) : Option Val := (ks.find? (fun p => p.1 = some keyWord)).map (·.2)

/-- A dict with the keyword arguments. -/
def entriesOf (ks : List (Option Str × Val)) : List Entry :=
  (othersOf ks).map fun p => match p.1 with
    | some k => .item (.str k) p.2
    | none => .spread p.2

/-- A dict as another was given a `key`. -/
def setKey (v : Val) : Option Val → Val
  | none => v
  | some k =>
    match v with
    | .mapping l _ => .mapping l (some k)
    | w => .mapping [.spread w] (some k)

/-- `dict(v, …)`: the entries of `v` and then others. -/
def extend (v : Val) (l : List Entry) (k : Option Val) : Val :=
  match v with
  | .mapping l' k' => .mapping (l' ++ l) (k.or k')
  | w => .mapping (.spread w :: l) k

mutual
/-- The meaning of an expression. -/
def eval (N : Str → Bool) : Expr → Val
  | .str s => .str s
  | .const n => .const n
  | .joined l => .joined (evalArgs N l)
  | .name id => .name id
  | .attr v a => .attr (eval N v) a
  | .call f args kws =>
    match role N f with
    | .elem i =>
      if (args.get i).any isProps then
        .elem (eval N f) ((evalArgs N args).take i) (setKey (((evalArgs N args)[i]?).getD (.mapping [] none)) (keyOf (evalKws N kws)))
          ((evalArgs N args).drop (i + 1)) (othersOf (evalKws N kws))
      else
        .elem (eval N f) ((evalArgs N args).take i) (setKey (.mapping [] none) (keyOf (evalKws N kws)))
          ((evalArgs N args).drop i) (othersOf (evalKws N kws))
    | .dict =>
      match evalArgs N args with
      | [] => .mapping (entriesOf (evalKws N kws)) (keyOf (evalKws N kws))
      | [v] => extend v (entriesOf (evalKws N kws)) (keyOf (evalKws N kws))
      | l => .call (.name "dict".toList) l (evalKws N kws)
    | .fn => .call (eval N f) (evalArgs N args) (evalKws N kws)
  | .dict items => .mapping (evalItems N items).1 (evalItems N items).2
  | .other l => .other (evalArgs N l)
/-- The meanings of arguments. -/
def evalArgs (N : Str → Bool) : Args → List Val
  | .nil => []
  | .cons e l => eval N e :: evalArgs N l
/-- The meanings of keyword arguments. -/
def evalKws (N : Str → Bool) : Kws → List (Option Str × Val)
  | .nil => []
  | .cons k v l => (k, eval N v) :: evalKws N l
/-- The entries of a dict display, and its last `"key"`. -/
def evalItems (N : Str → Bool) : Items → List Entry × Option Val
  | .nil => ([], none)
  | .cons (.str k) v l =>
    if k = keyWord then ((evalItems N l).1, (evalItems N l).2.or (some (eval N v)))
    else (.item (.str k) (eval N v) :: (evalItems N l).1, (evalItems N l).2)
  | .cons k v l => (.item (eval N k) (eval N v) :: (evalItems N l).1, (evalItems N l).2)
  | .spread v l => (.spread (eval N v) :: (evalItems N l).1, (evalItems N l).2)
end

/-- No keyword argument `key`. -/
def noKey : Kws → Bool
  | .nil => true
  | .cons k _ l => k ≠ some keyWord && noKey l

/-- At most one. -/
def oneKey : Kws → Bool
  | .nil => true
  | .cons k _ l => if k = some keyWord then noKey l else oneKey l

/-- A call that the command may look at without harm: of an element constructor; or `dict` with at most one argument, which is
not a literal, and if it is not a dict itself then there is no `key` argument; or another function whose first argument is not
a literal and is not a dict with a `key` argument besides. -/
def tameCall (N : Str → Bool) (f : Expr) (args : Args) (kws : Kws) : Bool :=
  oneKey kws &&
  match role N f with
  | .elem _ => true
  | .dict => (args.get 1).isNone && (args.get 0).all (fun e => isProps e || (!literal e && noKey kws))
  | .fn =>
    match spot f args with
    | .skip => true
    | .add _ => false
    | .found _ props => !props || noKey kws

mutual
/-- Every call is. -/
def Tame (N : Str → Bool) : Expr → Bool
  | .joined l => TameArgs N l
  | .attr v _ => Tame N v
  | .call f args kws => tameCall N f args kws && Tame N f && TameArgs N args && TameKws N kws
  | .dict items => TameItems N items
  | .other l => TameArgs N l
  | _ => true
/-- As `Tame`, for arguments. -/
def TameArgs (N : Str → Bool) : Args → Bool
  | .nil => true
  | .cons e l => Tame N e && TameArgs N l
/-- As `Tame`, for keyword arguments. -/
def TameKws (N : Str → Bool) : Kws → Bool
  | .nil => true
  | .cons _ v l => Tame N v && TameKws N l
/-- As `Tame`, for dict displays. -/
def TameItems (N : Str → Bool) : Items → Bool
  | .nil => true
  | .cons k v l => Tame N k && Tame N v && TameItems N l
  | .spread v l => Tame N v && TameItems N l
end

/-! ## Lemmas -/

@[local simp] theorem keyWord_eq : keyWord = keyStr := rfl

@[local simp] theorem literal_eq : literal = isLiteral := by
  funext e; cases e <;> rfl

theorem evalArgs_get (N : Str → Bool) (args : Args) (i : Nat) : (evalArgs N args)[i]? = (args.get i).map (eval N) := by
  induction i generalizing args with
  | zero => cases args <;> simp [evalArgs, Args.get]
  | succ i ih => cases args with
    | nil => simp [evalArgs, Args.get]
    | cons e l => simpa [evalArgs, Args.get] using ih l

theorem evalArgs_insert (N : Str → Bool) (args : Args) (i : Nat) (d : Expr) :
    evalArgs N (args.insert i d) = (evalArgs N args).take i ++ eval N d :: (evalArgs N args).drop i := by
  induction i generalizing args with
  | zero => cases args <;> simp [evalArgs, Args.insert]
  | succ i ih => cases args with
    | nil => simp [evalArgs, Args.insert]
    | cons e l => simp [evalArgs, Args.insert, ih l]

theorem keyOf_eval (N : Str → Bool) (kws : Kws) : keyOf (evalKws N kws) = (findKey kws).map (eval N) := by
  match kws with
  | .nil => rfl
  | .cons k v l =>
    have ih := keyOf_eval N l
    unfold keyOf at ih ⊢
    by_cases h : k = some keyStr
    · simp [evalKws, findKey, h]
    · simp [evalKws, findKey, h]
      exact ih

theorem dropKey_none (kws : Kws) (h : findKey kws = none) : dropKey kws = kws := by
  match kws with
  | .nil => rfl
  | .cons k v l =>
    unfold findKey at h
    split at h
    · simp at h
    next hk => simp [dropKey, hk, dropKey_none l h]

theorem othersOf_drop (N : Str → Bool) (kws : Kws) : othersOf (evalKws N (dropKey kws)) = othersOf (evalKws N kws) := by
  match kws with
  | .nil => rfl
  | .cons k v l =>
    have ih := othersOf_drop N l
    unfold othersOf at ih ⊢
    by_cases h : k = some keyStr
    · simp [evalKws, dropKey, h]
    · simp only [evalKws, dropKey, h, if_false]
      rw [List.filter_cons, List.filter_cons, ih]

theorem othersOf_add (N : Str → Bool) (kws : Kws) (v : Expr) : othersOf (evalKws N (kws.addKey v)) = othersOf (evalKws N kws) := by
  match kws with
  | .nil => simp [Kws.addKey, evalKws, othersOf]
  | .cons k w l =>
    have ih := othersOf_add N l v
    unfold othersOf at ih ⊢
    simp only [evalKws, Kws.addKey]
    rw [List.filter_cons, List.filter_cons, ih]

theorem findKey_noKey (kws : Kws) : noKey kws = true ↔ findKey kws = none := by
  match kws with
  | .nil => simp [noKey, findKey]
  | .cons k v l =>
    have ih := findKey_noKey l
    by_cases h : k = some keyStr
    · simp [noKey, findKey, h]
    · simp [noKey, findKey, h, ih]

theorem findKey_drop (kws : Kws) (h : oneKey kws = true) : findKey (dropKey kws) = none := by
  match kws with
  | .nil => rfl
  | .cons k v l =>
    unfold oneKey at h
    split at h
    next hk => simpa [dropKey, hk] using (findKey_noKey l).1 h
    next hk =>
      have hk' : ¬ k = some keyStr := hk
      simp [dropKey, hk', findKey, findKey_drop l h]

theorem findKey_add (kws : Kws) (v : Expr) : findKey (kws.addKey v) = some ((findKey kws).getD v) := by
  match kws with
  | .nil => simp [Kws.addKey, findKey]
  | .cons k w l =>
    have ih := findKey_add l v
    by_cases h : k = some keyStr
    · simp [Kws.addKey, findKey, h]
    · simp [Kws.addKey, findKey, h, ih]

theorem dropKey_add_none (kws : Kws) (v : Expr) (h : findKey kws = none) : dropKey (kws.addKey v) = kws := by
  match kws with
  | .nil => simp [Kws.addKey, dropKey]
  | .cons k w l =>
    unfold findKey at h
    split at h
    · simp at h
    next hk => simp [Kws.addKey, dropKey, hk, dropKey_add_none l v h]

theorem dropKey_add_some (kws : Kws) (v w : Expr) (h : findKey kws = some w) : dropKey (kws.addKey v) = (dropKey kws).addKey v := by
  match kws with
  | .nil => simp [findKey] at h
  | .cons k u l =>
    unfold findKey at h
    by_cases hk : k = some keyStr
    · simp [Kws.addKey, dropKey, hk]
    · simp [hk] at h
      simp [Kws.addKey, dropKey, hk, dropKey_add_some l v w h]

theorem evalItems_add (N : Str → Bool) (items : Items) (v : Expr) :
    evalItems N (items.addKey v) = ((evalItems N items).1, some (eval N v)) := by
  match items with
  | .nil => simp [Items.addKey, evalItems]
  | .spread w l => simp [Items.addKey, evalItems, evalItems_add N l v]
  | .cons k w l =>
    have ih := evalItems_add N l v
    cases k with
    | str s => by_cases h : s = keyStr <;> simp [Items.addKey, evalItems, ih, h]
    | _ => simp [Items.addKey, evalItems, ih]

theorem oneKey_keys (kws : Kws) : oneKey (keysKws kws) = oneKey kws ∧ noKey (keysKws kws) = noKey kws := by
  match kws with
  | .nil => simp [keysKws]
  | .cons k v l =>
    obtain ⟨h1, h2⟩ := oneKey_keys l
    simp [keysKws, oneKey, noKey, h1, h2]
    rfl

theorem keys_call (x : Option Expr) (f : Expr) (args : Args) (kws : Kws) :
    ∃ a' k', keys x (.call f args kws) = .call (keys none f) a' k' := by
  simp only [keys]; split <;> (try split) <;> exact ⟨_, _, rfl⟩

theorem constructorName_keys (f : Expr) : constructorName (keys none f) = constructorName f := by
  cases f with
  | attr v a => cases v with
    | call g args kws =>
      obtain ⟨a', k', hc⟩ := keys_call none g args kws
      rw [keys, hc]; rfl
    | _ => simp [keys, constructorName]
  | call g args kws =>
    obtain ⟨a', k', hc⟩ := keys_call none g args kws
    rw [hc]; rfl
  | _ => simp [keys, constructorName]

theorem role_keys (N : Str → Bool) (f : Expr) : role N (keys none f) = role N f := by
  have h := constructorName_keys f
  cases f with
  | name id => simp [keys]
  | call g args kws =>
    obtain ⟨a', k', hc⟩ := keys_call none g args kws
    rw [hc]; simp [role, constructorName]
  | attr v a => simp only [keys, role] at h ⊢; rw [h]
  | _ => simp [keys, role, constructorName]

theorem isProps_keys (x : Option Expr) (e : Expr) : isProps (keys x e) = isProps e := by
  cases e with
  | call g args kws =>
    obtain ⟨a', k', hc⟩ := keys_call x g args kws
    rw [hc]
    cases g with
    | call g args kws =>
      obtain ⟨a', k', hc⟩ := keys_call none g args kws
      rw [hc]; rfl
    | _ => simp [keys, isProps]
  | dict items => cases x <;> simp [keys, isProps]
  | _ => simp [keys, isProps]

theorem isLiteral_keys (x : Option Expr) (e : Expr) : isLiteral (keys x e) = isLiteral e := by
  cases e with
  | call g args kws =>
    obtain ⟨a', k', hc⟩ := keys_call x g args kws
    rw [hc]; rfl
  | dict items => cases x <;> simp [keys, isLiteral]
  | _ => simp [keys, isLiteral]

theorem keysArgs_none (x y : Option Expr) (args : Args) : keysArgs none x args = keysArgs none y args := by
  match args with
  | .nil => simp [keysArgs]
  | .cons e l => simp [keysArgs, keysArgs_none x y l]

theorem keysArgs_get (i : Option Nat) (x : Option Expr) (args : Args) (j : Nat) :
    (keysArgs i x args).get j = (args.get j).map (keys (if i = some j then x else none)) := by
  induction j generalizing i args with
  | zero => cases args <;> simp [keysArgs, Args.get]
  | succ j ih => cases args with
    | nil => simp [keysArgs, Args.get]
    | cons e l =>
      simp only [keysArgs, Args.get, ih]
      congr 2
      cases i with
      | none => simp
      | some n => cases n <;> simp

theorem insert_get (args : Args) (i : Nat) (d : Expr) (h : i = 0 ∨ (args.get (i - 1)).isSome) : (args.insert i d).get i = some d := by
  induction i generalizing args with
  | zero => cases args <;> simp [Args.insert, Args.get]
  | succ i ih => cases args with
    | nil => simp [Args.get] at h
    | cons e l =>
      simp only [Args.insert, Args.get]
      refine ih l ?_
      cases i with
      | zero => simp
      | succ i => simpa [Args.get] using h

theorem length_of_get (N : Str → Bool) (args : Args) (i : Nat) (h : (args.get i).isSome) : i < (evalArgs N args).length := by
  have := evalArgs_get N args i
  cases hg : args.get i with
  | none => simp [hg] at h
  | some e =>
    rw [hg] at this
    exact (List.getElem?_eq_some_iff.1 this).1

theorem isProps_call (f : Expr) (args : Args) (kws : Kws) (h : isProps (.call f args kws) = true) : f = .name "dict".toList := by
  cases f with
  | name id => simp only [isProps, beq_iff_eq] at h; rw [h]
  | _ => simp [isProps] at h

theorem role_dict (N : Str → Bool) (f : Expr) (h : role N f = .dict) : f = .name "dict".toList := by
  cases f with
  | name id => 
    simp only [role] at h
    split at h
    next hd => rw [hd]
    · split at h <;> simp at h
  | _ => simp only [role] at h; split at h <;> simp at h

/-- The place of the attributes is where the command looks. -/
theorem spot_elem (N : Str → Bool) (f : Expr) (args : Args) (i : Nat) (h : role N f = .elem i) :
    (spot f args = .skip ∧ (args.get i).any isProps = false ∧ args.get 0 = none) ∨
    (spot f args = .add i ∧ (args.get i).any isProps = false ∧ (i = 0 ∨ (args.get (i - 1)).isSome)) ∨
    (∃ e, args.get i = some e ∧ spot f args = .found i (isProps e)) := by
  have hc : ∃ n, constructorName f = some n ∧ i = if n = "vdom".toList then 1 else 0 := by
    cases f with
    | name id =>
      refine ⟨id, rfl, ?_⟩
      simp only [role] at h
      split at h
      · simp at h
      · split at h
        · simpa using h.symm
        · simp at h
    | _ =>
      simp only [role] at h
      split at h
      next n hn => exact ⟨n, hn, by simpa using h.symm⟩
      · simp at h
  obtain ⟨n, hn, hi⟩ := hc
  have lit : ∀ e, isLiteral e = true → isProps e = false := by intro e; cases e <;> simp [isLiteral, isProps]
  unfold spot
  rw [hn]
  by_cases hv : n = "vdom".toList
  · simp only [if_pos hv] at hi ⊢
    subst hi
    cases h0 : args.get 0 with
    | none =>
      left; refine ⟨rfl, ?_, rfl⟩
      cases args <;> simp [Args.get] at h0 ⊢
    | some e0 =>
      right
      cases h1 : args.get 1 with
      | none => left; simp [h0]
      | some e =>
        by_cases hl : isLiteral e = true
        · left; simp [hl, h0, lit e hl]
        · right; exact ⟨e, rfl, by simp [hl]⟩
  · simp only [if_neg hv] at hi ⊢
    subst hi
    right
    cases h0 : args.get 0 with
    | none => left; simp
    | some e =>
      by_cases hl : isLiteral e = true
      · left; simp [hl, lit e hl]
      · right; exact ⟨e, rfl, by simp [hl]⟩

theorem eval_newDict (N : Str → Bool) (x : Option Expr) : eval N (newDict x) = setKey (.mapping [] none) (x.map (eval N)) := by
  cases x <;> simp [newDict, eval, evalItems, setKey]

theorem spot_found (f : Expr) (args : Args) (i : Nat) (p : Bool) (h : spot f args = .found i p) :
    ∃ e, args.get i = some e ∧ p = isProps e := by
  unfold spot at h
  split at h
  · simp at h
  · split at h
    · split at h
      · simp at h
      · split at h
        · simp at h
        next e h1 =>
          split at h
          · simp at h
          · simp only [Spot.found.injEq] at h; exact ⟨e, h.1 ▸ h1, h.2.symm⟩
    · split at h
      · simp at h
      next e h1 =>
        split at h
        · simp at h
        · simp only [Spot.found.injEq] at h; exact ⟨e, h.1 ▸ h1, h.2.symm⟩

theorem findKey_keys (kws : Kws) (h : noKey kws = true) : findKey (keysKws kws) = none :=
  (findKey_noKey _).1 ((oneKey_keys kws).2.trans h)

/-- The key taken from the keywords and those left give the moved key, or else the dict's own. -/
theorem key_left (N : Str → Bool) (x : Option Expr) (kws : Kws) (h : oneKey kws = true) :
    (keyOf (evalKws N (dropKey (withKey x kws)))).or ((findKey (withKey x kws)).map (eval N)) =
      (x.map (eval N)).or (keyOf (evalKws N kws)) := by
  simp only [keyOf_eval]
  cases hk : findKey kws with
  | none =>
    cases x with
    | none => simp [withKey, dropKey_none, hk]
    | some v => simp [withKey, dropKey_add_none kws v hk, findKey_add, hk]
  | some w =>
    cases x with
    | none => simp [withKey, findKey_drop kws h, hk]
    | some v => simp [withKey, dropKey_add_some kws v w hk, findKey_add, findKey_drop kws h, hk]

theorem entries_left (N : Str → Bool) (x : Option Expr) (kws : Kws) :
    entriesOf (evalKws N (dropKey (withKey x kws))) = entriesOf (evalKws N kws) ∧
    entriesOf (evalKws N (withKey x kws)) = entriesOf (evalKws N kws) := by
  unfold entriesOf
  rw [othersOf_drop]
  cases x with
  | none => simp [withKey]
  | some v => simp [withKey, othersOf_add]

theorem set_same (l : List Val) (i : Nat) (v : Val) (h : l[i]? = some v) : l.set i v = l := by
  apply List.ext_getElem?
  intro j
  rw [List.getElem?_set]
  split
  next hj => subst hj; split <;> simp_all
  · rfl

theorem setKey_extend (v : Val) (l : List Entry) (k x : Option Val) :
    setKey (extend v l k) x = extend v l (x.or k) := by
  cases x with
  | none => simp [setKey]
  | some x => cases v <;> simp [setKey, extend]

theorem extend_setKey (l' : List Entry) (k' : Option Val) (l : List Entry) (k x : Option Val) :
    extend (setKey (.mapping l' k') x) l k = extend (.mapping l' k') l (k.or x) := by
  cases x <;> cases k <;> simp [setKey, extend]

theorem eval_props (N : Str → Bool) (e : Expr) (h : isProps e = true) (ht : Tame N e = true) : ∃ l k, eval N e = .mapping l k := by
  cases e with
  | dict items => exact ⟨_, _, by rw [eval]⟩
  | call f args kws =>
    have := isProps_call f args kws h
    subst this
    simp only [Tame, tameCall, Bool.and_eq_true] at ht
    have hr : role N (.name "dict".toList) = .dict := by simp [role]
    rw [hr] at ht
    simp only [eval, hr]
    cases args with
    | nil => simp only [evalArgs]; exact ⟨_, _, rfl⟩
    | cons a l => cases l with
      | nil =>
        simp only [evalArgs, extend]
        split <;> exact ⟨_, _, rfl⟩
      | cons b l => simp [Args.get] at ht
  | _ => simp [isProps] at h

theorem tame_get (N : Str → Bool) (args : Args) (i : Nat) (e : Expr) (h : TameArgs N args = true) (hg : args.get i = some e) :
    Tame N e = true := by
  induction i generalizing args with
  | zero => cases args with
    | nil => simp [Args.get] at hg
    | cons a l => simp only [Args.get, Option.some.injEq] at hg; subst hg; simp only [TameArgs, Bool.and_eq_true] at h; exact h.1
  | succ i ih => cases args with
    | nil => simp [Args.get] at hg
    | cons a l => simp only [TameArgs, Bool.and_eq_true] at h; exact ih l h.2 hg

mutual
theorem eval_keys (N : Str → Bool) (e : Expr) (h : Tame N e = true) :
    eval N (keys none e) = eval N e ∧
    ∀ v, isProps e = true → eval N (keys (some v) e) = setKey (eval N e) (some (eval N v)) := by
  match e with
  | .str s => exact ⟨by simp [keys], by simp [isProps]⟩
  | .const n => exact ⟨by simp [keys], by simp [isProps]⟩
  | .name id => exact ⟨by simp [keys], by simp [isProps]⟩
  | .joined l =>
    simp only [Tame] at h
    exact ⟨by simp [keys, eval, (evalArgs_keys N l h).1], by simp [isProps]⟩
  | .attr v a =>
    simp only [Tame] at h
    exact ⟨by simp [keys, eval, (eval_keys N v h).1], by simp [isProps]⟩
  | .other l =>
    simp only [Tame] at h
    exact ⟨by simp [keys, eval, (evalArgs_keys N l h).1], by simp [isProps]⟩
  | .dict items =>
    simp only [Tame] at h
    have hi := evalItems_keys N items h
    exact ⟨by simp [keys, eval, hi], fun v _ => by simp [keys, eval, evalItems_add, hi, setKey]⟩
  | .call f args kws =>
    simp only [Tame, Bool.and_eq_true] at h
    obtain ⟨⟨⟨hc, hf⟩, ha⟩, hk⟩ := h
    have ihf := (eval_keys N f hf).1
    obtain ⟨iha, ihs⟩ := evalArgs_keys N args ha
    have ihk := evalKws_keys N kws hk
    simp only [tameCall, Bool.and_eq_true] at hc
    obtain ⟨h1, hc⟩ := hc
    have h1' : oneKey (keysKws kws) = true := (oneKey_keys kws).1.trans h1
    cases hr : role N f with
    | elem i =>
      have hnd : isProps (.call f args kws) ≠ true := by
        intro hp
        rw [isProps_call f args kws hp] at hr
        simp [role] at hr
      refine ⟨?_, fun v hp => absurd hp hnd⟩
      rcases spot_elem N f args i hr with ⟨hs, hp, _⟩ | ⟨hs, hp, hl⟩ | ⟨e, hg, hs⟩
      · have hp' : ((keysArgs none none args).get i).any isProps = false := by
          rw [keysArgs_get]; cases hg : args.get i <;> simp_all [isProps_keys]
        simp only [keys, hs, withKey, eval, role_keys, hr, hp, hp', ihf, iha, ihk]
      · have hp' : (((keysArgs none none args).insert i (newDict (findKey (keysKws kws)))).get i).any isProps = true := by
          rw [insert_get]
          · cases findKey (keysKws kws) <;> simp [newDict, isProps]
          · rcases hl with hl | hl
            · exact .inl hl
            · right; rw [keysArgs_get]; simpa using hl
        have hlen : i ≤ (evalArgs N args).length := by
          rcases hl with hl | hl
          · omega
          · have := length_of_get N args (i - 1) hl; omega
        simp only [keys, hs, withKey, eval, role_keys, hr, hp, hp', ihf, if_true, Bool.false_eq_true, if_false,
          evalArgs_insert, iha, eval_newDict, othersOf_drop, ihk, keyOf_eval, findKey_drop _ h1', Option.map_none, setKey]
        have e1 : (findKey (keysKws kws)).map (eval N) = (findKey kws).map (eval N) := by
          rw [← keyOf_eval, ← keyOf_eval, ihk]
        have hl' : (List.take i (evalArgs N args)).length = i := by simp [hlen]
        rw [e1]
        congr 1
        · rw [List.take_append_of_le_length (by omega), List.take_take, Nat.min_self]
        · rw [List.getElem?_append_right (by omega)]; simp [hl']
        · rw [List.drop_append]; simp [hl']
      · cases hpe : isProps e with
        | false =>
          rw [hpe] at hs
          have hp : (args.get i).any isProps = false := by simp [hg, hpe]
          have hp' : ((keysArgs none none args).get i).any isProps = false := by simp [keysArgs_get, hg, hpe, isProps_keys]
          simp only [keys, hs, withKey, eval, role_keys, hr, hp, hp', ihf, iha, ihk, Bool.false_eq_true, if_false]
        | true =>
          rw [hpe] at hs
          have hp : (args.get i).any isProps = true := by simp [hg, hpe]
          have hp' : ((keysArgs (some i) (findKey (keysKws kws)) args).get i).any isProps = true := by
            simp [keysArgs_get, hg, hpe, isProps_keys]
          have hlt := length_of_get N args i (by simp [hg])
          have hge : (evalArgs N args)[i]? = some (eval N e) := by rw [evalArgs_get, hg]; rfl
          have e1 : (findKey (keysKws kws)).map (eval N) = (findKey kws).map (eval N) := by
            rw [← keyOf_eval, ← keyOf_eval, ihk]
          simp only [keys, hs, withKey, eval, role_keys, hr, hp, hp', ihf, if_true, ihs i _ e hg hpe, othersOf_drop, ihk,
            keyOf_eval, findKey_drop _ h1', Option.map_none, setKey, e1]
          congr 1
          · simp [List.take_set_of_le]
          · rw [hge]; simp [hlt]
          · rw [List.drop_set_of_lt (by omega)]
    | dict =>
      have hf := role_dict N f hr
      subst hf
      rw [hr] at hc
      simp only [Bool.and_eq_true] at hc
      have key : ∀ x : Option Expr, eval N (keys x (.call (.name "dict".toList) args kws)) =
          setKey (eval N (.call (.name "dict".toList) args kws)) (x.map (eval N)) := by
        intro x
        have hkl := key_left N x (keysKws kws) h1'
        obtain ⟨hen1, hen2⟩ := entries_left N x (keysKws kws)
        rw [ihk] at hkl hen1 hen2
        have hnv : ("dict".toList = "vdom".toList) = False := by decide
        cases args with
        | nil =>
          have hs : spot (.name "dict".toList) .nil = .add 0 := by
            simp only [spot, constructorName, hnv, if_false, Args.get]
          have := setKey_extend (.mapping [] none) (entriesOf (evalKws N kws)) (keyOf (evalKws N kws)) (x.map (eval N))
          simp only [extend, List.nil_append, Option.or_none] at this
          simp only [keys, hs, eval, hr, keysArgs, Args.insert, evalArgs, eval_newDict, extend_setKey, hen1, this]
          simp only [extend, List.nil_append, Option.or_none, hkl]
        | cons a l => cases l with
          | cons b l => simp [Args.get] at hc
          | nil =>
            have hg : Args.get (.cons a .nil) 0 = some a := rfl
            have hta : Tame N a = true := tame_get N _ 0 a ha hg
            simp only [Args.get, Option.all_some, Option.isNone_none, true_and, Bool.or_eq_true, Bool.and_eq_true] at hc
            have hl : isLiteral a = false := by
              rcases hc with hc | hc
              · cases a <;> simp_all [isProps, isLiteral]
              · simpa using hc.1
            have hs : spot (.name "dict".toList) (.cons a .nil) = .found 0 (isProps a) := by
              simp only [spot, constructorName, hnv, if_false, Args.get, hl, Bool.false_eq_true]
            cases hpa : isProps a with
            | true =>
              rw [hpa] at hs
              have hset := ihs 0 (findKey (withKey x (keysKws kws))) a hg hpa
              obtain ⟨l', k', hm⟩ := eval_props N a hpa hta
              simp only [keys, hs, eval, hr, if_true, hset, evalArgs, List.set_cons_zero, hm, extend_setKey, hen1, hkl]
              rw [setKey_extend]
            | false =>
              rw [hpa] at hs
              have hnk : noKey kws = true := by simpa [hpa, hl] using hc
              have hfk := findKey_keys kws hnk
              have hfk' := (findKey_noKey kws).1 hnk
              simp only [keys, hs, eval, hr, Bool.false_eq_true, if_false, iha, evalArgs, setKey_extend, hen2]
              congr 1
              rw [keyOf_eval, keyOf_eval, hfk']
              cases x <;> simp [withKey, hfk, findKey_add]
      exact ⟨by simpa [setKey] using key none, fun v _ => by simpa using key (some v)⟩
    | fn =>
      have hnd : isProps (.call f args kws) ≠ true := by
        intro hp
        rw [isProps_call f args kws hp] at hr
        simp [role] at hr
      refine ⟨?_, fun v hp => absurd hp hnd⟩
      rw [hr] at hc
      cases hs : spot f args with
      | skip => simp only [keys, hs, withKey, eval, role_keys, hr, ihf, iha, ihk]
      | add i => simp [hs] at hc
      | found i p =>
        simp only [hs, Bool.or_eq_true] at hc
        obtain ⟨e, hg, hpe⟩ := spot_found f args i p hs
        cases p with
        | false => simp only [keys, hs, withKey, eval, role_keys, hr, ihf, iha, ihk, Bool.false_eq_true, if_false]
        | true =>
          have hnk : noKey kws = true := by simpa using hc
          have hfk := findKey_keys kws hnk
          have hset := ihs i none e hg hpe.symm
          have hge : (evalArgs N args)[i]? = some (eval N e) := by rw [evalArgs_get, hg]; rfl
          simp only [Option.map_none, setKey] at hset
          rw [set_same _ _ _ hge] at hset
          simp only [keys, hs, withKey, eval, role_keys, hr, ihf, ihk, if_true, hfk, dropKey_none _ hfk, hset]
theorem evalArgs_keys (N : Str → Bool) (args : Args) (h : TameArgs N args = true) :
    evalArgs N (keysArgs none none args) = evalArgs N args ∧
    ∀ i x e, args.get i = some e → isProps e = true →
      evalArgs N (keysArgs (some i) x args) = (evalArgs N args).set i (setKey (eval N e) (x.map (eval N))) := by
  match args with
  | .nil => exact ⟨by simp [keysArgs], by simp [Args.get]⟩
  | .cons a l =>
    simp only [TameArgs, Bool.and_eq_true] at h
    have ih := eval_keys N a h.1
    obtain ⟨ih1, ih2⟩ := evalArgs_keys N l h.2
    refine ⟨by simp [keysArgs, evalArgs, ih.1, ih1], ?_⟩
    intro i x e hg hp
    cases i with
    | zero =>
      simp only [Args.get, Option.some.injEq] at hg
      subst hg
      simp only [keysArgs, evalArgs, if_true, Option.bind_some, List.set_cons_zero]
      rw [keysArgs_none x none l, ih1]
      congr 1
      cases x with
      | none => simp [ih.1, setKey]
      | some v => simpa using ih.2 v hp
    | succ i =>
      simp only [Args.get] at hg
      have := ih2 i x e hg hp
      simp [keysArgs, evalArgs, ih.1, this]
theorem evalKws_keys (N : Str → Bool) (kws : Kws) (h : TameKws N kws = true) : evalKws N (keysKws kws) = evalKws N kws := by
  match kws with
  | .nil => simp [keysKws]
  | .cons k v l =>
    simp only [TameKws, Bool.and_eq_true] at h
    simp [keysKws, evalKws, (eval_keys N v h.1).1, evalKws_keys N l h.2]
theorem evalItems_keys (N : Str → Bool) (items : Items) (h : TameItems N items = true) :
    evalItems N (keysItems items) = evalItems N items := by
  match items with
  | .nil => simp [keysItems]
  | .spread v l =>
    simp only [TameItems, Bool.and_eq_true] at h
    simp [keysItems, evalItems, (eval_keys N v h.1).1, evalItems_keys N l h.2]
  | .cons k v l =>
    simp only [TameItems, Bool.and_eq_true] at h
    have ihk := (eval_keys N k h.1.1).1
    have ihv := (eval_keys N v h.1.2).1
    have ihl := evalItems_keys N l h.2
    cases k with
    | str s => simp [keysItems, keys, evalItems, ihv, ihl]
    | call g args kws =>
      obtain ⟨a', k', hc⟩ := keys_call none g args kws
      rw [hc] at ihk
      simp only [keysItems, hc, evalItems, ihv, ihl, ihk]
    | _ => simp only [keys] at ihk; simp only [keysItems, keys, evalItems, ihv, ihl, ihk]
end

/-! ## Specification: the keys are moved -/

/-- A call that needs no more rewriting: there is an argument at the place of the attributes (first, or second for `vdom`), which
is not a literal, and if it is a dict then the call has no argument `key=…`. -/
def movedCall (f : Expr) (args : Args) (kws : Kws) : Bool :=
  match constructorName f with
  | none => true
  | some n =>
    if n = "vdom".toList ∧ args.get 0 = none then true
    else
      match args.get (if n = "vdom".toList then 1 else 0) with
      | none => false
      | some e => !literal e && (!isProps e || noKey kws)

mutual
/-- Every call in the tree is like that. -/
def Moved : Expr → Bool
  | .joined l => MovedArgs l
  | .attr v _ => Moved v
  | .call f args kws => movedCall f args kws && Moved f && MovedArgs args && MovedKws kws
  | .dict items => MovedItems items
  | .other l => MovedArgs l
  | _ => true
/-- As `Moved`, for arguments. -/
def MovedArgs : Args → Bool
  | .nil => true
  | .cons e l => Moved e && MovedArgs l
/-- As `Moved`, for keyword arguments. -/
def MovedKws : Kws → Bool
  | .nil => true
  | .cons _ v l => Moved v && MovedKws l
/-- As `Moved`, for dict displays. -/
def MovedItems : Items → Bool
  | .nil => true
  | .cons k v l => Moved k && Moved v && MovedItems l
  | .spread v l => Moved v && MovedItems l
end

mutual
/-- A dict without an argument `key=…`, and without one in a dict it copies. -/
def clean : Expr → Bool
  | .call _ args kws => noKey kws && cleanHead args
  | _ => true
/-- The first argument. -/
def cleanHead : Args → Bool
  | .nil => true
  | .cons e _ => !isProps e || clean e
end

/-- A call with at most one `key`, which is not given again in `dict(key=…)` among the attributes. -/
def singleCall (f : Expr) (args : Args) (kws : Kws) : Bool :=
  oneKey kws && (noKey kws ||
    match constructorName f with
    | none => true
    | some n => (args.get (if n = "vdom".toList then 1 else 0)).all (fun e => !isProps e || clean e))

mutual
/-- Every call in the tree is like that. -/
def Single : Expr → Bool
  | .joined l => SingleArgs l
  | .attr v _ => Single v
  | .call f args kws => singleCall f args kws && Single f && SingleArgs args && SingleKws kws
  | .dict items => SingleItems items
  | .other l => SingleArgs l
  | _ => true
/-- As `Single`, for arguments. -/
def SingleArgs : Args → Bool
  | .nil => true
  | .cons e l => Single e && SingleArgs l
/-- As `Single`, for keyword arguments. -/
def SingleKws : Kws → Bool
  | .nil => true
  | .cons _ v l => Single v && SingleKws l
/-- As `Single`, for dict displays. -/
def SingleItems : Items → Bool
  | .nil => true
  | .cons k v l => Single k && Single v && SingleItems l
  | .spread v l => Single v && SingleItems l
end

/-! ## Lemmas -/

theorem movedCall_spot (f : Expr) (args : Args) (kws : Kws) : movedCall f args kws =
    match spot f args with
    | .skip => true
    | .add _ => false
    | .found _ p => !p || noKey kws := by
  unfold movedCall spot
  cases constructorName f with
  | none => rfl
  | some n =>
    by_cases hv : n = "vdom".toList
    · simp only [hv, true_and, if_true]
      cases h0 : args.get 0 with
      | none => simp
      | some a =>
        simp only [reduceCtorEq, if_false]
        cases args.get 1 with
        | none => rfl
        | some e => cases hl : isLiteral e <;> simp [hl]
    · simp only [hv, false_and, if_false]
      cases args.get 0 with
      | none => rfl
      | some e => cases hl : isLiteral e <;> simp [hl]

mutual
theorem moved_keys (e : Expr) (h : Moved e = true) : keys none e = e := by
  match e with
  | .str s => simp [keys]
  | .const n => simp [keys]
  | .name id => simp [keys]
  | .joined l => simp only [Moved] at h; simp [keys, movedArgs_keys l h]
  | .attr v a => simp only [Moved] at h; simp [keys, moved_keys v h]
  | .other l => simp only [Moved] at h; simp [keys, movedArgs_keys l h]
  | .dict items => simp only [Moved] at h; simp [keys, movedItems_keys items h]
  | .call f args kws =>
    simp only [Moved, Bool.and_eq_true] at h
    obtain ⟨⟨⟨hc, hf⟩, ha⟩, hk⟩ := h
    have ihf := moved_keys f hf
    have iha := movedArgs_keys args ha
    have ihk := movedKws_keys kws hk
    rw [movedCall_spot] at hc
    cases hs : spot f args with
    | skip => simp [keys, hs, ihf, iha, ihk, withKey]
    | add i => simp [hs] at hc
    | found i p =>
      cases p with
      | false => simp [keys, hs, ihf, iha, ihk, withKey]
      | true =>
        simp only [hs, Bool.not_true, Bool.false_or] at hc
        have hfk := (findKey_noKey kws).1 hc
        have hka : ∀ (l : Args) (i : Option Nat), keysArgs i none l = keysArgs none none l := by
          intro l
          induction l using Args.rec (motive_1 := fun _ => True) (motive_3 := fun _ => True) (motive_4 := fun _ => True) with
          | nil => intro i; simp [keysArgs]
          | cons e l _ ih => intro i; simp [keysArgs, ih]
          | _ => trivial
        simp [keys, hs, ihf, ihk, withKey, hfk, dropKey_none _ hfk, hka, iha]
theorem movedArgs_keys (l : Args) (h : MovedArgs l = true) : keysArgs none none l = l := by
  match l with
  | .nil => simp [keysArgs]
  | .cons e l =>
    simp only [MovedArgs, Bool.and_eq_true] at h
    simp [keysArgs, moved_keys e h.1, movedArgs_keys l h.2]
theorem movedKws_keys (l : Kws) (h : MovedKws l = true) : keysKws l = l := by
  match l with
  | .nil => simp [keysKws]
  | .cons k e l =>
    simp only [MovedKws, Bool.and_eq_true] at h
    simp [keysKws, moved_keys e h.1, movedKws_keys l h.2]
theorem movedItems_keys (l : Items) (h : MovedItems l = true) : keysItems l = l := by
  match l with
  | .nil => simp [keysItems]
  | .cons k e l =>
    simp only [MovedItems, Bool.and_eq_true] at h
    simp [keysItems, moved_keys k h.1.1, moved_keys e h.1.2, movedItems_keys l h.2]
  | .spread e l =>
    simp only [MovedItems, Bool.and_eq_true] at h
    simp [keysItems, moved_keys e h.1, movedItems_keys l h.2]
end

theorem spot_same (f : Expr) (args args' : Args) (g : Nat → Option Expr)
    (h : ∀ j, args'.get j = (args.get j).map (keys (g j))) : spot (keys none f) args' = spot f args := by
  unfold spot
  rw [constructorName_keys]
  cases constructorName f with
  | none => rfl
  | some n =>
    simp only [h 0, h 1]
    cases args.get 0 <;> cases args.get 1 <;> simp [isLiteral_keys, isProps_keys]

theorem spot_added (f : Expr) (args : Args) (i : Nat) (x : Option Expr) (h : spot f args = .add i) :
    spot (keys none f) ((keysArgs none none args).insert i (newDict x)) = .found i true := by
  have hd : isLiteral (newDict x) = false ∧ isProps (newDict x) = true := by cases x <;> simp [newDict, isLiteral, isProps]
  unfold spot at h ⊢
  rw [constructorName_keys]
  cases hn : constructorName f with
  | none => simp [hn] at h
  | some n =>
    simp only [hn] at h ⊢
    by_cases hv : n = "vdom".toList
    · simp only [if_pos hv] at h ⊢
      cases args with
      | nil => simp [Args.get] at h
      | cons a l =>
        have hi : i = 1 := by
          simp only [Args.get] at h
          split at h
          · simpa using h.symm
          · split at h
            · simpa using h.symm
            · simp at h
        subst hi
        have : (Args.insert (keysArgs none none l) 0 (newDict x)).get 0 = some (newDict x) := insert_get _ 0 _ (.inl rfl)
        simp only [keysArgs, Args.insert, Args.get, this, Option.bind_none, hd, Bool.false_eq_true, if_false]
    · simp only [if_neg hv] at h ⊢
      have hi : i = 0 := by
        split at h
        · simpa using h.symm
        · split at h
          · simpa using h.symm
          · simp at h
      subst hi
      have : ((keysArgs none none args).insert 0 (newDict x)).get 0 = some (newDict x) := insert_get _ 0 _ (.inl rfl)
      simp only [this, hd, Bool.false_eq_true, if_false]

theorem movedArgs_insert (l : Args) (i : Nat) (d : Expr) (h : MovedArgs l = true) (hd : Moved d = true) :
    MovedArgs (l.insert i d) = true := by
  induction i generalizing l with
  | zero => cases l <;> simp_all [Args.insert, MovedArgs]
  | succ i ih => cases l with
    | nil => simp [Args.insert, MovedArgs, hd]
    | cons e l => simp only [MovedArgs, Bool.and_eq_true] at h; simp [Args.insert, MovedArgs, h.1, ih l h.2]

theorem movedKws_with (x : Option Expr) (l : Kws) (h : MovedKws l = true) (hx : ∀ v, x = some v → Moved v = true) :
    MovedKws (withKey x l) = true := by
  cases x with
  | none => exact h
  | some v =>
    simp only [withKey]
    match l with
    | .nil => simp [Kws.addKey, MovedKws, hx v rfl]
    | .cons k w l =>
      simp only [MovedKws, Bool.and_eq_true] at h
      have := movedKws_with (some v) l h.2 hx
      simpa [Kws.addKey, MovedKws, h.1, withKey] using this

theorem movedKws_drop (l : Kws) (h : MovedKws l = true) : MovedKws (dropKey l) = true := by
  match l with
  | .nil => simp [dropKey, MovedKws]
  | .cons k w l =>
    simp only [MovedKws, Bool.and_eq_true] at h
    unfold dropKey
    split
    · exact h.2
    · simp [MovedKws, h.1, movedKws_drop l h.2]

theorem moved_find (l : Kws) (h : MovedKws l = true) (v : Expr) (hv : findKey l = some v) : Moved v = true := by
  match l with
  | .nil => simp [findKey] at hv
  | .cons k w l =>
    simp only [MovedKws, Bool.and_eq_true] at h
    unfold findKey at hv
    split at hv
    · simp only [Option.some.injEq] at hv; exact hv ▸ h.1
    · exact moved_find l h.2 v hv

theorem movedItems_add (l : Items) (v : Expr) (h : MovedItems l = true) (hv : Moved v = true) : MovedItems (l.addKey v) = true := by
  match l with
  | .nil => simp [Items.addKey, MovedItems, Moved, hv]
  | .cons k w l =>
    simp only [MovedItems, Bool.and_eq_true] at h
    simp [Items.addKey, MovedItems, h.1, movedItems_add l v h.2 hv]
  | .spread w l =>
    simp only [MovedItems, Bool.and_eq_true] at h
    simp [Items.addKey, MovedItems, h.1, movedItems_add l v h.2 hv]

theorem moved_newDict (x : Option Expr) (hx : ∀ v, x = some v → Moved v = true) : Moved (newDict x) = true := by
  cases x with
  | none => simp [newDict, Moved, MovedItems]
  | some v => simp [newDict, Moved, MovedItems, hx v rfl]

/-- What is left of the keywords has no key, if there was only one. -/
theorem noKey_left (x : Option Expr) (kws : Kws) (h1 : oneKey kws = true) (h : x = none ∨ noKey kws = true) :
    noKey (dropKey (withKey x (keysKws kws))) = true := by
  rw [findKey_noKey]
  rcases h with rfl | h
  · exact findKey_drop _ ((oneKey_keys kws).1.trans h1)
  · have hfk := findKey_keys kws h
    cases x with
    | none => simpa [withKey, dropKey_none _ hfk] using hfk
    | some v => simpa [withKey, dropKey_add_none _ v hfk] using hfk

theorem spot_place (f : Expr) (args : Args) (i : Nat) (p : Bool) (h : spot f args = .found i p) :
    ∃ n, constructorName f = some n ∧ i = if n = "vdom".toList then 1 else 0 := by
  unfold spot at h
  split at h
  · simp at h
  next n hn =>
    refine ⟨n, hn, ?_⟩
    split at h
    next hv =>
      rw [if_pos hv]
      split at h
      · simp at h
      · split at h
        · simp at h
        · split at h
          · simp at h
          · simp only [Spot.found.injEq] at h; exact h.1.symm
    next hv =>
      rw [if_neg hv]
      split at h
      · simp at h
      · split at h
        · simp at h
        · simp only [Spot.found.injEq] at h; exact h.1.symm

mutual
theorem single_moved (e : Expr) (h : Single e = true) (x : Option Expr) (hx : x = none ∨ (isProps e = true ∧ clean e = true))
    (hm : ∀ v, x = some v → Moved v = true) : Moved (keys x e) = true := by
  match e with
  | .str s => simp [keys, Moved]
  | .const n => simp [keys, Moved]
  | .name id => simp [keys, Moved]
  | .joined l => simp only [Single] at h; simp [keys, Moved, singleArgs_moved l h none none (by simp) (by simp)]
  | .attr v a => simp only [Single] at h; simp [keys, Moved, single_moved v h none (.inl rfl) (by simp)]
  | .other l => simp only [Single] at h; simp [keys, Moved, singleArgs_moved l h none none (by simp) (by simp)]
  | .dict items =>
    simp only [Single] at h
    have ih := singleItems_moved items h
    cases x with
    | none => simp [keys, Moved, ih]
    | some v => simp [keys, Moved, movedItems_add _ v ih (hm v rfl)]
  | .call f args kws =>
    simp only [Single, Bool.and_eq_true] at h
    obtain ⟨⟨⟨hc, hf⟩, ha⟩, hk⟩ := h
    have ihf := single_moved f hf none (.inl rfl) (by simp)
    have iha := singleArgs_moved args ha
    have ihk := singleKws_moved kws hk
    have ihw := movedKws_with x _ ihk hm
    simp only [singleCall, Bool.and_eq_true, Bool.or_eq_true] at hc
    obtain ⟨h1, hc⟩ := hc
    have hx' : x = none ∨ noKey kws = true := by
      rcases hx with hx | hx
      · exact .inl hx
      · right; simp only [clean, Bool.and_eq_true] at hx; exact hx.2.1
    cases hs : spot f args with
    | skip =>
      have hs' := spot_same f args (keysArgs none none args) (fun _ => none) (fun j => by simp [keysArgs_get])
      simp only [keys, hs, Moved, movedCall_spot, hs', ihf, iha none none (by simp) (by simp), ihw, Bool.and_true]
    | add i =>
      have hs' := spot_added f args i (findKey (withKey x (keysKws kws))) hs
      simp only [keys, hs, Moved, movedCall_spot, hs', ihf, noKey_left x kws h1 hx', movedKws_drop _ ihw, Bool.and_true, Bool.not_true, Bool.false_or]
      exact movedArgs_insert _ _ _ (iha none none (by simp) (by simp)) (moved_newDict _ (fun v hv => moved_find _ ihw v hv))
    | found i p =>
      cases p with
      | false =>
        have hs' := spot_same f args (keysArgs none none args) (fun _ => none) (fun j => by simp [keysArgs_get])
        simp only [keys, hs, Moved, Bool.false_eq_true, if_false, movedCall_spot, hs', ihf, iha none none (by simp) (by simp), ihw,
          Bool.and_true, Bool.not_false, Bool.true_or]
      | true =>
        have hs' := spot_same f args (keysArgs (some i) (findKey (withKey x (keysKws kws))) args)
          (fun j => if some i = some j then findKey (withKey x (keysKws kws)) else none) (fun j => by simp [keysArgs_get])
        simp only [keys, hs, Moved, if_true, movedCall_spot, hs', ihf, noKey_left x kws h1 hx', movedKws_drop _ ihw, Bool.and_true,
          Bool.not_true, Bool.false_or]
        obtain ⟨e, hg, hp⟩ := spot_found f args i true hs
        obtain ⟨n, hn, hi⟩ := spot_place f args i true hs
        refine iha (some i) _ ?_ (fun v hv => moved_find _ ihw v hv)
        intro j e' hj hg' y hy
        simp only [Option.some.injEq] at hj
        subst hj
        rw [hg] at hg'
        simp only [Option.some.injEq] at hg'
        subst hg'
        refine ⟨hp.symm, ?_⟩
        rcases hx with rfl | ⟨hxp, hxc⟩
        · rcases hc with hc | hc
          · simp [withKey, findKey_keys kws hc] at hy
          · simp only [hn, ← hi, hg, Option.all_some, ← hp] at hc
            simpa using hc
        · simp only [clean, Bool.and_eq_true] at hxc
          have hf := isProps_call f args kws hxp
          subst hf
          simp only [constructorName, Option.some.injEq] at hn
          subst hn
          have hi0 : i = 0 := by rw [hi]; decide
          subst hi0
          cases args with
          | nil => simp [Args.get] at hg
          | cons a l =>
            simp only [Args.get, Option.some.injEq] at hg
            subst hg
            have := hxc.2
            simpa [cleanHead, ← hp] using this
theorem singleArgs_moved (l : Args) (h : SingleArgs l = true) (i : Option Nat) (x : Option Expr)
    (hx : ∀ j e, i = some j → l.get j = some e → ∀ y, x = some y → isProps e = true ∧ clean e = true)
    (hm : ∀ v, x = some v → Moved v = true) : MovedArgs (keysArgs i x l) = true := by
  match l with
  | .nil => simp [keysArgs, MovedArgs]
  | .cons e l =>
    simp only [SingleArgs, Bool.and_eq_true] at h
    simp only [keysArgs, MovedArgs, Bool.and_eq_true]
    constructor
    · refine single_moved e h.1 _ ?_ ?_
      · by_cases hi : i = some 0
        · rw [if_pos hi]
          cases x with
          | none => simp
          | some y => right; exact hx 0 e hi rfl y rfl
        · simp [hi]
      · intro v hv; split at hv
        · exact hm v hv
        · simp at hv
    · refine singleArgs_moved l h.2 _ x ?_ hm
      intro j e' hj hg
      cases i with
      | none => simp at hj
      | some n =>
        cases n with
        | zero => simp at hj
        | succ n =>
          simp at hj
          exact hx (n + 1) e' rfl (by simpa [Args.get, hj] using hg)
theorem singleKws_moved (l : Kws) (h : SingleKws l = true) : MovedKws (keysKws l) = true := by
  match l with
  | .nil => simp [keysKws, MovedKws]
  | .cons k e l =>
    simp only [SingleKws, Bool.and_eq_true] at h
    simp [keysKws, MovedKws, single_moved e h.1 none (.inl rfl) (by simp), singleKws_moved l h.2]
theorem singleItems_moved (l : Items) (h : SingleItems l = true) : MovedItems (keysItems l) = true := by
  match l with
  | .nil => simp [keysItems, MovedItems]
  | .cons k e l =>
    simp only [SingleItems, Bool.and_eq_true] at h
    simp [keysItems, MovedItems, single_moved k h.1.1 none (.inl rfl) (by simp), single_moved e h.1.2 none (.inl rfl) (by simp),
      singleItems_moved l h.2]
  | .spread e l =>
    simp only [SingleItems, Bool.and_eq_true] at h
    simp [keysItems, MovedItems, single_moved e h.1 none (.inl rfl) (by simp), singleItems_moved l h.2]
end

/-! ## C79 -/

/-- C79 (partial): the rewritten program builds the same elements with the same attributes, keys, children and other arguments.
Missing: programs that call other functions, or `dict`, in the ways excluded by `Tame`; spreads are taken not to hold a
`"key"`. -/
theorem C79_meaning_partial (N : Str → Bool) (e : Expr) (h : Tame N e = true) : eval N (keys none e) = eval N e :=
  (eval_keys N e h).1

/-- C79 (partial): afterwards every element constructor has its attributes in place, and if they are a dict then the key is in it
and not an argument. Missing: calls where the key is given twice. -/
theorem C79_moved_partial (e : Expr) (h : Single e = true) : Moved (keys none e) = true :=
  single_moved e h none (.inl rfl) (by simp)

/-- C79 (partial): so running the command again changes nothing. -/
theorem C79_second_run_partial (e : Expr) (h : Single e = true) : keys none (keys none e) = keys none e :=
  moved_keys _ (C79_moved_partial e h)

/-- A call `html.<name>`. -/
def htmlName (n : String) : Expr := .attr (.name "html".toList) n.toList

/-- `html.div({"a": 1}, html.p("x", key="y"), html.p(key=f(z)), attrs(html.b(dict(c), key=2)), key="k")` -/
def sample : Expr :=
  .call (htmlName "div") (.cons (.dict (.cons (.str "a".toList) (.const 1) .nil))
    (.cons (.call (htmlName "p") (.cons (.str "x".toList) .nil) (.cons (some keyStr) (.str "y".toList) .nil))
    (.cons (.call (htmlName "p") .nil (.cons (some keyStr) (.call (.name "f".toList) (.cons (.name "z".toList) .nil) .nil) .nil))
    (.cons (.call (.name "attrs".toList) (.cons (.call (htmlName "b") (.cons (.call (.name "dict".toList)
      (.cons (.name "c".toList) .nil) .nil) .nil) (.cons (some keyStr) (.const 2) .nil)) .nil) .nil) .nil))))
    (.cons (some keyStr) (.str "k".toList) .nil)

example : Tame (fun _ => false) sample = true ∧ Single sample = true ∧ keys none sample =
  .call (htmlName "div") (.cons (.dict (.cons (.str "a".toList) (.const 1) (.cons (.str keyStr) (.str "k".toList) .nil)))
    (.cons (.call (htmlName "p") (.cons (.dict (.cons (.str keyStr) (.str "y".toList) .nil)) (.cons (.str "x".toList) .nil)) .nil)
    (.cons (.call (htmlName "p") (.cons (.dict (.cons (.str keyStr) (.call (.name "f".toList) (.cons (.name "z".toList) .nil) .nil)
      .nil)) .nil) .nil)
    (.cons (.call (.name "attrs".toList) (.cons (.call (htmlName "b") (.cons (.call (.name "dict".toList)
      (.cons (.name "c".toList) .nil) (.cons (some keyStr) (.const 2) .nil)) .nil) .nil) .nil) .nil) .nil)))) .nil := by
  refine ⟨by decide +kernel, by decide +kernel, rfl⟩

/-- C79 is violated: other functions called inside a rewritten element are given an empty dict. `html.div({}, now(), key="k")`
becomes `html.div({"key": "k"}, now({}))`. -/
theorem C79_others_violated : keys none
    (.call (htmlName "div") (.cons (.dict .nil) (.cons (.call (.name "now".toList) .nil .nil) .nil))
      (.cons (some keyStr) (.str "k".toList) .nil)) =
    .call (htmlName "div") (.cons (.dict (.cons (.str keyStr) (.str "k".toList) .nil))
      (.cons (.call (.name "now".toList) (.cons (.dict .nil) .nil) .nil) .nil)) .nil := rfl

/-- C79 is violated: any function that takes `key` loses it: `sorted("abc", key=f)` becomes `sorted({"key": f}, "abc")`. -/
theorem C79_sorted_violated : keys none
    (.call (.name "sorted".toList) (.cons (.str "abc".toList) .nil) (.cons (some keyStr) (.name "f".toList) .nil)) =
    .call (.name "sorted".toList) (.cons (.dict (.cons (.str keyStr) (.name "f".toList) .nil)) (.cons (.str "abc".toList) .nil))
      .nil := rfl

/-- C79 is violated: a key given twice, `html.div(dict(a, key=1), key=2)`, gives a call with `key` repeated,
`html.div(dict(a, key=1, key=2))`, which is a syntax error. -/
theorem C79_twice_violated : keys none
    (.call (htmlName "div") (.cons (.call (.name "dict".toList) (.cons (.name "a".toList) .nil)
      (.cons (some keyStr) (.const 1) .nil)) .nil) (.cons (some keyStr) (.const 2) .nil)) =
    .call (htmlName "div") (.cons (.call (.name "dict".toList) (.cons (.name "a".toList) .nil)
      (.cons (some keyStr) (.const 1) (.cons (some keyStr) (.const 2) .nil))) .nil) .nil := rfl

/-! ### Cases that meet the hypotheses -/

example := C79_meaning_partial (fun _ => false) sample (by decide +kernel)
example := C79_moved_partial sample (by decide +kernel)

end Verif.Console
