import Verif.Pyscript.Wheel
/-! # C82: the page loads this ReactPy -/
namespace Verif.Pyscript.Wheel
open Verif.Markup (splitOn joinWith joinWith_cons splitOn_ne_nil splitOn_no_sep splitOn_append_sep splitOn_self splitOn_joinWith)

/-! ## Specification -/

/-- A version with every separator written `-`, in lower case. -/
def sep (c : Char) : Char := if c = '-' ∨ c = '_' ∨ c = '.' then '-' else c.toLower

/-- Without a `-` right after another. -/
def single : Str → Str
  | a :: b :: l => if a = '-' ∧ b = '-' then single (b :: l) else a :: single (b :: l)
  | l => l

/-- The same version, up to case and separators. -/
def SameVersion (a b : Str) : Prop := single (a.map sep) = single (b.map sep)

/-- The name of a wheel of this version: `reactpy`, the version and at least three tags. -/
def WheelOf (version n : Str) : Prop :=
  ∃ v a b rest, n = "reactpy-".toList ++ v ++ '-' :: (a ++ '-' :: (b ++ '-' :: rest)) ++ ".whl".toList ∧ '-' ∉ v ∧ SameVersion v version

/-- What may go wrong while wheels are put into the directory: any number of attempts, each stopped at any point. `made` are the wheels
that were built. -/
inductive History (start : Dir) : Dir → List (Str × Str) → Prop where
  | start : History start start []
  | copy (d made name same chunks mtime k) : History start d made →
      History start (acts d ((copyOps d name same chunks mtime).take k)) ((name, chunks.flatten) :: made)
  | rebuild (d made name chunks k) : History start d made →
      History start (acts d ((rebuildOps name chunks).take k)) ((name, chunks.flatten) :: made)

/-- Reading a text of comma separated values: where in a field we are. -/
inductive Where where
  | start
  | plain
  | quoted
  | after

/-- A reader of comma separated values; `cur` is the field so far and `row` the fields before. -/
def readCsv : Where → Str → List Str → Str → List (List Str)
  | .start, cur, row, [] => if row = [] ∧ cur = [] then [] else [row ++ [cur]]
  | _, cur, row, [] => [row ++ [cur]]
  | .start, cur, row, c :: l =>
    if c = '"' then readCsv .quoted cur row l
    else if c = ',' then readCsv .start [] (row ++ [cur]) l
    else if c = '\n' then (row ++ [cur]) :: readCsv .start [] [] l
    else readCsv .plain (cur ++ [c]) row l
  | .plain, cur, row, c :: l =>
    if c = ',' then readCsv .start [] (row ++ [cur]) l
    else if c = '\n' then (row ++ [cur]) :: readCsv .start [] [] l
    else readCsv .plain (cur ++ [c]) row l
  | .quoted, cur, row, c :: l =>
    if c = '"' then readCsv .after cur row l else readCsv .quoted (cur ++ [c]) row l
  | .after, cur, row, c :: l =>
    if c = '"' then readCsv .quoted (cur ++ ['"']) row l
    else if c = ',' then readCsv .start [] (row ++ [cur]) l
    else if c = '\n' then (row ++ [cur]) :: readCsv .start [] [] l
    else readCsv .plain (cur ++ [c]) row l

/-! ## The directory -/

theorem get_erase (d : Dir) (n m : Str) : get (erase d n) m = if m = n then none else get d m := by
  unfold get erase
  by_cases h : m = n
  · rw [if_pos h, List.find?_eq_none.mpr]
    · rfl
    · intro p hp
      simp only [List.mem_filter, decide_eq_true_eq, ne_eq] at hp ⊢
      exact fun hx => hp.2 (hx.trans h)
  · rw [if_neg h]
    congr 1
    induction d with
    | nil => rfl
    | cons p d ih =>
      rw [List.filter_cons]
      by_cases hp : p.1 = n
      · simp only [hp, ne_eq, not_true, decide_false]
        rw [List.find?_cons_of_neg (by simp [hp, Ne.symm h])]
        exact ih
      · simp only [ne_eq, hp, not_false_eq_true, decide_true, if_true]
        rw [List.find?_cons, List.find?_cons, ih]

theorem get_put (d : Dir) (n m : Str) (f : File) : get (put d n f) m = if m = n then some f else get d m := by
  by_cases h : m = n
  · rw [if_pos h]; unfold get put; simp [h]
  · have : get (put d n f) m = get (erase d n) m := by
      unfold get put; rw [List.find?_cons_of_neg (by simp [Ne.symm h])]
    rw [this, get_erase, if_neg h, if_neg h]

/-! ## Names -/

theorem toLower_dash (c : Char) (h : c ≠ '-') : c.toLower ≠ '-' := by
  unfold Char.toLower
  split
  next hc =>
    intro he
    have hv := congrArg Char.val he
    have h1 : (c.val + 32).toNat = 45 := by simpa using congrArg UInt32.toNat hv
    have h2 := hc.1; have h3 := hc.2
    have h4 : 65 ≤ c.val.toNat := by simpa [UInt32.le_iff_toNat_le] using h2
    have h5 : c.val.toNat ≤ 90 := by simpa [UInt32.le_iff_toNat_le] using h3
    rw [UInt32.toNat_add] at h1
    have : (32 : UInt32).toNat = 32 := rfl
    omega
  · exact h

theorem single_ne (x : Char) (m : Str) (h : x ≠ '-') : single (x :: m) = x :: single m := by
  cases m with
  | nil => rfl
  | cons b m => rw [single, if_neg (fun hx => h hx.1)]

theorem single_dash (m : Str) : single ('-' :: m) = '-' :: (single ('-' :: m)).tail := by
  induction m with
  | nil => rfl
  | cons b m ih =>
    rw [single]
    split
    next hb => rw [hb.2]; exact ih
    · rfl

theorem normal_eq (v : Str) : ∀ was, normalizePart was v = if was then (single ('-' :: v.map sep)).tail else single (v.map sep) := by
  induction v with
  | nil => intro was; cases was <;> rfl
  | cons c v ih =>
    intro was
    unfold normalizePart
    by_cases hc : c = '-' ∨ c = '_' ∨ c = '.'
    · have hs : sep c = '-' := by unfold sep; rw [if_pos hc]
      rw [if_pos hc, List.map_cons, hs, ih true]
      simp only [if_true]
      cases was with
      | true => simp only [if_true]; rw [single, if_pos ⟨rfl, rfl⟩]
      | false => simp only [Bool.false_eq_true, if_false]; rw [← single_dash]
    · have hs : sep c = c.toLower := by unfold sep; rw [if_neg hc]
      have hne : c.toLower ≠ '-' := toLower_dash c (fun hx => hc (Or.inl hx))
      rw [if_neg hc, List.map_cons, hs, ih false]
      simp only [Bool.false_eq_true, if_false]
      cases was with
      | true => simp only [if_true]; rw [single, if_neg (fun hx => hne hx.2), single_ne _ _ hne]; rfl
      | false => simp only [Bool.false_eq_true, if_false]; rw [single_ne _ _ hne]

theorem same_iff (a b : Str) : normalizePart false a = normalizePart false b ↔ SameVersion a b := by
  rw [normal_eq, normal_eq]; rfl

theorem split_append (s : Char) (a b : Str) : splitOn s (a ++ s :: b) = splitOn s a ++ splitOn s b := by
  induction a with
  | nil => simp [splitOn]
  | cons c a ih =>
    simp only [List.cons_append]
    by_cases h : c = s
    · rw [splitOn, if_pos h, ih, splitOn, if_pos h]; rfl
    · rw [splitOn, if_neg h, ih, splitOn, if_neg h]
      cases hs : splitOn s a with
      | nil => exact absurd hs (splitOn_ne_nil s a)
      | cons w ws => rfl

theorem join_split (s : Char) (x : Str) : joinWith s (splitOn s x) = x := by
  induction x with
  | nil => rfl
  | cons c x ih =>
    unfold splitOn
    split
    next hc => rw [joinWith_cons _ _ (splitOn_ne_nil s x), ih, hc]; rfl
    · cases hs : splitOn s x with
      | nil => exact absurd hs (splitOn_ne_nil s x)
      | cons w ws =>
        rw [hs] at ih
        cases ws with
        | nil => simp only [joinWith] at ih ⊢; rw [ih]
        | cons v vs => simp only [joinWith] at ih ⊢; rw [List.cons_append, ih]

theorem whl_len : ".whl".toList.length = 4 := by decide +kernel
theorem rp_len : "reactpy-".toList.length = 8 := by decide +kernel

theorem removeWhl_append (p : Str) : removeWhl (p ++ ".whl".toList) = p := by
  unfold removeWhl
  have : ".whl".toList.isSuffixOf (p ++ ".whl".toList) = true := by
    rw [List.isSuffixOf_iff_suffix]; exact List.suffix_append _ _
  rw [if_pos this, List.length_append, whl_len, Nat.add_sub_cancel, List.take_left]

theorem globbed_iff (n : Str) : globbed n = true ↔ ∃ m, n = "reactpy-".toList ++ m ++ ".whl".toList := by
  unfold globbed
  simp only [Bool.and_eq_true, List.isPrefixOf_iff_prefix, List.isSuffixOf_iff_suffix, decide_eq_true_eq]
  constructor
  · rintro ⟨⟨⟨x, hx⟩, ⟨y, hy⟩⟩, hl⟩
    have hy8 : 8 ≤ y.length := by
      have := congrArg List.length hy
      rw [List.length_append, whl_len] at this; omega
    refine ⟨y.drop 8, ?_⟩
    have h1 : y.take 8 = "reactpy-".toList := by
      have h2 : n.take 8 = "reactpy-".toList := by rw [← hx, ← rp_len, List.take_left]
      rw [← hy, List.take_append_of_le_length hy8] at h2
      exact h2
    rw [← h1, List.take_append_drop, hy]
  · rintro ⟨m, rfl⟩
    refine ⟨⟨⟨m ++ ".whl".toList, by rw [List.append_assoc]⟩, ⟨_, rfl⟩⟩, ?_⟩
    rw [List.length_append, List.length_append, whl_len, rp_len]; omega

theorem split_react (m : Str) : splitOn '-' ("reactpy-".toList ++ m) = "reactpy".toList :: splitOn '-' m := by
  have e : "reactpy-".toList = "reactpy".toList ++ ['-'] := by decide +kernel
  have e2 : splitOn '-' "reactpy".toList = ["reactpy".toList] := by decide +kernel
  rw [e, List.append_assoc, List.singleton_append, split_append, e2]; rfl

theorem wheelOf_iff (version n : Str) : (globbed n && matchesVersion version n) = true ↔ WheelOf version n := by
  have er : ("reactpy".toList.map fun c => if c = '_' then '-' else c).map Char.toLower = "reactpy".toList := by decide +kernel
  rw [Bool.and_eq_true, globbed_iff]
  constructor
  · rintro ⟨⟨m, rfl⟩, hm⟩
    unfold matchesVersion at hm
    simp only [Bool.and_eq_true, decide_eq_true_eq] at hm
    rw [removeWhl_append, split_react] at hm
    obtain ⟨⟨hl, _⟩, hv⟩ := hm
    have hj := join_split '-' m
    have hns := splitOn_no_sep '-' m
    match hs : splitOn '-' m with
    | [] => rw [hs] at hl; simp at hl
    | [_] => rw [hs] at hl; simp at hl
    | [_, _] => rw [hs] at hl; simp at hl
    | [_, _, _] => rw [hs] at hl; simp at hl
    | v :: a :: b :: c :: rest =>
      rw [hs] at hj hv hns
      refine ⟨v, a, b, joinWith '-' (c :: rest), ?_, hns v (by simp), (same_iff _ _).mp hv⟩
      rw [← hj]
      simp only [joinWith, List.append_assoc, List.cons_append]
  · rintro ⟨v, a, b, rest, hn, hv, hs⟩
    have hn' : n = "reactpy-".toList ++ (v ++ '-' :: (a ++ '-' :: (b ++ '-' :: rest))) ++ ".whl".toList := by
      rw [hn]; simp only [List.append_assoc]
    refine ⟨⟨_, hn'⟩, ?_⟩
    unfold matchesVersion
    simp only [Bool.and_eq_true, decide_eq_true_eq]
    rw [hn', removeWhl_append, split_react, split_append, split_append, split_append, splitOn_self _ _ hv]
    have h1 := List.length_pos_iff.mpr (splitOn_ne_nil '-' a)
    have h2 := List.length_pos_iff.mpr (splitOn_ne_nil '-' b)
    have h3 := List.length_pos_iff.mpr (splitOn_ne_nil '-' rest)
    refine ⟨⟨?_, er⟩, (same_iff _ _).mpr hs⟩
    simp only [List.length_cons, List.length_append, List.cons_append, List.nil_append]
    omega

theorem before_total (a b : Str) : before a b = true ∨ before b a = true := by
  induction a generalizing b with
  | nil => left; simp [before]
  | cons c a ih =>
    cases b with
    | nil => right; simp [before]
    | cons d b =>
      unfold before
      by_cases h : c = d
      · rw [if_pos h, if_pos h.symm]; exact ih b
      · rw [if_neg h, if_neg (Ne.symm h)]
        have : c.toNat ≠ d.toNat := fun hx => h (Char.toNat_inj.mp hx)
        simp only [decide_eq_true_eq]; omega

theorem before_trans (a b c : Str) (h1 : before a b = true) (h2 : before b c = true) : before a c = true := by
  induction a generalizing b c with
  | nil => simp [before]
  | cons x a ih =>
    cases b with
    | nil => simp [before] at h1
    | cons y b =>
      cases c with
      | nil => simp [before] at h2
      | cons z c =>
        unfold before at h1 h2 ⊢
        by_cases hxy : x = y
        · rw [if_pos hxy] at h1
          subst hxy
          by_cases hxz : x = z
          · rw [if_pos hxz] at h2 ⊢; exact ih b c h1 h2
          · rw [if_neg hxz] at h2 ⊢; exact h2
        · rw [if_neg hxy, decide_eq_true_eq] at h1
          by_cases hyz : y = z
          · subst hyz; rw [if_neg hxy]; exact decide_eq_true h1
          · rw [if_neg hyz, decide_eq_true_eq] at h2
            have : x ≠ z := fun hx => by rw [hx] at h1; omega
            rw [if_neg this]; exact decide_eq_true (by omega)

theorem least_none (l : List Str) : least l = none ↔ l = [] := by
  cases l with
  | nil => simp [least]
  | cons n l =>
    simp only [least]
    cases least l with
    | none => simp
    | some m => simp only; split <;> simp

theorem least_some (l : List Str) (n : Str) (h : least l = some n) : n ∈ l ∧ ∀ m ∈ l, before n m = true := by
  induction l generalizing n with
  | nil => simp [least] at h
  | cons a l ih =>
    simp only [least] at h
    have refl : ∀ x, before x x = true := fun x => (before_total x x).elim id id
    cases hl : least l with
    | none =>
      rw [hl] at h
      simp only [Option.some.injEq] at h
      rw [least_none] at hl
      subst hl; subst h
      exact ⟨by simp, fun m hm => by simp at hm; rw [hm]; exact refl _⟩
    | some b =>
      rw [hl] at h
      obtain ⟨hb, hmin⟩ := ih b hl
      simp only at h
      split at h
      next hab =>
        simp only [Option.some.injEq] at h; subst h
        refine ⟨by simp, fun m hm => ?_⟩
        rcases List.mem_cons.mp hm with rfl | hm
        · exact refl _
        · exact before_trans _ _ _ hab (hmin m hm)
      next hab =>
        simp only [Option.some.injEq] at h; subst h
        refine ⟨List.mem_cons_of_mem _ hb, fun m hm => ?_⟩
        rcases List.mem_cons.mp hm with rfl | hm
        · exact (before_total m b).resolve_left hab
        · exact hmin m hm

theorem mem_names (d : Dir) (n : Str) : n ∈ d.map (·.1) ↔ ∃ f, get d n = some f := by
  unfold get
  constructor
  · intro h
    obtain ⟨p, hp, rfl⟩ := List.mem_map.mp h
    cases hf : d.find? fun q => q.1 = p.1 with
    | none => exact absurd (by simp) (List.find?_eq_none.mp hf p hp)
    | some q => exact ⟨q.2, rfl⟩
  · rintro ⟨f, h⟩
    rw [Option.map_eq_some_iff] at h
    obtain ⟨q, hq, _⟩ := h
    have := List.find?_some hq
    simp only [decide_eq_true_eq] at this
    exact List.mem_map.mpr ⟨q, List.mem_of_find?_eq_some hq, this⟩

theorem find_some (version : Str) (d : Dir) (n : Str) (h : find version d = some n) :
    (∃ f, get d n = some f) ∧ WheelOf version n ∧ ∀ m f, get d m = some f → WheelOf version m → before n m = true := by
  obtain ⟨hm, hmin⟩ := least_some _ _ h
  rw [List.mem_filter, mem_names, wheelOf_iff] at hm
  refine ⟨hm.1, hm.2, fun m f hf hw => hmin m ?_⟩
  rw [List.mem_filter, mem_names, wheelOf_iff]
  exact ⟨⟨f, hf⟩, hw⟩

theorem find_none (version : Str) (d : Dir) : find version d = none ↔ ∀ n f, get d n = some f → ¬ WheelOf version n := by
  unfold find
  rw [least_none, List.filter_eq_nil_iff]
  constructor
  · intro h n f hf hw
    exact h n ((mem_names d n).mpr ⟨f, hf⟩) ((wheelOf_iff version n).mpr hw)
  · intro h n hn hw
    obtain ⟨f, hf⟩ := (mem_names d n).mp hn
    exact h n f hf ((wheelOf_iff version n).mp hw)

/-! ## Acts -/

theorem tmp_not (x : Str) : globbed (x ++ ".tmp".toList) = false := by
  rw [← Bool.not_eq_true, globbed_iff]
  rintro ⟨m, h⟩
  have h2 := congrArg (fun l => l.reverse.take 1) h
  simp only [List.reverse_append] at h2
  have e1 : ".tmp".toList.reverse = 'p' :: "mt.".toList := by decide +kernel
  have e2 : ".whl".toList.reverse = 'l' :: "hw.".toList := by decide +kernel
  rw [e1, e2] at h2
  simp at h2

/-- An act that does not bring anything to a wheel's name. -/
def Quiet : Op → Prop
  | .unlink _ => True
  | .create n => globbed n = false
  | .append n _ => globbed n = false
  | .stamp n _ => globbed n = false
  | .rename _ b => globbed b = false

theorem quiet_get (d : Dir) (o : Op) (h : Quiet o) (n : Str) (f : File) (hn : globbed n = true) (hf : get (act d o) n = some f) :
    get d n = some f := by
  have hput : ∀ (d' : Dir) m g, globbed m = false → get (put d' m g) n = some f → get d' n = some f := by
    intro d' m g hm hg
    rw [get_put] at hg
    split at hg
    next he => rw [he, hm] at hn; simp at hn
    · exact hg
  have herase : ∀ (d' : Dir) m, get (erase d' m) n = some f → get d' n = some f := by
    intro d' m hg
    rw [get_erase] at hg
    split at hg
    · simp at hg
    · exact hg
  cases o with
  | unlink m => exact herase _ _ hf
  | create m => exact hput _ _ _ h hf
  | append m c =>
    simp only [act] at hf
    split at hf
    · exact hput _ _ _ h hf
    · exact hf
  | stamp m t =>
    simp only [act] at hf
    split at hf
    · exact hput _ _ _ h hf
    · exact hf
  | rename a b =>
    simp only [act] at hf
    split at hf
    · exact herase _ _ (hput _ _ _ h hf)
    · exact hf

theorem quiet_acts (l : List Op) (d : Dir) (h : ∀ o ∈ l, Quiet o) (n : Str) (f : File) (hn : globbed n = true)
    (hf : get (acts d l) n = some f) : get d n = some f := by
  induction l generalizing d with
  | nil => exact hf
  | cons o l ih =>
    exact quiet_get d o (h o (by simp)) n f hn (ih (act d o) (fun o' ho => h o' (by simp [ho])) hf)

theorem acts_append (d : Dir) (a b : List Op) : acts d (a ++ b) = acts (acts d a) b := by simp [acts]

theorem append_chunks (t : Str) (chunks : List Str) : ∀ (d : Dir) (f : File), get d t = some f →
    get (acts d (chunks.map (Op.append t))) t = some { f with data := f.data ++ chunks.flatten } := by
  induction chunks with
  | nil => intro d f h; simp [acts, h]
  | cons c chunks ih =>
    intro d f h
    have h1 : acts d ((c :: chunks).map (Op.append t)) = acts (put d t { f with data := f.data ++ c }) (chunks.map (Op.append t)) := by
      simp [acts, act, h]
    rw [h1, ih _ _ (by rw [get_put, if_pos rfl])]
    simp

/-- Writing a new file. -/
theorem written (t : Str) (chunks : List Str) (d : Dir) :
    get (acts d (Op.create t :: chunks.map (Op.append t))) t = some ⟨chunks.flatten, 0⟩ := by
  have := append_chunks t chunks (act d (.create t)) ⟨[], 0⟩ (by simp [act, get_put])
  simpa [acts] using this

/-- Acts on one name leave the others. -/
theorem written_other (t : Str) (chunks : List Str) (n : Str) (h : n ≠ t) : ∀ (d : Dir),
    get (acts d (chunks.map (Op.append t))) n = get d n := by
  induction chunks with
  | nil => intro d; rfl
  | cons c chunks ih =>
    intro d
    have h1 : acts d ((c :: chunks).map (Op.append t)) = acts (act d (.append t c)) (chunks.map (Op.append t)) := rfl
    rw [h1, ih]
    simp only [act]
    split
    · rw [get_put, if_neg h]
    · rfl

/-! ## Copying and rebuilding -/

/-- The acts of a copy before the last one. -/
def copyHead (d : Dir) (name : Str) (chunks : List Str) (mtime : Nat) : List Op :=
  (((d.map (·.1)).filter fun n => globbed n && decide (n ≠ name)).map Op.unlink) ++
    (Op.create (tmpOf name) :: chunks.map (Op.append (tmpOf name)) ++ [Op.stamp (tmpOf name) mtime])

theorem copyOps_false (d : Dir) (name : Str) (chunks : List Str) (mtime : Nat) :
    copyOps d name false chunks mtime = copyHead d name chunks mtime ++ [Op.rename (tmpOf name) name] := by
  unfold copyOps copyHead
  simp

theorem copyHead_quiet (d : Dir) (name : Str) (chunks : List Str) (mtime : Nat) : ∀ o ∈ copyHead d name chunks mtime, Quiet o := by
  intro o ho
  have ht : globbed (tmpOf name) = false := tmp_not name
  simp only [copyHead, List.mem_append, List.mem_map, List.mem_cons, List.not_mem_nil, or_false] at ho
  rcases ho with ⟨n, _, rfl⟩ | (rfl | ⟨c, _, rfl⟩) | rfl
  · trivial
  · exact ht
  · exact ht
  · exact ht

theorem copyHead_tmp (d : Dir) (name : Str) (chunks : List Str) (mtime : Nat) :
    get (acts d (copyHead d name chunks mtime)) (tmpOf name) = some ⟨chunks.flatten, mtime⟩ := by
  unfold copyHead
  rw [acts_append, acts_append]
  have h := written (tmpOf name) chunks (acts d (((d.map (·.1)).filter fun n => globbed n && decide (n ≠ name)).map Op.unlink))
  generalize acts (acts d _) (Op.create (tmpOf name) :: chunks.map (Op.append (tmpOf name))) = d2 at h ⊢
  simp only [acts, List.foldl_cons, List.foldl_nil, act, h, get_put, if_true]

/-- The acts of rebuilding before the last one. -/
def rebuildHead (name : Str) (chunks : List Str) : List Op :=
  Op.create (tmpRebuild name) :: chunks.map (Op.append (tmpRebuild name))

theorem rebuildHead_quiet (name : Str) (chunks : List Str) : ∀ o ∈ rebuildHead name chunks, Quiet o := by
  intro o ho
  have ht : globbed (tmpRebuild name) = false := tmp_not _
  simp only [rebuildHead, List.mem_map, List.mem_cons] at ho
  rcases ho with rfl | ⟨c, _, rfl⟩
  · exact ht
  · exact ht

theorem take_concat {α : Type} (l : List α) (x : α) (k : Nat) : (l ++ [x]).take k = l ++ [x] ∨ ∃ j, (l ++ [x]).take k = l.take j := by
  by_cases h : k ≤ l.length
  · right; exact ⟨k, List.take_append_of_le_length h⟩
  · left; exact List.take_of_length_le (by simp; omega)

/-- The last act brings what the temporary file holds, and nothing else. -/
theorem rename_get (d : Dir) (a b : Str) (f g : File) (n : Str) (h : get d a = some f) (hn : get (act d (.rename a b)) n = some g) :
    (n = b ∧ g = f) ∨ get d n = some g := by
  simp only [act, h, get_put] at hn
  split at hn
  next he => left; exact ⟨he, (Option.some.inj hn).symm⟩
  · right
    rw [get_erase] at hn
    split at hn
    · simp at hn
    · exact hn

/-- C82: whenever the work is stopped, at any point and any number of times, every wheel in the served directory is whole: it is as it
was at the start or as it was built. -/
theorem C82_crash (start d : Dir) (made : List (Str × Str)) (h : History start d made) (n : Str) (f : File) (hn : globbed n = true)
    (hf : get d n = some f) : get start n = some f ∨ (n, f.data) ∈ made := by
  induction h generalizing f with
  | start => exact Or.inl hf
  | copy d made name same chunks mtime k hist ih =>
    have hold : ∀ g, get d n = some g → get start n = some g ∨ (n, g.data) ∈ (name, chunks.flatten) :: made := by
      intro g hg
      exact (ih g hg).imp_right (List.mem_cons_of_mem _)
    cases same with
    | true =>
      refine hold f (quiet_acts _ d ?_ n f hn hf)
      intro o ho
      have ho := List.mem_of_mem_take ho
      simp only [copyOps, if_true, List.append_nil, List.mem_map] at ho
      obtain ⟨m, _, rfl⟩ := ho
      trivial
    | false =>
      rw [copyOps_false] at hf
      rcases take_concat (copyHead d name chunks mtime) (Op.rename (tmpOf name) name) k with hk | ⟨j, hk⟩
      · rw [hk, acts_append] at hf
        rcases rename_get _ _ _ _ f n (copyHead_tmp d name chunks mtime) hf with ⟨rfl, rfl⟩ | hg
        · right; simp
        · exact hold f (quiet_acts _ d (copyHead_quiet d name chunks mtime) n f hn hg)
      · rw [hk] at hf
        exact hold f (quiet_acts _ d (fun o ho => copyHead_quiet d name chunks mtime o (List.mem_of_mem_take ho)) n f hn hf)
  | rebuild d made name chunks k hist ih =>
    have hold : ∀ g, get d n = some g → get start n = some g ∨ (n, g.data) ∈ (name, chunks.flatten) :: made := by
      intro g hg
      exact (ih g hg).imp_right (List.mem_cons_of_mem _)
    have he : rebuildOps name chunks = rebuildHead name chunks ++ [Op.rename (tmpRebuild name) name] := rfl
    rw [he] at hf
    rcases take_concat (rebuildHead name chunks) (Op.rename (tmpRebuild name) name) k with hk | ⟨j, hk⟩
    · rw [hk, acts_append] at hf
      rcases rename_get _ _ _ _ f n (written (tmpRebuild name) chunks d) hf with ⟨rfl, rfl⟩ | hg
      · right; simp
      · exact hold f (quiet_acts _ d (rebuildHead_quiet name chunks) n f hn hg)
    · rw [hk] at hf
      exact hold f (quiet_acts _ d (fun o ho => rebuildHead_quiet name chunks o (List.mem_of_mem_take ho)) n f hn hf)

/-- Two names. -/
def nameA : Str := "reactpy-1-py3-none-any.whl".toList
def nameB : Str := "reactpy-2-py3-none-any.whl".toList

/-- Stopped in the middle of a copy, then done again. -/
example : ∃ d made, History [(nameA, ⟨['a'], 1⟩)] d made ∧ get d nameB = some ⟨['x', 'y', 'z'], 5⟩ ∧ get d nameA = none :=
  ⟨_, _, .copy _ _ nameB false [['x', 'y'], ['z']] 5 9 (.copy _ _ nameB false [['x', 'y'], ['z']] 5 3 .start), by decide +kernel,
    by decide +kernel⟩

/-- C82 is violated by two servers that start at the same time: the second empties the temporary file before the first renames it, and
a page gets a broken wheel. -/
theorem C82_two_servers_violated :
    let first := copyOps [] nameA false [['x', 'y']] 5
    let second := copyOps [] nameA false [['x', 'y']] 5
    (get (acts (acts (acts [] (first.take 3)) (second.take 1)) (first.drop 3)) nameA).map (·.data) = some [] := by decide +kernel

/-- C82 is violated while the wheel is replaced: for a moment there is none, also for a server that runs already. -/
theorem C82_gap_violated :
    (get (acts [(nameA, ⟨['a'], 1⟩)] ((copyOps [(nameA, ⟨['a'], 1⟩)] nameB false [['x']] 5).take 1)) nameA) = none ∧
    (get (acts [(nameA, ⟨['a'], 1⟩)] ((copyOps [(nameA, ⟨['a'], 1⟩)] nameB false [['x']] 5).take 1)) nameB) = none := by
  decide +kernel

/-! ## The wheel that is chosen -/

theorem tmp_ne (name : Str) : name ≠ tmpOf name := by
  intro h
  have := congrArg List.length h
  have e : ".tmp".toList.length = 4 := by decide +kernel
  simp only [tmpOf, List.length_append, e] at this
  omega

theorem rename_to (d : Dir) (a b : Str) (f : File) (h : get d a = some f) : get (act d (.rename a b)) b = some f := by
  simp only [act, h, get_put, if_true]

theorem unlinks_get (ns : List Str) (d : Dir) (n : Str) :
    get (acts d (ns.map Op.unlink)) n = if n ∈ ns then none else get d n := by
  induction ns generalizing d with
  | nil => simp [acts]
  | cons m ns ih =>
    have : acts d ((m :: ns).map Op.unlink) = acts (erase d m) (ns.map Op.unlink) := rfl
    rw [this, ih, get_erase]
    by_cases h1 : n ∈ ns
    · simp [h1]
    · by_cases h2 : n = m <;> simp [h1, h2]

theorem copy_result (d : Dir) (name : Str) (same : Bool) (chunks : List Str) (mtime : Nat)
    (hs : same = true → get d name = some ⟨chunks.flatten, mtime⟩) :
    get (acts d (copyOps d name same chunks mtime)) name = some ⟨chunks.flatten, mtime⟩ := by
  cases same with
  | true =>
    simp only [copyOps, if_true, List.append_nil]
    rw [unlinks_get, if_neg (by simp), hs rfl]
  | false =>
    rw [copyOps_false, acts_append]
    exact rename_to _ _ _ _ (copyHead_tmp d name chunks mtime)

/-- After a copy there is no other wheel. -/
theorem copy_others (d : Dir) (name : Str) (same : Bool) (chunks : List Str) (mtime : Nat) (n : Str) (hn : globbed n = true) (hne : n ≠ name) :
    get (acts d (copyOps d name same chunks mtime)) n = none := by
  have hnone : get (acts d (((d.map (·.1)).filter fun n => globbed n && decide (n ≠ name)).map Op.unlink)) n = none := by
    rw [unlinks_get]
    split
    · rfl
    next h =>
      cases hg : get d n with
      | none => rfl
      | some f =>
        refine absurd ?_ h
        rw [List.mem_filter]
        refine ⟨(mem_names d n).mpr ⟨f, hg⟩, ?_⟩
        simp [hn, hne]
  cases same with
  | true => simp only [copyOps, if_true, List.append_nil]; exact hnone
  | false =>
    rw [copyOps_false, acts_append]
    cases hg : get (acts (acts d (copyHead d name chunks mtime)) [Op.rename (tmpOf name) name]) n with
    | none => rfl
    | some f =>
      rcases rename_get _ _ _ _ f n (copyHead_tmp d name chunks mtime) hg with ⟨h, _⟩ | h
      · exact absurd h hne
      · unfold copyHead at h
        rw [acts_append] at h
        have hq := quiet_acts _ _ (fun o ho => copyHead_quiet d name chunks mtime o (by
          unfold copyHead; exact List.mem_append_right _ ho)) n f hn h
        rw [hnone] at hq
        simp at hq

theorem build_spec (w : World) (d : Dir) (hcut : ∀ s, (w.cut s).flatten = s) :
    (∀ d' n, build w d = some (d', n) → WheelOf w.version n ∧ ∃ f, get d' n = some f ∧
      ((∃ dist, w.dist = some dist ∧ get dist n = some f) ∧ ∀ m, globbed m = true → m ≠ n → get d' m = none)) ∧
    (build w d = none → ∀ dist, w.dist = some dist → ∀ n f, get dist n = some f → ¬ WheelOf w.version n) := by
  unfold build
  cases hd : w.dist with
  | none => simp
  | some dist =>
    cases hf : find w.version dist with
    | none =>
      simp only [hf]
      refine ⟨by simp, fun _ dist' hdist => ?_⟩
      simp only [Option.some.injEq] at hdist; subst hdist
      exact (find_none _ _).mp hf
    | some name =>
      obtain ⟨⟨f, hget⟩, hw, _⟩ := find_some _ _ _ hf
      simp only [hf, hget]
      refine ⟨?_, by simp⟩
      intro d' n he
      simp only [Option.some.injEq, Prod.mk.injEq] at he
      obtain ⟨rfl, rfl⟩ := he
      refine ⟨hw, f, ?_, ⟨dist, rfl, hget⟩, ?_⟩
      · have := copy_result (if w.same = true then dist else d) name w.same (w.cut f.data) f.mtime (by
          intro h; rw [h, if_pos rfl, hcut, hget])
        rw [hcut] at this
        exact this
      · intro m hm hne
        exact copy_others _ _ _ _ _ m hm hne

/-- C82: with a source checkout the page gets a wheel of this version which is there and is either not older than any source file, or
the one that was just built, and then there is no other wheel left. There is an error only if there is no such wheel and building gives none. -/
theorem C82_source (w : World) (d : Dir) (hs : w.source = true) (hcut : ∀ s, (w.cut s).flatten = s) :
    match ensure w d with
    | some (d', n) => WheelOf w.version n ∧ ∃ f, get d' n = some f ∧
        ((d' = d ∧ ∀ t ∈ w.watched, t ≤ f.mtime) ∨
         ((∃ dist, w.dist = some dist ∧ get dist n = some f) ∧ ∀ m, globbed m = true → m ≠ n → get d' m = none))
    | none => (∀ dist, w.dist = some dist → ∀ n f, get dist n = some f → ¬ WheelOf w.version n) ∧
        ∀ n f, find w.version d = some n → get d n = some f → ∃ t ∈ w.watched, f.mtime < t := by
  unfold ensure
  simp only [hs, if_true]
  have hb := build_spec w d hcut
  generalize build w d = build at hb ⊢
  obtain ⟨hb1, hb2⟩ := hb
  cases hp : find w.version d with
  | none =>
    simp only
    cases build with
    | none => exact ⟨hb2 rfl, by simp⟩
    | some r =>
      obtain ⟨hw, f, hf, h⟩ := hb1 r.1 r.2 rfl
      exact ⟨hw, f, hf, Or.inr h⟩
  | some n =>
    obtain ⟨⟨f, hget⟩, hw, _⟩ := find_some _ _ _ hp
    simp only [hget]
    by_cases hst : stale w.watched f = true
    · rw [if_pos hst]
      cases build with
      | none =>
        refine ⟨hb2 rfl, ?_⟩
        intro n' f' hn' hf'
        simp only [Option.some.injEq] at hn'; subst hn'
        rw [hget] at hf'; simp only [Option.some.injEq] at hf'; subst hf'
        simpa [stale] using hst
      | some r =>
        obtain ⟨hw, f, hf, h⟩ := hb1 r.1 r.2 rfl
        exact ⟨hw, f, hf, Or.inr h⟩
    · rw [if_neg hst]
      refine ⟨hw, f, hget, Or.inl ⟨rfl, ?_⟩⟩
      intro t ht
      simp only [stale, List.any_eq_true, decide_eq_true_eq, not_exists, not_and] at hst
      exact Nat.le_of_not_lt (hst t ht)

theorem rebuild_other (d : Dir) (name : Str) (chunks : List Str) (m : Str) (hm : globbed m = true) (hne : m ≠ name) :
    get (acts d (rebuildOps name chunks)) m = get d m := by
  have ht : m ≠ tmpRebuild name := by
    intro h
    have := tmp_not (removeWhl name)
    rw [h] at hm
    unfold tmpRebuild at hm
    rw [this] at hm
    simp at hm
  have he : rebuildOps name chunks = rebuildHead name chunks ++ [Op.rename (tmpRebuild name) name] := rfl
  have hw := written (tmpRebuild name) chunks d
  rw [he, acts_append]
  have h1 : get (acts d (rebuildHead name chunks)) m = get d m := by
    have : acts d (rebuildHead name chunks) = acts (act d (.create (tmpRebuild name))) (chunks.map (Op.append (tmpRebuild name))) := rfl
    rw [this, written_other _ _ _ ht]
    simp only [act, get_put, if_neg ht]
  rw [← h1]
  change get (act (acts d (rebuildHead name chunks)) (.rename (tmpRebuild name) name)) m = _
  unfold rebuildHead
  simp only [act, hw, get_put, if_neg hne, get_erase, if_neg ht]

theorem rebuild_result (d : Dir) (name : Str) (chunks : List Str) :
    get (acts d (rebuildOps name chunks)) name = some ⟨chunks.flatten, 0⟩ := by
  have he : rebuildOps name chunks = rebuildHead name chunks ++ [Op.rename (tmpRebuild name) name] := rfl
  rw [he, acts_append]
  exact rename_to _ _ _ _ (written (tmpRebuild name) chunks d)

theorem same_refl (v : Str) : SameVersion v v := rfl

/-- A tag has three parts. -/
def Tag (tag : Str) : Prop := ∃ a b c, tag = a ++ '-' :: (b ++ '-' :: c)

theorem wheelName_of (version tag : Str) (hv : '-' ∉ version) (ht : Tag tag) : WheelOf version (wheelName version tag) := by
  obtain ⟨a, b, c, rfl⟩ := ht
  refine ⟨version, a, b, c, ?_, hv, same_refl _⟩
  have e : "-".toList = ['-'] := by decide +kernel
  unfold wheelName
  rw [e]
  simp only [List.append_assoc, List.cons_append, List.nil_append]

theorem globbed_wheelName (version tag : Str) : globbed (wheelName version tag) = true := by
  rw [globbed_iff]
  exact ⟨version ++ "-".toList ++ tag, by unfold wheelName; simp only [List.append_assoc]⟩

/-- C82: without a source checkout the page gets a wheel of this version that is there already, or else one with exactly the installed
files (`C82_record`), under this version's name; no other wheel is touched. There is an error only if no wheel is there and ReactPy's
installed files are not known or the file with the tag is gone. -/
theorem C82_installed (w : World) (d : Dir) (hs : w.source = false) (hcut : ∀ s, (w.cut s).flatten = s) :
    match ensure w d with
    | some (d', n) => ∃ f, get d' n = some f ∧
        ((d' = d ∧ WheelOf w.version n) ∨
         ((∀ m g, get d m = some g → ¬ WheelOf w.version m) ∧ (∀ m, globbed m = true → m ≠ n → get d' m = get d m) ∧
          ∃ files tag, w.installed = some files ∧ wheelTag w.space files = some tag ∧
            n = "reactpy-".toList ++ w.version ++ "-".toList ++ tag ++ ".whl".toList ∧
            f.data = w.zip (archive w.digest w.version files)))
    | none => (∀ m g, get d m = some g → ¬ WheelOf w.version m) ∧
        ∀ files, w.installed = some files → ∃ p ∈ files, baseName p.1 = "WHEEL".toList ∧ p.2 = none := by
  unfold ensure
  simp only [hs, Bool.false_eq_true, if_false]
  cases hp : find w.version d with
  | some n =>
    obtain ⟨⟨f, hget⟩, hw, _⟩ := find_some _ _ _ hp
    exact ⟨f, hget, Or.inl ⟨rfl, hw⟩⟩
  | none =>
    have hno := (find_none _ _).mp hp
    simp only
    unfold rebuild
    cases hi : w.installed with
    | none => exact ⟨hno, by simp⟩
    | some files =>
      cases ht : wheelTag w.space files with
      | none =>
        simp only [ht]
        refine ⟨hno, ?_⟩
        intro files' hf
        simp only [Option.some.injEq] at hf; subst hf
        unfold wheelTag at ht
        split at ht
        · simp at ht
        next p0 hfind =>
          have h1 := List.find?_some hfind
          exact ⟨_, List.mem_of_find?_eq_some hfind, by simpa only [decide_eq_true_eq] using h1, rfl⟩
        · split at ht <;> simp at ht
      | some tag =>
        simp only [ht]
        refine ⟨_, rebuild_result _ _ _, Or.inr ⟨hno, fun m hm hne => rebuild_other _ _ _ m hm hne, files, tag, rfl, ht, rfl, ?_⟩⟩
        simp only [hcut]

theorem find_only (version : Str) (d : Dir) (n : Str) (f : File) (hf : get d n = some f) (hw : WheelOf version n)
    (ho : ∀ m g, get d m = some g → WheelOf version m → m = n) : find version d = some n := by
  cases h : find version d with
  | none => exact absurd hw ((find_none _ _).mp h n f hf)
  | some m =>
    obtain ⟨⟨g, hg⟩, hm, _⟩ := find_some _ _ _ h
    rw [ho m g hg hm]

theorem wheelOf_globbed (version n : Str) (h : WheelOf version n) : globbed n = true := by
  have := (wheelOf_iff version n).mpr h
  rw [Bool.and_eq_true] at this
  exact this.1

/-- C82: the second time the same wheel is used and nothing is written, for a version without `-`, an installed tag of three parts and a
wheel that is built after the sources were written. -/
theorem C82_again_partial (w : World) (d d' : Dir) (n : Str) (hcut : ∀ s, (w.cut s).flatten = s) (h : ensure w d = some (d', n))
    (hv : '-' ∉ w.version) (htag : ∀ files tag, w.installed = some files → wheelTag w.space files = some tag → Tag tag)
    (hnew : ∀ dist n f, w.dist = some dist → get dist n = some f → ∀ t ∈ w.watched, t ≤ f.mtime) :
    ensure w d' = some (d', n) := by
  cases hs : w.source with
  | true =>
    have hr := C82_source w d hs hcut
    rw [h] at hr
    simp only at hr
    obtain ⟨hw, f, hf, hcase⟩ := hr
    rcases hcase with ⟨rfl, _⟩ | ⟨⟨dist, hd, hg⟩, ho⟩
    · exact h
    · have hfind : find w.version d' = some n := by
        refine find_only _ _ _ _ hf hw ?_
        intro m g hm hwm
        apply Classical.byContradiction
        intro hne
        rw [ho m (wheelOf_globbed _ _ hwm) hne] at hm
        simp at hm
      have hst : stale w.watched f = false := by
        unfold stale
        rw [List.any_eq_false]
        intro t ht
        have := hnew dist n f hd hg t ht
        simp only [decide_eq_true_eq]; omega
      unfold ensure
      simp only [hs, if_true, hfind, hf, hst, Bool.false_eq_true, if_false]
  | false =>
    have hr := C82_installed w d hs hcut
    rw [h] at hr
    simp only at hr
    obtain ⟨f, hf, hcase⟩ := hr
    rcases hcase with ⟨rfl, _⟩ | ⟨hno, ho, files, tag, hi, ht, hn, _⟩
    · exact h
    · have hw : WheelOf w.version n := by
        rw [hn]; exact wheelName_of _ _ hv (htag files tag hi ht)
      have hfind : find w.version d' = some n := by
        refine find_only _ _ _ _ hf hw ?_
        intro m g hm hwm
        apply Classical.byContradiction
        intro hne
        rw [ho m (wheelOf_globbed _ _ hwm) hne] at hm
        exact hno m g hm hwm
      unfold ensure
      simp only [hs, Bool.false_eq_true, if_false, hfind]

/-- ReactPy is installed, with three files of which one is elsewhere. -/
def demoFiles : List (Str × Option Str) :=
  [("../../bin/reactpy".toList, some "#!".toList), ("reactpy/__init__.py".toList, some "x = 1".toList),
    ("reactpy-2.0.0b13.dist-info/WHEEL".toList, some "Wheel-Version: 1.0\nTag: py3-none-any\n".toList),
    ("reactpy-2.0.0b13.dist-info/RECORD".toList, some "old".toList)]

/-- A world without a source checkout. -/
def demoWorld (version : Str) : World :=
  { version := version, source := false, watched := [], dist := none, same := false, installed := some demoFiles,
    space := fun c => c = ' ', digest := fun _ => "abc".toList, zip := fun es => es.flatMap (·.1), cut := fun s => [s] }

example : (ensure (demoWorld "2.0.0b13".toList) []).map (·.2) = some "reactpy-2.0.0b13-py3-none-any.whl".toList := by decide +kernel

/-- A world with a source checkout. -/
def demoSource : World :=
  { demoWorld "2".toList with source := true, watched := [4, 5], dist := some [(nameB, ⟨"new".toList, 6⟩)], installed := none }

example : (ensure demoSource [(nameB, ⟨"old".toList, 4⟩), (nameA, ⟨"a".toList, 9⟩)]).map (fun r => (r.2, get r.1 nameB, get r.1 nameA)) =
    some (nameB, some ⟨"new".toList, 6⟩, none) := by decide +kernel

/-- C82 is violated for a version written with `-`, such as `1.0.0-a5`: the rebuilt wheel is not recognized and is built anew each time. -/
theorem C82_dash_violated : ∀ r, ensure (demoWorld "1.0.0-a5".toList) [] = some r →
    find "1.0.0-a5".toList r.1 = none := by
  have key : ∀ o : Option (Dir × Str), (o.all fun r => decide (find "1.0.0-a5".toList r.1 = none)) = true →
      ∀ r, o = some r → find "1.0.0-a5".toList r.1 = none := by
    intro o ho r hr
    rw [hr] at ho
    simpa only [Option.all_some, decide_eq_true_eq] using ho
  exact key _ (by decide +kernel)

/-- C82 is violated when a source file is deleted: the times of the others tell nothing, and the old wheel is used. -/
theorem C82_deleted_violated (sources : List (Str × Nat)) (gone : Str) (f : File) (h : ∀ p ∈ sources, p.2 ≤ f.mtime) :
    stale ((sources.filter fun p => p.1 ≠ gone).map (·.2)) f = false := by
  unfold stale
  rw [List.any_eq_false]
  intro t ht
  obtain ⟨p, hp, rfl⟩ := List.mem_map.mp ht
  have := h p (List.mem_filter.mp hp).1
  simp only [decide_eq_true_eq]; omega

/-! ## The record -/

theorem read_plain (f : Str) (hf : ∀ c ∈ f, c ≠ ',' ∧ c ≠ '\n') (cur : Str) (row : List Str) (l : Str) :
    readCsv .plain cur row (f ++ l) = readCsv .plain (cur ++ f) row l := by
  induction f generalizing cur with
  | nil => simp
  | cons c f ih =>
    have hc := hf c (by simp)
    rw [List.cons_append, readCsv, if_neg hc.1, if_neg hc.2, ih (fun x hx => hf x (by simp [hx]))]
    simp

theorem read_quoted (f : Str) (cur : Str) (row : List Str) (l : Str) :
    readCsv .quoted cur row ((f.flatMap fun c => if c = '"' then ['"', '"'] else [c]) ++ '"' :: l) =
    readCsv .after (cur ++ f) row l := by
  induction f generalizing cur with
  | nil => simp [readCsv]
  | cons c f ih =>
    rw [List.flatMap_cons]
    by_cases hc : c = '"'
    · rw [if_pos hc]
      simp only [List.cons_append, List.nil_append]
      rw [readCsv, if_pos rfl, readCsv, if_pos rfl, ih, hc]
      simp
    · rw [if_neg hc]
      simp only [List.cons_append, List.nil_append]
      rw [readCsv, if_neg hc, ih]
      simp

/-- A field is read back, whatever follows it. -/
theorem read_field (f : Str) (row : List Str) (l : Str) (e : Char) (he : e = ',' ∨ e = '\n') :
    readCsv .start [] row (csvField f ++ e :: l) =
    if e = ',' then readCsv .start [] (row ++ [f]) l else (row ++ [f]) :: readCsv .start [] [] l := by
  have heq : e ≠ '"' := by rcases he with rfl | rfl <;> decide
  have hend : ∀ w cur, w ≠ .quoted → readCsv w cur row (e :: l) =
      if e = ',' then readCsv .start [] (row ++ [cur]) l else (row ++ [cur]) :: readCsv .start [] [] l := by
    intro w cur hw
    cases w with
    | quoted => exact absurd rfl hw
    | start => rcases he with rfl | rfl <;> simp [readCsv]
    | plain => rcases he with rfl | rfl <;> simp [readCsv]
    | after => rcases he with rfl | rfl <;> simp [readCsv]
  unfold csvField
  by_cases hq : (f.any fun c => c = ',' || c = '"' || c = '\n') = true
  · rw [if_pos hq]
    simp only [List.cons_append, List.append_assoc, List.nil_append]
    rw [readCsv, if_pos rfl, read_quoted, List.nil_append, hend _ _ (by simp)]
  · rw [if_neg hq]
    have hq' : ∀ c ∈ f, c ≠ ',' ∧ c ≠ '"' ∧ c ≠ '\n' := by
      intro c hc
      rw [Bool.not_eq_true, List.any_eq_false] at hq
      have := hq c hc
      simp only [Bool.or_eq_true, decide_eq_true_eq, not_or] at this
      exact ⟨this.1.1, this.1.2, this.2⟩
    cases f with
    | nil => rw [List.nil_append, hend _ _ (by simp)]
    | cons c f =>
      have hc := hq' c (by simp)
      rw [List.cons_append, readCsv, if_neg hc.2.1, if_neg hc.1, if_neg hc.2.2, List.nil_append,
        read_plain _ (fun x hx => ⟨(hq' x (by simp [hx])).1, (hq' x (by simp [hx])).2.2⟩), hend _ _ (by simp)]
      rfl

theorem read_row (fs : List Str) (hne : fs ≠ []) (row : List Str) (l : Str) :
    readCsv .start [] row (csvRow fs ++ l) = (row ++ fs) :: readCsv .start [] [] l := by
  induction fs generalizing row with
  | nil => exact absurd rfl hne
  | cons f fs ih =>
    cases fs with
    | nil =>
      simp only [csvRow, List.append_assoc, List.cons_append, List.nil_append]
      rw [read_field f row l '\n' (Or.inr rfl), if_neg (by decide)]
    | cons g gs =>
      simp only [csvRow, List.append_assoc, List.cons_append]
      rw [read_field f row _ ',' (Or.inl rfl), if_pos rfl, ih (by simp)]
      simp

theorem read_rows (rows : List (List Str)) (h : ∀ r ∈ rows, r ≠ []) : readCsv .start [] [] (recordText rows) = rows := by
  induction rows with
  | nil => rfl
  | cons r rows ih =>
    unfold recordText at ih ⊢
    rw [List.flatMap_cons, read_row r (h r (by simp)), ih (fun x hx => h x (by simp [hx]))]
    rfl

/-- A path inside the place of installation. -/
def Inside (path : Str) : Prop := path.head? ≠ some '/' ∧ "..".toList ∉ splitOn '/' path

theorem archiveName_iff (path : Str) : archiveName path = some path ↔ Inside path := by
  have e : "/".toList = ['/'] := by decide +kernel
  unfold archiveName Inside
  rw [e]
  constructor
  · intro h
    split at h
    · simp at h
    next hc =>
      simp only [Bool.or_eq_true, not_or, Bool.not_eq_true, List.contains_iff_mem] at hc
      refine ⟨?_, hc.2⟩
      have h1 := hc.1
      cases path with
      | nil => simp
      | cons c path =>
        simp only [List.isPrefixOf] at h1
        simp only [List.head?_cons, ne_eq, Option.some.injEq]
        intro hx; subst hx; simp at h1
  · rintro ⟨h1, h2⟩
    rw [if_neg]
    simp only [Bool.or_eq_true, not_or, Bool.not_eq_true, List.contains_iff_mem]
    refine ⟨?_, h2⟩
    cases path with
    | nil => rfl
    | cons c path =>
      simp only [List.head?_cons, ne_eq, Option.some.injEq] at h1
      simp [List.isPrefixOf, Ne.symm h1]

theorem archiveName_none (path : Str) (h : ¬ Inside path) : archiveName path = none := by
  rw [← archiveName_iff] at h
  unfold archiveName at h ⊢
  split
  · rfl
  next hc => rw [if_neg hc] at h; exact absurd rfl h

open Classical in
theorem entries_eq (record : Str) (files : List (Str × Option Str)) : entries record files =
    files.filterMap fun p => if Inside p.1 ∧ p.1 ≠ record then p.2.map fun x => (p.1, x) else none := by
  induction files with
  | nil => rfl
  | cons p files ih =>
    obtain ⟨path, data⟩ := p
    unfold entries
    rw [List.filterMap_cons]
    by_cases hi : Inside path
    · rw [(archiveName_iff path).mpr hi]
      simp only
      by_cases hr : path = record
      · rw [if_pos hr, if_neg (fun h => h.2 hr)]; exact ih
      · rw [if_neg hr, if_pos ⟨hi, hr⟩]
        cases data with
        | none => exact ih
        | some x => simp only [Option.map_some]; rw [ih]
    · rw [archiveName_none path hi, if_neg (fun h => hi h.1)]
      exact ih

theorem record_ne : "RECORD".toList ≠ [] := by decide +kernel

theorem baseName_iff (path x : Str) (hx : x ≠ []) : baseName path = x ↔ (splitOn '/' path).getLast? = some x := by
  unfold baseName
  cases h : splitOn '/' path with
  | nil => exact absurd h (splitOn_ne_nil _ _)
  | cons a l =>
    rw [List.getLastD_eq_getLast?]
    rw [List.getLast?_eq_some_getLast (List.cons_ne_nil a l)]
    simp

theorem join_last (s : Char) (ini : List Str) (last : Str) (h : ini ≠ []) : joinWith s (ini ++ [last]) = joinWith s ini ++ s :: last := by
  induction ini with
  | nil => exact absurd rfl h
  | cons a ini ih =>
    cases ini with
    | nil => simp [joinWith]
    | cons b ini =>
      have := ih (by simp)
      simp only [List.cons_append, joinWith] at this ⊢
      rw [this]; simp

theorem parentOf_eq (path : Str) (h : 2 ≤ (splitOn '/' path).length) : splitOn '/' (parentOf path) = (splitOn '/' path).dropLast := by
  have hne := splitOn_ne_nil '/' path
  have hj := join_split '/' path
  have hns := splitOn_no_sep '/' path
  unfold parentOf baseName
  rw [if_neg (by omega)]
  generalize splitOn '/' path = parts at *
  have hd := List.dropLast_concat_getLast hne
  have hini : parts.dropLast ≠ [] := by
    intro hx
    have := congrArg List.length hx
    simp at this; omega
  have hp : path = joinWith '/' parts.dropLast ++ '/' :: parts.getLast hne := by
    rw [← join_last _ _ _ hini, hd, hj]
  have hl : parts.getLastD [] = parts.getLast hne := by
    rw [List.getLastD_eq_getLast?, List.getLast?_eq_some_getLast hne]; rfl
  rw [hl]
  have htake : path.take (path.length - (parts.getLast hne).length - 1) = joinWith '/' parts.dropLast := by
    have hlen := congrArg List.length hp
    rw [List.length_append, List.length_cons] at hlen
    have : path.length - (parts.getLast hne).length - 1 = (joinWith '/' parts.dropLast).length := by omega
    rw [this]
    conv => lhs; rw [hp]
    rw [List.take_left]
  rw [htake, splitOn_joinWith _ _ hini]
  intro q hq
  exact hns q ((List.dropLast_sublist _).mem hq)

/-- C82: the tag of a rebuilt wheel is the first one that the installed `WHEEL` file gives. -/
theorem C82_tag (sp : Char → Bool) (files : List (Str × Option Str)) (p : Str) (before after : List Str) (tag : Str)
    (hf : files.find? (fun q => (splitOn '/' q.1).getLast? = some "WHEEL".toList) =
      some (p, some (joinWith '\n' (before ++ ("Tag: ".toList ++ tag) :: after))))
    (hb : ∀ l ∈ before, '\n' ∉ l ∧ ¬ "Tag: ".toList <+: l) (ha : ∀ l ∈ after, '\n' ∉ l) (ht : '\n' ∉ tag)
    (hs : tag ≠ [] → (tag.head?.any sp = false ∧ tag.getLast?.any sp = false)) :
    wheelTag sp files = some tag := by
  have hw : "WHEEL".toList ≠ [] := by decide +kernel
  have hfn : (fun q : Str × Option Str => decide ((splitOn '/' q.1).getLast? = some "WHEEL".toList)) =
      fun q => decide (baseName q.1 = "WHEEL".toList) := by
    funext q
    exact decide_eq_decide.mpr (baseName_iff q.1 _ hw).symm
  have hnt : '\n' ∉ "Tag: ".toList := by decide +kernel
  have hlen : "Tag: ".toList.length = 5 := by decide +kernel
  unfold wheelTag
  rw [← hfn, hf]
  simp only
  rw [splitOn_joinWith _ _ (by simp)]
  · rw [List.find?_append, List.find?_eq_none.mpr (by
      intro l hl
      rw [List.isPrefixOf_iff_prefix]
      exact (hb l hl).2)]
    rw [Option.none_or, List.find?_cons_of_pos (by rw [List.isPrefixOf_iff_prefix]; exact List.prefix_append _ _)]
    simp only [Option.some.injEq]
    rw [← hlen, List.drop_left]
    unfold strip
    cases tag with
    | nil => rfl
    | cons c t =>
      obtain ⟨h1, h2⟩ := hs (by simp)
      simp only [List.head?_cons, Option.any_some] at h1
      rw [List.dropWhile_cons_of_neg (by simp [h1])]
      have h3 : ((c :: t).reverse.dropWhile sp) = (c :: t).reverse := by
        cases hr : (c :: t).reverse with
        | nil => rfl
        | cons e r =>
          have h4 : (c :: t).getLast? = some e := by
            rw [← List.head?_reverse, hr]; rfl
          rw [h4] at h2
          simp only [Option.any_some] at h2
          rw [List.dropWhile_cons_of_neg (by simp [h2])]
      rw [h3, List.reverse_reverse]
  · intro l hl
    simp only [List.mem_append, List.mem_cons] at hl
    rcases hl with hl | rfl | hl
    · exact (hb l hl).1
    · simp only [List.mem_append, not_or]; exact ⟨hnt, ht⟩
    · exact ha l hl

open Classical in
/-- C82: the rebuilt archive has exactly the installed files that are there and lie inside the place of installation, in order, and the
record; the record, read as comma separated values, lists each of them with its hash and length, and itself. -/
theorem C82_record (digest : Str → Str) (version : Str) (files : List (Str × Option Str)) :
    ∃ es record text, archive digest version files = es ++ [(record, text)] ∧
      es = (files.filterMap fun p => if Inside p.1 ∧ p.1 ≠ record then p.2.map fun x => (p.1, x) else none) ∧
      readCsv .start [] [] text = es.map (fun e => [e.1, "sha256=".toList ++ digest e.2, (Nat.repr e.2.length).toList]) ++ [[record, [], []]] ∧
      (∀ p, files.find? (fun p => (splitOn '/' p.1).getLast? = some "RECORD".toList) = some p → record = p.1) ∧
      (∀ p, files.find? (fun p => (splitOn '/' p.1).getLast? = some "RECORD".toList) = none →
        files.find? (fun p => (splitOn '/' p.1).getLast? = some "WHEEL".toList) = some p → 2 ≤ (splitOn '/' p.1).length →
        splitOn '/' record = (splitOn '/' p.1).dropLast ++ ["RECORD".toList]) ∧
      (splitOn '/' record).getLast? = some "RECORD".toList := by
  refine ⟨entries (recordName version files) files, recordName version files, _, rfl, entries_eq _ _, ?_, ?_, ?_, ?_⟩
  · rw [read_rows]
    · rfl
    · intro r hr
      simp only [List.mem_append, List.mem_map, List.mem_singleton] at hr
      rcases hr with ⟨e, _, rfl⟩ | rfl
      · unfold recordRow; exact List.cons_ne_nil _ _
      · exact List.cons_ne_nil _ _
  · intro p hp
    have : (fun p : Str × Option Str => decide ((splitOn '/' p.1).getLast? = some "RECORD".toList)) =
        fun p => decide (baseName p.1 = "RECORD".toList) := by
      funext q
      exact decide_eq_decide.mpr (baseName_iff q.1 _ record_ne).symm
    unfold recordName
    rw [← this, hp]
  · intro p hno hp hlen
    have hw : "WHEEL".toList ≠ [] := by decide +kernel
    have hf : ∀ x : Str, x ≠ [] → (fun p : Str × Option Str => decide ((splitOn '/' p.1).getLast? = some x)) =
        fun p => decide (baseName p.1 = x) := by
      intro x hx
      funext q
      exact decide_eq_decide.mpr (baseName_iff q.1 _ hx).symm
    unfold recordName
    rw [← hf _ record_ne, hno, ← hf _ hw, hp]
    have e : "/RECORD".toList = '/' :: "RECORD".toList := by decide +kernel
    have e2 : splitOn '/' "RECORD".toList = ["RECORD".toList] := by decide +kernel
    simp only
    rw [e, split_append, e2, parentOf_eq _ hlen]
  · unfold recordName
    split
    next p hp =>
      have := List.find?_some hp
      simp only [decide_eq_true_eq] at this
      exact (baseName_iff _ _ record_ne).mp this
    · generalize (match List.find? (fun p : Str × Option Str => decide (baseName p.1 = "WHEEL".toList)) files with
        | some p => parentOf p.1
        | none => "reactpy-".toList ++ version ++ ".dist-info".toList) = parent
      have e : "/RECORD".toList = '/' :: "RECORD".toList := by decide +kernel
      have e2 : splitOn '/' "RECORD".toList = ["RECORD".toList] := by decide +kernel
      rw [e, split_append, e2, List.getLast?_append]
      rfl

/-- A name with a comma and a quote. -/
example : readCsv .start [] [] (recordText [["a,\"b".toList, "x".toList, "3".toList], ["R".toList, [], []]]) =
    [["a,\"b".toList, "x".toList, "3".toList], ["R".toList, [], []]] := by decide +kernel

example : (archive (fun _ => "h".toList) "2.0.0b13".toList demoFiles).map (·.1) =
    ["reactpy/__init__.py".toList, "reactpy-2.0.0b13.dist-info/WHEEL".toList, "reactpy-2.0.0b13.dist-info/RECORD".toList] := by
  decide +kernel

end Verif.Pyscript.Wheel
