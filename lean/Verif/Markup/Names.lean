import Verif.Markup.Spec
/-! # Lemmas about names -/
namespace Verif.Markup

/-- A lower-case letter. -/
def isLetter (c : Char) : Bool := 'a' ≤ c && c ≤ 'z'

theorem letter_upper {c : Char} (h : isLetter c = true) : isUpper c.toUpper = true ∧ c.toUpper.toLower = c := by
  have key : ∀ n : Fin 26, isUpper (Char.ofNat (97 + n)).toUpper = true ∧ (Char.ofNat (97 + n)).toUpper.toLower = Char.ofNat (97 + n) := by
    decide
  simp only [isLetter, Bool.and_eq_true, decide_eq_true_eq] at h
  have h1 : 97 ≤ c.toNat := h.1
  have h2 : c.toNat ≤ 122 := h.2
  have := key ⟨c.toNat - 97, by omega⟩
  simp only [show 97 + (c.toNat - 97) = c.toNat by omega, Char.ofNat_toNat] at this
  exact this

theorem toUpper_of_not_letter {c : Char} (h : isLetter c = false) : c.toUpper = c := by
  simp only [Char.toUpper]
  split
  · rename_i hc
    have : isLetter c = true := by
      simp only [isLetter, Bool.and_eq_true, decide_eq_true_eq]
      exact hc
    rw [this] at h; cases h
  · rfl

theorem toLower_of_not_upper {c : Char} (h : isUpper c = false) : c.toLower = c := by
  simp only [Char.toLower]
  split
  · rename_i hc
    have : isUpper c = true := by
      simp only [isUpper, Bool.and_eq_true, decide_eq_true_eq]
      exact hc
    rw [this] at h; cases h
  · rfl

theorem lower_id {cs : List Char} (h : ∀ c ∈ cs, isUpper c = false) : lower cs = cs := by
  induction cs with
  | nil => rfl
  | cons c cs ih =>
    simp only [lower, List.map_cons] at *
    rw [toLower_of_not_upper (h c (by simp)), ih (fun d hd => h d (by simp [hd]))]

theorem splitOn_ne_nil (sep : Char) (cs : List Char) : splitOn sep cs ≠ [] := by
  cases cs with
  | nil => simp [splitOn]
  | cons c cs =>
    simp only [splitOn]
    split
    · simp
    · split <;> simp

/-- `sep.join(parts)`. -/
def joinWith (sep : Char) : List (List Char) → List Char
  | [] => []
  | [p] => p
  | p :: ps => p ++ sep :: joinWith sep ps

theorem joinWith_cons (sep : Char) (p : List Char) {ps : List (List Char)} (h : ps ≠ []) :
    joinWith sep (p :: ps) = p ++ sep :: joinWith sep ps := by
  cases ps with
  | nil => exact absurd rfl h
  | cons q qs => rfl

theorem joinWith_splitOn (sep : Char) (cs : List Char) : joinWith sep (splitOn sep cs) = cs := by
  induction cs with
  | nil => rfl
  | cons c cs ih =>
    simp only [splitOn]
    split
    · rename_i hc
      rw [joinWith_cons _ _ (splitOn_ne_nil sep cs), ih, hc]; rfl
    · split
      · rename_i h; exact absurd h (splitOn_ne_nil sep cs)
      · rename_i p ps h
        rw [h] at ih
        cases ps with
        | nil => simp only [joinWith] at ih ⊢; rw [ih]
        | cons q qs => simp only [joinWith] at ih ⊢; rw [List.cons_append, ih]

theorem splitOn_no_sep (sep : Char) (cs : List Char) : ∀ p ∈ splitOn sep cs, sep ∉ p := by
  induction cs with
  | nil => simp [splitOn]
  | cons c cs ih =>
    simp only [splitOn]
    split
    · intro p hp
      rcases List.mem_cons.1 hp with rfl | hp
      · simp
      · exact ih p hp
    · rename_i hc
      split
      · intro p hp; simp at hp; subst hp; simp [Ne.symm hc]
      · rename_i p ps h
        rw [h] at ih
        intro q hq
        rcases List.mem_cons.1 hq with rfl | hq
        · simp [Ne.symm hc, ih p (by simp)]
        · exact ih q (by simp [hq])

theorem splitOn_append_sep (sep : Char) (p : List Char) (hp : sep ∉ p) (cs : List Char) :
    splitOn sep (p ++ sep :: cs) = p :: splitOn sep cs := by
  induction p with
  | nil => simp [splitOn]
  | cons c p ih =>
    simp only [List.mem_cons, not_or] at hp
    rw [List.cons_append]
    simp only [splitOn]
    rw [if_neg (Ne.symm hp.1), ih hp.2]

theorem splitOn_self (sep : Char) (p : List Char) (hp : sep ∉ p) : splitOn sep p = [p] := by
  induction p with
  | nil => rfl
  | cons c p ih =>
    simp only [List.mem_cons, not_or] at hp
    simp only [splitOn]
    rw [if_neg (Ne.symm hp.1), ih hp.2]

theorem splitOn_joinWith (sep : Char) : ∀ (ps : List (List Char)), ps ≠ [] → (∀ p ∈ ps, sep ∉ p) → splitOn sep (joinWith sep ps) = ps
  | [], h, _ => absurd rfl h
  | [p], _, hs => splitOn_self sep p (hs p (by simp))
  | p :: q :: qs, _, hs => by
    rw [joinWith_cons _ _ (by simp), splitOn_append_sep _ _ (hs p (by simp)),
      splitOn_joinWith sep (q :: qs) (by simp) (fun p hp => hs p (by simp [hp]))]

/-! ## Style names -/

/-- A part of a style name after a dash, when it comes back. -/
def tailPart (p : List Char) : List Char :=
  match p with
  | [] => []
  | c :: cs => if isLetter c then '-' :: c :: cs else c :: cs

def expand (cs : List Char) : List Char := lower (cs.flatMap (fun d => if isUpper d then ['-', d] else [d]))

theorem expand_append (a b : List Char) : expand (a ++ b) = expand a ++ expand b := by simp [expand, lower]

theorem expand_low {cs : List Char} (h : ∀ c ∈ cs, isUpper c = false) : expand cs = cs := by
  induction cs with
  | nil => rfl
  | cons c cs ih =>
    have hc := h c (by simp)
    have : expand (c :: cs) = c.toLower :: expand cs := by simp [expand, lower, hc]
    rw [this, toLower_of_not_upper hc, ih (fun d hd => h d (by simp [hd]))]

theorem expand_capitalize {p : List Char} (h : ∀ c ∈ p, isUpper c = false) : expand (capitalize p) = tailPart p := by
  cases p with
  | nil => rfl
  | cons c cs =>
    have hcs : ∀ d ∈ cs, isUpper d = false := fun d hd => h d (by simp [hd])
    simp only [capitalize, tailPart, lower_id hcs]
    cases hl : isLetter c with
    | true =>
      have hu := letter_upper hl
      have : expand (c.toUpper :: cs) = '-' :: c.toUpper.toLower :: expand cs := by
        have hd : Char.toLower '-' = '-' := by decide
        simp [expand, lower, hu.1, hd]
      rw [this, hu.2, expand_low hcs]; rfl
    | false =>
      rw [toUpper_of_not_letter hl, expand_low (by simpa using h)]; rfl

theorem expand_parts : ∀ {ps : List (List Char)}, (∀ p ∈ ps, ∀ c ∈ p, isUpper c = false) →
    expand (ps.map capitalize).flatten = (ps.map tailPart).flatten
  | [], _ => rfl
  | p :: ps, h => by
    simp only [List.map_cons, List.flatten_cons]
    rw [expand_append, expand_capitalize (h p (by simp)), expand_parts (fun q hq => h q (by simp [hq]))]

theorem dashCapitals_append {c : Char} (cs ds : List Char) :
    lower (dashCapitals (c :: cs ++ ds)) = c.toLower :: expand (cs ++ ds) := by
  simp [dashCapitals, expand, lower]

/-- What a name without capitals becomes on the way to camel case and back, when it does not begin with a dash. -/
theorem round_trip_parts {p : List Char} {ps : List (List Char)} (hne : p ≠ []) (hp : ∀ c ∈ p, isUpper c = false)
    (hps : ∀ q ∈ ps, ∀ c ∈ q, isUpper c = false) :
    styleToHtml (p ++ (ps.map capitalize).flatten) = p ++ (ps.map tailPart).flatten := by
  cases p with
  | nil => exact absurd rfl hne
  | cons c cs =>
    rw [styleToHtml, dashCapitals_append, expand_append, expand_parts hps, expand_low (fun d hd => hp d (by simp [hd])),
      toLower_of_not_upper (hp c (by simp))]
    rfl

theorem joinWith_eq_flatten (p : List Char) (ps : List (List Char)) :
    joinWith '-' (p :: ps) = p ++ (ps.map ('-' :: ·)).flatten := by
  induction ps generalizing p with
  | nil => simp [joinWith]
  | cons q qs ih => rw [joinWith_cons _ _ (by simp), ih]; simp

theorem tailPart_length (q : List Char) : (tailPart q).length ≤ q.length + 1 := by
  cases q with
  | nil => simp [tailPart]
  | cons c cs => simp only [tailPart]; split <;> simp

theorem tails_length (ps : List (List Char)) : (ps.map tailPart).flatten.length ≤ (ps.map ('-' :: ·)).flatten.length := by
  induction ps with
  | nil => simp
  | cons q qs ih =>
    have := tailPart_length q
    simp only [List.map_cons, List.flatten_cons, List.length_append, List.length_cons]
    omega

theorem tailPart_eq {q : List Char} (h : (tailPart q).length = q.length + 1) : q.head?.any isLetter = true := by
  cases q with
  | nil => simp [tailPart] at h
  | cons c cs =>
    simp only [tailPart] at h
    split at h
    · rename_i hc; simpa using hc
    · simp at h

theorem tails_eq {ps : List (List Char)} (h : (ps.map tailPart).flatten.length = (ps.map ('-' :: ·)).flatten.length) :
    ∀ q ∈ ps, q.head?.any isLetter = true := by
  induction ps with
  | nil => simp
  | cons q qs ih =>
    have h1 := tailPart_length q
    have h2 := tails_length qs
    simp only [List.map_cons, List.flatten_cons, List.length_append, List.length_cons] at h
    intro r hr
    rcases List.mem_cons.1 hr with rfl | hr
    · exact tailPart_eq (by omega)
    · exact ih (by omega) r hr

theorem tails_of_letters {ps : List (List Char)} (h : ∀ q ∈ ps, q.head?.any isLetter = true) :
    ps.map tailPart = ps.map ('-' :: ·) := by
  apply List.map_congr_left
  intro q hq
  have := h q hq
  cases q with
  | nil => simp at this
  | cons c cs => simp at this; simp [tailPart, this]

/-- Names beginning with a dash: the dash is lost. -/
theorem round_trip_dash_first {ps : List (List Char)} (hne : ps ≠ []) (hps : ∀ q ∈ ps, ∀ c ∈ q, isUpper c = false) :
    (styleToHtml (ps.map capitalize).flatten).length < (ps.map ('-' :: ·)).flatten.length := by
  induction ps with
  | nil => exact absurd rfl hne
  | cons q qs ih =>
    cases q with
    | nil =>
      simp only [List.map_cons, List.flatten_cons, capitalize, List.nil_append]
      cases qs with
      | nil => simp [styleToHtml, dashCapitals, lower]
      | cons r rs =>
        have := ih (by simp) (fun q hq => hps q (by simp [hq]))
        simp only [List.map_cons, List.flatten_cons, List.length_append, List.length_cons, List.length_nil] at this ⊢
        omega
    | cons c cs =>
      have h1 : ∀ d ∈ cs, isUpper d = false := fun d hd => hps (c :: cs) (by simp) d (by simp [hd])
      have h2 : ∀ q ∈ qs, ∀ c ∈ q, isUpper c = false := fun q hq => hps q (by simp [hq])
      simp only [List.map_cons, List.flatten_cons, capitalize, lower_id h1]
      rw [styleToHtml, dashCapitals_append, expand_append, expand_parts h2, expand_low h1]
      have := tails_length qs
      simp only [List.length_cons, List.length_append] at this ⊢
      omega

/-- The names without capitals that survive are those not beginning with a dash in which every dash is followed by a
letter. -/
theorem style_round_trip_iff {k : List Char} (hk : ∀ c ∈ k, isUpper c = false) :
    styleToHtml (kebabToCamel k) = k ↔
      ∃ p ps, k = p ++ (ps.map ('-' :: ·)).flatten ∧ (p = [] → ps = []) ∧ '-' ∉ p ∧ ∀ q ∈ ps, '-' ∉ q ∧ q.head?.any isLetter = true := by
  constructor
  · intro h
    cases hs : splitOn '-' k with
    | nil => exact absurd hs (splitOn_ne_nil _ _)
    | cons p ps =>
      have hj := joinWith_splitOn '-' k
      have hn := splitOn_no_sep '-' k
      rw [hs] at hj hn
      rw [joinWith_eq_flatten] at hj
      have hmem : ∀ q ∈ ps, ∀ c ∈ q, isUpper c = false := by
        intro q hq c hc
        refine hk c ?_
        rw [← hj]
        refine List.mem_append_right _ (List.mem_flatten.2 ⟨'-' :: q, List.mem_map.2 ⟨q, hq, rfl⟩, by simp [hc]⟩)
      have hkc : kebabToCamel k = p ++ (ps.map capitalize).flatten := by simp only [kebabToCamel, hs]
      rw [hkc] at h
      have hp0 : p = [] → ps = [] := by
        intro hp
        subst hp
        cases ps with
        | nil => rfl
        | cons q qs =>
          have hl := round_trip_dash_first (ps := q :: qs) (by simp) hmem
          rw [List.nil_append] at h hj
          rw [h, hj] at hl
          omega
      refine ⟨p, ps, hj.symm, hp0, hn p (by simp), fun q hq => ⟨hn q (by simp [hq]), ?_⟩⟩
      by_cases hp : p = []
      · rw [hp0 hp] at hq; simp at hq
      · rw [round_trip_parts hp (fun c hc => hk c (by rw [← hj]; simp [hc])) hmem] at h
        have hlen : (p ++ (ps.map tailPart).flatten).length = (p ++ (ps.map ('-' :: ·)).flatten).length := by rw [h, hj]
        rw [List.length_append, List.length_append] at hlen
        exact tails_eq (by omega) q hq
  · rintro ⟨p, ps, rfl, hp0, hp, hps⟩
    have hs : splitOn '-' (p ++ (ps.map ('-' :: ·)).flatten) = p :: ps := by
      rw [← joinWith_eq_flatten]
      refine splitOn_joinWith _ _ (by simp) ?_
      intro q hq
      rcases List.mem_cons.1 hq with rfl | hq
      · exact hp
      · exact (hps q hq).1
    simp only [kebabToCamel, hs]
    by_cases he : p = []
    · rw [hp0 he, he]; rfl
    · rw [round_trip_parts he (fun c hc => hk c (by simp [hc])), tails_of_letters (fun q hq => (hps q hq).2)]
      intro q hq c hc
      exact hk c (List.mem_append_right _ (List.mem_flatten.2 ⟨'-' :: q, List.mem_map.2 ⟨q, hq, rfl⟩, by simp [hc]⟩))

/-! ## Attribute names -/

theorem get_eq_none {α : Type} {d : List (String × α)} {k : String} (h : k ∉ d.map (·.1)) : get d k = none := by
  simp only [get, Option.map_eq_none_iff, List.find?_eq_none]
  intro p hp
  simp only [beq_iff_eq]
  rintro rfl
  exact h (List.mem_map.2 ⟨p, hp, rfl⟩)

theorem reactName_other {k : String} (h : k ∉ substitutions.map (·.1)) : reactName k = k := by
  rw [reactName, get_eq_none h]; rfl

theorem get_mem {α : Type} {d : List (String × α)} {k : String} {v : α} (h : get d k = some v) : (k, v) ∈ d := by
  simp only [get, Option.map_eq_some_iff] at h
  obtain ⟨p, hp, rfl⟩ := h
  have h1 := List.mem_of_find?_eq_some hp
  have h2 := List.find?_some hp
  simp only [beq_iff_eq] at h2
  rw [← h2]; exact h1

theorem toLower_not_upper (c : Char) : isUpper c.toLower = false := by
  cases h : isUpper c with
  | false => rw [toLower_of_not_upper h, h]
  | true =>
    have key : ∀ n : Fin 26, isUpper (Char.ofNat (65 + n)).toLower = false := by decide
    simp only [isUpper, Bool.and_eq_true, decide_eq_true_eq] at h
    have h1 : 65 ≤ c.toNat := h.1
    have h2 : c.toNat ≤ 90 := h.2
    have := key ⟨c.toNat - 65, by omega⟩
    simpa only [show 65 + (c.toNat - 65) = c.toNat by omega, Char.ofNat_toNat] using this

theorem lower_not_upper (cs : List Char) : (lower cs).any isUpper = false := by
  simp [lower, toLower_not_upper]

theorem keys_low : ∀ p ∈ substitutions, p.1.toList.any isUpper = false := by
  intro p hp
  rw [substitutions, List.mem_append] at hp
  rcases hp with hp | hp
  · revert p; decide +kernel
  · obtain ⟨q, _, rfl⟩ := List.mem_map.1 hp
    simp only [String.toList_ofList]
    exact lower_not_upper _

theorem values_up : ∀ p ∈ substitutions, p.2 = p.1 ∨ p.2.toList.any isUpper = true := by
  intro p hp
  rw [substitutions, List.mem_append] at hp
  rcases hp with hp | hp
  · revert p; decide +kernel
  · obtain ⟨q, _, rfl⟩ := List.mem_map.1 hp
    cases h : q.toList.any isUpper with
    | true => exact .inr rfl
    | false =>
      left
      rw [lower_id (fun c hc => by simpa using (List.any_eq_false.1 h c hc)), String.ofList_toList]

theorem reactName_idem (k : String) : reactName (reactName k) = reactName k := by
  cases h : get substitutions k with
  | none => rw [show reactName k = k by rw [reactName, h]; rfl, reactName, h]; rfl
  | some v =>
    have hv : reactName k = v := by rw [reactName, h]; rfl
    rw [hv]
    rcases values_up _ (get_mem h) with he | hu
    · have he : v = k := he
      rw [← he] at hv; exact hv
    · refine reactName_other ?_
      intro hm
      obtain ⟨p, hp, rfl⟩ := List.mem_map.1 hm
      rw [keys_low p hp] at hu; cases hu

/-- Names that are the lower case of a prop which has another name in HTML. -/
def aliases : List String := ["classname", "htmlfor", "defaultchecked", "httpequiv"]

/-- The HTML name of a prop. -/
def htmlName (p : String) : String :=
  if p = "htmlFor" then "for" else if p = "className" then "class" else if p = "defaultChecked" then "checked"
  else if p = "acceptCharset" then "accept-charset" else if p = "httpEquiv" then "http-equiv"
  else String.ofList (lower p.toList)

theorem htmlName_keys : ∀ p ∈ substitutions, p.1 ∉ aliases → htmlName p.2 = p.1 := by
  intro p hp
  rw [substitutions, List.mem_append] at hp
  rcases hp with hp | hp
  · revert p; decide +kernel
  · obtain ⟨q, hq, rfl⟩ := List.mem_map.1 hp
    intro ha
    have hne : ∀ s : String, String.ofList (lower s.toList) ∈ aliases → q ≠ s := by
      rintro s hs rfl; exact ha hs
    have h1 := hne "htmlFor" (by decide +kernel)
    have h2 := hne "className" (by decide +kernel)
    have h3 := hne "defaultChecked" (by decide +kernel)
    have h5 := hne "httpEquiv" (by decide +kernel)
    have h4 : q ≠ "acceptCharset" := by
      rintro rfl; revert hq; decide +kernel
    simp only [htmlName, h1, h2, h3, h4, h5, if_false]

theorem htmlName_reactName {k : String} (hl : ∀ c ∈ k.toList, isUpper c = false) (ha : k ∉ aliases) :
    htmlName (reactName k) = k := by
  cases h : get substitutions k with
  | some v =>
    have hv : reactName k = v := by rw [reactName, h]; rfl
    rw [hv]
    exact htmlName_keys _ (get_mem h) ha
  | none =>
    rw [show reactName k = k by rw [reactName, h]; rfl]
    have hno : ∀ s : String, (∃ c ∈ s.toList, isUpper c = true) → k ≠ s := by
      rintro s ⟨c, hc, hu⟩ rfl
      rw [hl c hc] at hu; cases hu
    have h1 := hno "htmlFor" ⟨'F', by decide +kernel, by decide⟩
    have h2 := hno "className" ⟨'N', by decide +kernel, by decide⟩
    have h3 := hno "defaultChecked" ⟨'C', by decide +kernel, by decide⟩
    have h4 := hno "acceptCharset" ⟨'C', by decide +kernel, by decide⟩
    have h5 := hno "httpEquiv" ⟨'E', by decide +kernel, by decide⟩
    simp only [htmlName, h1, h2, h3, h4, h5, if_false, lower_id hl, String.ofList_toList]

theorem put_new {α : Type} (d : List (String × α)) (k : String) (v : α) (h : k ∉ d.map (·.1)) : put d k v = d ++ [(k, v)] := by
  induction d with
  | nil => rfl
  | cons p d ih =>
    simp only [List.map_cons, List.mem_cons, not_or] at h
    simp only [put]
    rw [if_neg (by simp only [beq_iff_eq]; exact Ne.symm h.1), ih h.2]; rfl

theorem foldl_put {α : Type} (ps d : List (String × α)) (h : ((d ++ ps).map (·.1)).Nodup) :
    ps.foldl (fun d p => put d p.1 p.2) d = d ++ ps := by
  induction ps generalizing d with
  | nil => simp
  | cons p ps ih =>
    have hp : p.1 ∉ d.map (·.1) := by
      rw [List.map_append, List.nodup_append] at h
      intro hm
      exact h.2.2 _ hm p.1 (by simp) rfl
    rw [List.foldl_cons, put_new d p.1 p.2 hp, ih]
    · simp
    · simpa using h

theorem ofPairs_nodup {α : Type} {ps : List (String × α)} (h : (ps.map (·.1)).Nodup) : ofPairs ps = ps := by
  rw [ofPairs, foldl_put ps [] (by simpa using h)]; rfl

end Verif.Markup
