import Verif.Widgets.Model
import Verif.Markup.Lemmas
/-! # Widgets: properties C54 and C59 -/
namespace Verif.Widgets
open Verif.Markup (put get)

/-! ## Specification: reading base 64 (RFC 4648) -/

/-- The value of a digit: table 1 of RFC 4648. -/
def digitValue (c : Char) : Option Nat :=
  if 'A' ≤ c ∧ c ≤ 'Z' then some (c.toNat - 'A'.toNat)
  else if 'a' ≤ c ∧ c ≤ 'z' then some (c.toNat - 'a'.toNat + 26)
  else if '0' ≤ c ∧ c ≤ '9' then some (c.toNat - '0'.toNat + 52)
  else if c = '+' then some 62
  else if c = '/' then some 63
  else none

/-- Strict decoding, in groups of four digits; padding only at the end. -/
def b64decode : List Char → Option (List Byte)
  | [] => some []
  | w :: x :: y :: z :: l => do
    let w ← digitValue w
    let x ← digitValue x
    let a := Fin.ofNat 256 (w * 4 + x / 16)
    if y = '=' then if z = '=' ∧ l = [] then some [a] else none
    else
      let y ← digitValue y
      let b := Fin.ofNat 256 (x % 16 * 16 + y / 4)
      if z = '=' then if l = [] then some [a, b] else none
      else
        let z ← digitValue z
        let c := Fin.ofNat 256 (y % 4 * 64 + z)
        let l ← b64decode l
        some (a :: b :: c :: l)
  | _ => none

theorem digitValue_digit {n : Nat} (h : n < 64) : digitValue (digit n) = some n ∧ digit n ≠ '=' := by
  have key : ∀ n : Fin 64, digitValue (digit n.val) = some n.val ∧ digit n.val ≠ '=' := by decide +kernel
  exact key ⟨n, h⟩

theorem ofNat_eq {a : Byte} {n : Nat} (h : n = a.val) : Fin.ofNat 256 n = a := by
  apply Fin.ext
  simp only [Fin.ofNat]
  have := a.isLt
  omega

/-- **C54.**  The payload decodes to the bytes, for every list of bytes. -/
theorem C54_round_trip : ∀ b : List Byte, b64decode (b64encode b) = some b
  | [] => rfl
  | [a] => by
    have := a.isLt
    have h1 := digitValue_digit (n := a.val / 4) (by omega)
    have h2 := digitValue_digit (n := a.val % 4 * 16) (by omega)
    simp only [b64encode, b64decode, h1.1, h2.1, Option.bind_eq_bind, Option.bind_some, if_true, and_self]
    rw [ofNat_eq (a := a) (by omega)]
  | [a, b] => by
    have := a.isLt
    have := b.isLt
    have h1 := digitValue_digit (n := a.val / 4) (by omega)
    have h2 := digitValue_digit (n := a.val % 4 * 16 + b.val / 16) (by omega)
    have h3 := digitValue_digit (n := b.val % 16 * 4) (by omega)
    simp only [b64encode, b64decode, h1.1, h2.1, h3.1, h3.2, Option.bind_eq_bind, Option.bind_some, if_true, if_false]
    rw [ofNat_eq (a := a) (by omega), ofNat_eq (a := b) (by omega)]
  | a :: b :: c :: l => by
    have := a.isLt
    have := b.isLt
    have := c.isLt
    have h1 := digitValue_digit (n := a.val / 4) (by omega)
    have h2 := digitValue_digit (n := a.val % 4 * 16 + b.val / 16) (by omega)
    have h3 := digitValue_digit (n := b.val % 16 * 4 + c.val / 64) (by omega)
    have h4 := digitValue_digit (n := c.val % 64) (by omega)
    simp only [b64encode, b64decode, h1.1, h2.1, h3.1, h3.2, h4.1, h4.2, C54_round_trip l, Option.bind_eq_bind, Option.bind_some, if_false]
    rw [ofNat_eq (a := a) (by omega), ofNat_eq (a := b) (by omega), ofNat_eq (a := c) (by omega)]

theorem get_put {V : Type} (d : List (String × V)) (k k' : String) (v : V) : get (put d k v) k' = if k = k' then some v else get d k' := by
  induction d with
  | nil => by_cases h : k = k' <;> simp [put, Verif.Markup.get, h]
  | cons p d ih =>
    simp only [put]
    by_cases hp : p.1 = k
    · simp only [hp, beq_self_eq_true, if_true]
      by_cases h : k = k'
      · simp [Verif.Markup.get, h]
      · simp [Verif.Markup.get, h, hp]
    · simp only [beq_eq_false_iff_ne.2 hp, Bool.false_eq_true, if_false]
      by_cases h : p.1 = k'
      · have : k ≠ k' := fun hk => hp (h.trans hk.symm)
        simp [Verif.Markup.get, h, this]
      · have e1 : get (p :: put d k v) k' = get (put d k v) k' := by simp [Verif.Markup.get, h]
        have e2 : get (p :: d) k' = get d k' := by simp [Verif.Markup.get, h]
        rw [e1, e2, ih]

theorem get_update {V : Type} (d e : Attrs V) (k : String) :
    get (update d e) k = (get e.reverse k).or (get d k) := by
  induction e generalizing d with
  | nil => simp [update, Verif.Markup.get]
  | cons p e ih =>
    rw [update, List.foldl_cons]
    refine (ih _).trans ?_
    rw [get_put]
    have h : get (p :: e).reverse k = (get e.reverse k).or (if p.1 = k then some p.2 else none) := by
      simp only [Verif.Markup.get, List.reverse_cons, List.find?_append, List.find?_cons, List.find?_nil]
      cases e.reverse.find? (fun q => q.1 == k) with
      | some x => simp
      | none =>
        by_cases hp : p.1 = k
        · simp [hp]
        · simp [beq_eq_false_iff_ne.2 hp, hp]
    rw [h, Option.or_assoc]
    congr 1
    by_cases hp : p.1 = k <;> simp [hp]

/-- **C54.**  For every format and attributes that have no source of their own: the source of the image is a data URL of the
format whose payload decodes to the bytes; the other attributes are the user's. -/
theorem C54_image (format : String) (value : Source) (attributes : Option (Attrs Val))
    (h : get (attributes.getD []).reverse "src" = none) :
    (∃ payload, get (image format value attributes) "src" = some (.str ("data:image/" ++ (if format = "svg" then "svg+xml" else format) ++ ";base64," ++ String.ofList payload)) ∧
      b64decode payload = some (match value with
        | .text s => s.toUTF8.data.toList.map fun b => Fin.ofNat 256 b.toNat
        | .bytes b => b)) ∧
    ∀ k, k ≠ "src" → get (image format value attributes) k = get (attributes.getD []).reverse k := by
  have hbytes : value.toBytes = match value with
      | .text s => s.toUTF8.data.toList.map fun b => Fin.ofNat 256 b.toNat
      | .bytes b => b := by
    cases value with
    | text s => exact List.map_congr_left fun b _ => (ofNat_eq rfl).symm
    | bytes b => rfl
  refine ⟨⟨b64encode value.toBytes, ?_, by rw [← hbytes]; exact C54_round_trip _⟩, ?_⟩
  · simp only [image, get_update, h, Option.none_or]
    simp [Verif.Markup.get]
  · intro k hk
    simp only [image, get_update]
    simp [Verif.Markup.get, Ne.symm hk]

example : String.ofList (b64encode [77, 97, 110, 77]) = "TWFuTQ==" := by decide +kernel

/-- **C54.**  Different images have different payloads. -/
theorem C54_injective (b b' : List Byte) (h : b64encode b = b64encode b') : b = b' := by
  have := C54_round_trip b
  rw [h, C54_round_trip b'] at this
  exact (Option.some.inj this).symm

theorem sync_value {W : Type} (cast : String → Option W) (ig : Bool) : ∀ (history : List String) (st : Linked W),
    (history.foldl (sync cast ig) st).value = history.getLast?.getD st.value
  | [], _ => rfl
  | e :: l, st => by
    have hs : (sync cast ig st e).value = e := by
      simp only [sync]
      split
      · rfl
      · split <;> rfl
    rw [List.foldl_cons, sync_value cast ig l, hs]
    cases l with
    | nil => rfl
    | cons x l => simp [List.getLast?_cons]

/-- **C59.**  After any history of changes every linked input shows the value last typed into any of them (at first the
initial value), calls the same handler, and keeps the user's other attributes. -/
theorem C59_linked {V W : Type} (cast : String → Option W) (ig : Bool) (initial : String) (history : List String)
    (attributes : List (Attrs V)) :
    (inputs attributes (syncAll cast ig initial history)).length = attributes.length ∧
    ∀ (i : Nat) (attrs : Attrs V) (input : Attrs (LVal V)), attributes[i]? = some attrs →
      (inputs attributes (syncAll cast ig initial history))[i]? = some input →
      get input "value" = some (.value (history.getLast?.getD initial)) ∧ get input "onChange" = some .sync ∧
      ∀ k, k ≠ "value" → k ≠ "onChange" → get input k = (get attrs k).map .user := by
  refine ⟨by simp [inputs], ?_⟩
  intro i attrs input ha hi
  rw [inputs, List.getElem?_map, ha] at hi
  simp only [Option.map_some, Option.some.injEq] at hi
  subst hi
  refine ⟨?_, ?_, ?_⟩
  · rw [get_put, if_pos rfl, syncAll, sync_value]
  · rw [get_put, if_neg (by decide), get_put, if_pos rfl]
  · intro k h1 h2
    rw [get_put, if_neg (Ne.symm h1), get_put, if_neg (Ne.symm h2)]
    clear ha
    induction attrs with
    | nil => rfl
    | cons p attrs ih =>
      by_cases hp : p.1 = k
      · simp [Verif.Markup.get, hp]
      · simp only [Verif.Markup.get, List.map_cons, List.find?_cons, beq_eq_false_iff_ne.2 hp] at ih ⊢
        exact ih

example : (inputs [[("type", 1)], [("value", 2)]] (syncAll (fun s => some s) true "a" ["b", ""])).map (get · "value") =
    [some (.value ""), some (.value "")] := by decide +kernel

/-- **C59.**  The callback is called once for each change, in order, with the converted value: not for empty values when they
are to be ignored, and not when the conversion fails. -/
theorem C59_calls {W : Type} (cast : String → Option W) (ig : Bool) (initial : String) (history : List String) :
    (syncAll cast ig initial history).calls = (history.filter fun v => !(v == "" && ig)).filterMap cast := by
  have key : ∀ (history : List String) (st : Linked W), (history.foldl (sync cast ig) st).calls =
      st.calls ++ (history.filter fun v => !(v == "" && ig)).filterMap cast := by
    intro history
    induction history with
    | nil => intro st; simp
    | cons e l ih =>
      intro st
      rw [List.foldl_cons, ih]
      simp only [sync]
      by_cases he : e = "" ∧ ig = true
      · rw [if_pos he]
        simp [he.1, he.2]
      · rw [if_neg he]
        have hb : (e == "" && ig) = false := by
          cases ig with
          | false => simp
          | true => simpa using he
        rw [List.filter_cons_of_pos (by simp [hb])]
        cases hc : cast e with
        | none => simp [hc]
        | some w => simp [hc]
  rw [syncAll, key]
  simp

example : (syncAll (fun s => if s = "x" then none else some s.length) true "" ["ab", "", "x", "abc"]).calls = [2, 3] := by decide +kernel

end Verif.Widgets
