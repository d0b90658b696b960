import Verif.Reactjs.Url
/-! # Names exported by JavaScript modules (src/reactpy/reactjs/utils.py): following re-exports

The text of a module is given by what `resolve_names_from_source` finds in it: the names and the references, the latter in
the order in which Python iterates over the set. -/
namespace Verif.Reactjs

/-- What fetching a URL or reading a file gives. -/
inductive Fetch (R : Type) where
  /-- the names exported by a module and its references -/
  | text (names : List String) (refs : List R)
  /-- `ConnectionError` (utils.py 57) or a file that does not exist (utils.py 24) -/
  | missing
  /-- any other exception -/
  | raises

/-- utils.py 126–127: `exclude_default`. -/
def clean (ex : Bool) (names : List String) : List String := if ex then names.filter (· ≠ "default") else names

section
variable {U F R : Type}
variable (fetch : U → Fetch R) (norm : U → R → U)

/-- utils.py 64–66: the loop over the references.  The variable `url` is assigned in the loop, so that each reference is
looked up from the module of the one before it. -/
def loopUrl (rec : U → Option (List String)) : U → List R → Option (List String)
  | _, [] => some []
  | u, r :: rs => do
    let u := norm u r
    let a ← rec u
    let b ← loopUrl rec u rs
    some (a ++ b)

/-- utils.py 46–68 `resolve_names_from_url`; `none` stands for an exception. -/
def resolveUrl : Nat → Bool → U → Option (List String)
  | 0, _, _ => some []
  | d + 1, ex, u => match fetch u with
    | .missing => some []
    | .raises => none
    | .text names refs => do
      let more ← loopUrl norm (resolveUrl d true) u refs
      some (clean ex names ++ more)

variable (read : F → Fetch R) (isUrl : R → Option U) (join : F → R → F)

/-- utils.py 32–41: the loop over the references of a file. -/
def loopFile (recUrl : U → Option (List String)) (recFile : F → Option (List String)) (f : F) : List R → Option (List String)
  | [] => some []
  | r :: rs => do
    let a ← match isUrl r with
      | some u => recUrl u
      | none => recFile (join f r)
    let b ← loopFile recUrl recFile f rs
    some (a ++ b)

/-- utils.py 16–43 `resolve_names_from_file`. -/
def resolveFile : Nat → Bool → F → Option (List String)
  | 0, _, _ => some []
  | d + 1, ex, f => match read f with
    | .missing => some []
    | .raises => none
    | .text names refs => do
      let more ← loopFile isUrl join (resolveUrl fetch norm d true) (resolveFile d true) f refs
      some (clean ex names ++ more)
end

end Verif.Reactjs
