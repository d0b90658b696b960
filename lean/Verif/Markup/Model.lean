/-!
# HTML text and models: /repo/src/reactpy/utils.py 66–281 and /repo/src/reactpy/transforms.py

Parsing HTML text into an element tree and writing an element tree as text are lxml's: the element tree `El` is the
interface.  Simplifications: names and text are those lxml accepts; upper and lower case are ASCII; white space is
space, tab, carriage return and newline.
-/
namespace Verif.Markup

/-- An lxml element: `text` before the first child, and after each child its `tail` (empty for `None`).
(lxml; used in utils.py 145–237) -/
inductive El
  | mk (tag : String) (attrs : List (String × String)) (text : String) (kids : List (El × String))

/-- An attribute value of a model: a string, a style dict, `True`, a list of values, a function, or anything else
(with its `str`). types.py `VdomAttributes`; told apart at utils.py 255–259 and transforms.py 38. -/
inductive AVal
  | str (s : String)
  | style (d : List (String × String))
  | true
  | many (l : List AVal)
  | fn
  | other (shown : String)

/-- A child of a model, and a root given to `reactpy_to_string`.  `js` and `handlers` are the entries of
`inlineJavaScript` and the keys of `eventHandlers`.  A component is given by the result of its first render, which
may be a component again. utils.py 174–215, 240–250. -/
inductive V
  | text (s : String)
  | none
  | value (shown : String)
  | elem (tag : String) (attrs : List (String × AVal)) (js : List (String × String)) (handlers : List String) (kids : List V)
  | comp (result : V)
  /-- a dict without `tagName` -/
  | bad

/-- The exceptions that leave utils.py 66–281: `TypeError` (110, 179, 256), `ValueError` (115), `KeyError`, `AttributeError`. -/
inductive Err
  | type
  | value
  | key
  | attribute
  deriving DecidableEq, Repr

/-! ## Dicts -/

/-- `dict.get` (Python; transforms.py 14, 74, 101–110). -/
def get {α : Type} (d : List (String × α)) (k : String) : Option α := (d.find? (fun p => p.1 == k)).map (·.2)

/-- `d[k] = v`: in place, or at the end. (Python) -/
def put {α : Type} : List (String × α) → String → α → List (String × α)
  | [], k, v => [(k, v)]
  | p :: d, k, v => if p.1 == k then (k, v) :: d else p :: put d k v

/-- `d.pop(k, …)`, the dict that remains. (Python; transforms.py 60, 94) -/
def del {α : Type} (d : List (String × α)) (k : String) : List (String × α) := d.filter (fun p => !(p.1 == k))

/-- `dict(pairs)`, a dict comprehension, `dict.update`. (Python; transforms.py 14, utils.py 158, 185) -/
def ofPairs {α : Type} (ps : List (String × α)) : List (String × α) := ps.foldl (fun d p => put d p.1 p.2) []

/-! ## Names -/

/-- `[A-Z]` of utils.py 281. -/
def isUpper (c : Char) : Bool := 'A' ≤ c && c ≤ 'Z'

/-- `CAMEL_CASE_PATTERN.sub("-", k)` (utils.py 281): a dash before each capital but at the start. -/
def dashCapitals : List Char → List Char
  | [] => []
  | c :: cs => c :: cs.flatMap (fun d => if isUpper d then ['-', d] else [d])

/-- `str.lower()` of utils.py 261, 273, on ASCII. -/
def lower (cs : List Char) : List Char := cs.map Char.toLower

/-- The name of a style in HTML (utils.py 261). -/
def styleToHtml (k : List Char) : List Char := lower (dashCapitals k)

/-- `str.split(sep)`. (Python; transforms.py 43–44 and `_kebab_to_camel_case`) -/
def splitOn (sep : Char) : List Char → List (List Char)
  | [] => [[]]
  | c :: cs =>
    if c = sep then [] :: splitOn sep cs
    else
      match splitOn sep cs with
      | [] => [[c]]
      | p :: ps => (c :: p) :: ps

/-- `str.capitalize()`. (Python; `_kebab_to_camel_case`, transforms.py 155–161) -/
def capitalize : List Char → List Char
  | [] => []
  | c :: cs => c.toUpper :: lower cs

/-- transforms.py 155–161 `_kebab_to_camel_case`. -/
def kebabToCamel (k : List Char) : List Char :=
  match splitOn '-' k with
  | [] => []
  | p :: ps => p ++ (ps.map capitalize).flatten

/-- transforms.py 164–397 `KNOWN_REACT_PROPS`. -/
def knownReactProps : List String :=
  ["onLoadStart", "onTouchStart", "onProgressCapture", "contentEditable", "dir", "onClick", "onTimeUpdateCapture",
   "onPointerCancelCapture", "charset", "formEnctype", "accessKey", "required", "onError", "capture", "formAction",
   "onEmptiedCapture", "hrefLang", "form", "onKeyDownCapture", "onMouseUpCapture", "onBeforeInput", "onCutCapture",
   "onDurationChange", "onCanPlayCapture", "onGotPointerCapture", "onSuspend", "inputMode", "onPointerCancel",
   "onSuspendCapture", "onKeyDown", "onTimeUpdate", "maxLength", "onDropCapture", "onCompositionUpdateCapture",
   "nonce", "onKeyUp", "title", "onSeekingCapture", "onStalledCapture", "onKeyPressCapture", "referrerPolicy",
   "onMouseMove", "onPointerDown", "onReset", "onScrollCapture", "onEncryptedCapture", "onWaiting", "placeholder",
   "onCompositionUpdate", "onTouchEndCapture", "onLoadedMetadata", "onCanPlay", "onCopy", "onTouchMoveCapture",
   "onLoadCapture", "onMouseDownCapture", "pattern", "onCanPlayThrough", "onTransitionEnd", "min", "autoComplete",
   "referrer", "checked", "onWheelCapture", "autoFocus", "alt", "onTransitionEndCapture", "onPause",
   "onLoadedDataCapture", "onAuxClickCapture", "onDragStart", "onInputCapture", "onAbort", "onBlurCapture",
   "onTouchStartCapture", "onCompositionStartCapture", "onDrag", "max", "enterKeyHint", "onInput", "width",
   "accept", "onResetCapture", "onScroll", "suppressContentEditableWarning", "onKeyUpCapture", "onPaste",
   "onPauseCapture", "onTouchMove", "onDoubleClickCapture", "defaultChecked", "spellCheck", "onChangeCapture",
   "onBeforeInputCapture", "onInvalid", "fetchPriority", "onAnimationEndCapture", "onSeeked", "onToggle",
   "onPlayCapture", "onAnimationIteration", "onEndedCapture", "onPlaying", "multiple", "dangerouslySetInnerHTML",
   "as", "onLoadedMetadataCapture", "href", "draggable", "lang", "onAnimationEnd", "translate", "imageSrcSet",
   "onRateChange", "itemProp", "onPointerLeave", "onSelect", "onMouseOut", "dirname", "onMouseDown", "onPointerUp",
   "style", "onGotPointerCaptureCapture", "onLoadStartCapture", "formNoValidate", "className", "onClickCapture",
   "onFocusCapture", "onDragEnd", "is", "onPasteCapture", "onVolumeChange", "onDragOver", "onMouseOutCapture",
   "onCompositionStart", "onDragCapture", "onMouseEnter", "onFocus", "onLostPointerCapture", "onEmptied",
   "onMouseMoveCapture", "onBlur", "onContextMenuCapture", "wrap", "onChange", "onKeyPress", "onMouseUp",
   "onSubmit", "onTouchCancel", "integrity", "id", "onDragOverCapture", "minLength", "onTouchEnd", "onAuxClick",
   "onLoad", "content", "onCanPlayThroughCapture", "onAnimationStartCapture", "onAnimationStart", "onDragEnter",
   "onPointerDownCapture", "onEnded", "onProgress", "onDragEndCapture", "slot", "onRateChangeCapture",
   "onMouseLeave", "async", "height", "step", "disabled", "onLoadedData", "src", "onPointerEnter",
   "onTouchCancelCapture", "readOnly", "size", "suppressHydrationWarning", "htmlFor", "onPointerOutCapture",
   "onCopyCapture", "onDoubleClick", "onCompositionEnd", "onCompositionEndCapture", "onSeeking", "onPointerOut",
   "onSubmitCapture", "onSeekedCapture", "onEncrypted", "onLostPointerCaptureCapture", "onToggleCapture",
   "onPointerUpCapture", "onWheel", "onCut", "onAbortCapture", "onResizeCapture", "httpEquiv", "onResize", "type",
   "onVolumeChangeCapture", "onSelectCapture", "onDragStartCapture", "imageSizes", "crossOrigin", "autoCapitalize",
   "value", "list", "onInvalidCapture", "formTarget", "onAnimationIterationCapture", "onStalled",
   "onWaitingCapture", "cols", "onPointerMove", "onDragEnterCapture", "tabIndex", "onPlayingCapture", "rows",
   "role", "onPointerMoveCapture", "onContextMenu", "hidden", "noModule", "formMethod", "sizes", "onPlay",
   "onDurationChangeCapture", "onErrorCapture", "onDrop", "defaultValue", "name"]

/-- transforms.py 399–405 `REACT_PROP_SUBSTITUTIONS`; the entries written out win over those of the set. -/
def substitutions : List (String × String) :=
  [("for", "htmlFor"), ("class", "className"), ("checked", "defaultChecked"), ("accept-charset", "acceptCharset"),
   ("http-equiv", "httpEquiv")] ++ knownReactProps.map (fun p => (String.ofList (lower p.toList), p))

/-- `REACT_PROP_SUBSTITUTIONS.get(k, k)`. transforms.py 14. -/
def reactName (k : String) : String := (get substitutions k).getD k

/-- transforms.py 9–16 `attributes_to_reactjs`. -/
def attributesToReact {α : Type} (attrs : List (String × α)) : List (String × α) :=
  ofPairs (attrs.map (fun p => (reactName p.1, p.2)))

/-! ## From a model to an element tree -/

/-- utils.py 278 -/
def dashedHtmlAttrs : List String := ["acceptCharset", "httpEquiv"]

mutual
/-- `str(value)` of an attribute value other than a style dict of the `style` attribute; how Python shows lists and
dicts is not modelled further. utils.py 271, 273. -/
def AVal.shown : AVal → String
  | .str s => s
  | .style d => "{" ++ String.intercalate ", " (d.map (fun p => p.1 ++ ": " ++ p.2)) ++ "}"
  | .true => "True"
  | .many l => "[" ++ AVal.shownL l ++ "]"
  | .fn => "<function>"
  | .other s => s
/-- As `AVal.shown`, for the values of a list (utils.py 273). -/
def AVal.shownL : List AVal → String
  | [] => ""
  | v :: vs => v.shown ++ ", " ++ AVal.shownL vs
end

/-- utils.py 253–273 `_react_attribute_to_html`. -/
def attrToHtml (k : String) (v : AVal) : Except Err (String × String) :=
  match v with
  | .fn => .error .type
  | v =>
    if k = "style" then
      match v with
      | .style d => .ok (k, String.intercalate ";" (d.map (fun p => String.ofList (styleToHtml p.1.toList) ++ ":" ++ p.2)))
      | v => .ok (k, v.shown)
    else if k ∈ dashedHtmlAttrs then .ok (String.ofList (lower (dashCapitals k.toList)), v.shown)
    else if k.startsWith "data-" || k.startsWith "aria-" then .ok (k, v.shown)
    else .ok (String.ofList (lower k.toList), v.shown)

/-- `element.attrib.update(…)` (184–187). -/
def attrsToHtml (attrs : List (String × AVal)) : Except Err (List (String × String)) :=
  (attrs.mapM (fun p => attrToHtml p.1 p.2)).map ofPairs

/-- `element.text` or the `tail` of the last child, extended (211–215). -/
def addText : El → String → El
  | .mk t a text [], s => .mk t a (text ++ s) []
  | .mk t a text (k :: ks), s =>
    .mk t a text ((k :: ks).dropLast ++ [(((k :: ks).getLast (by simp)).1, ((k :: ks).getLast (by simp)).2 ++ s)])

/-- `etree.SubElement`, once the new element is filled (its tail is still empty). utils.py 184. -/
def append : El → El → El
  | .mk t a text ks, e => .mk t a text (ks ++ [(e, "")])

/-- utils.py 240–250 `component_to_vdom`, of the result of the render. -/
def componentToVdom : V → V
  | .none => .elem "" [] [] [] []
  | .elem t a j h k => .elem t a j h k
  | .bad => .bad
  | .comp r => componentToVdom r
  | .text s => .elem "div" [] [] [] [.text s]
  | .value _ => .elem "div" [] [] [] []

mutual
/-- utils.py 174–215 `_add_vdom_to_etree`, in which a child is handled by the loop body 192–215: add one child to an element.  For a component,
`component_to_vdom` is unfolded into `addResult` (see `addResult_eq`). -/
def addChild (e : El) : V → Except Err El
  | .text s => .ok (addText e s)
  | .none => .ok (addText e "None")
  | .value s => .ok (addText e s)
  | .elem tag attrs _ _ kids =>
    if tag ≠ "" then do
      let a ← attrsToHtml attrs
      let c ← addKids (.mk tag a "" []) kids
      return append e c
    else addKids e kids
  | .comp r => addResult e r
  | .bad => .error .type
/-- The loop 191–215. -/
def addKids (e : El) : List V → Except Err El
  | [] => .ok e
  | c :: cs => do
    let e ← addChild e c
    addKids e cs
/-- A component, by the result of its render. utils.py 193–196 and 240–250. -/
def addResult (e : El) : V → Except Err El
  | .none => .ok e
  | .elem tag attrs _ _ kids =>
    if tag ≠ "" then do
      let a ← attrsToHtml attrs
      let c ← addKids (.mk tag a "" []) kids
      return append e c
    else addKids e kids
  | .bad => .error .type
  | .comp r => addResult e r
  | .text s => .ok (append e (.mk "div" [] s []))
  | .value _ => .ok (append e (.mk "div" [] "" []))
end

/-! ## Writing an element tree -/

/-- How lxml writes HTML: characters of text by the element they are in, characters of attribute values, and the
elements without an end tag (which are written without content). utils.py 78. -/
structure Writer where
  esc : String → Char → List Char
  escAttr : Char → List Char
  void : String → Bool
  void_temp : void "__temp__" = false

variable (w : Writer)

/-- (lxml, called at utils.py 78) -/
def Writer.startTag (tag : String) (attrs : List (String × String)) : List Char :=
  ['<'] ++ tag.toList ++ attrs.flatMap (fun p => [' '] ++ p.1.toList ++ ['=', '"'] ++ p.2.toList.flatMap w.escAttr ++ ['"']) ++ ['>']

/-- (lxml, called at utils.py 78) -/
def Writer.endTag (tag : String) : List Char := ['<', '/'] ++ tag.toList ++ ['>']

mutual
/-- `etree.tostring(element, method="html")`. utils.py 78. -/
def Writer.write : El → List Char
  | .mk tag attrs text kids =>
    w.startTag tag attrs ++
      if w.void tag then [] else text.toList.flatMap (w.esc tag) ++ Writer.writeKids tag kids ++ Writer.endTag tag
/-- The children of an element and their tails (lxml, called at utils.py 78). -/
def Writer.writeKids (tag : String) : List (El × String) → List Char
  | [] => []
  | (e, tail) :: ks => Writer.write e ++ tail.toList.flatMap (w.esc tag) ++ Writer.writeKids tag ks
end

/-- utils.py 66–81 `reactpy_to_string`; `html[10:-11]`.  A root that is neither a dict nor a component has no `render`. -/
def toString (root : V) : Except Err (List Char) := do
  let e ← match root with
    | .text _ | .none | .value _ => Except.error Err.attribute
    | root => addChild (.mk "__temp__" [] "" []) root
  let html := w.write e
  return (html.drop 10).take ((html.drop 10).length - 11)

/-! ## From an element tree to a model -/

/-- _html.py 18–37 -/
def noChildren : List String :=
  ["area", "base", "br", "col", "command", "embed", "hr", "img", "input", "iframe", "keygen", "link", "meta", "param",
   "portal", "source", "track", "wbr"]

/-- vdom.py 34, 240: `^on[A-Z]\w+`. -/
def isEventName (k : String) : Bool :=
  match k.toList with
  | 'o' :: 'n' :: c :: d :: _ => isUpper c && (d.isAlphanum || d == '_')
  | _ => false

/-- `getattr(h, tag)(attributes, children)` (utils.py 161–162) for attributes that are all strings: the constructors
of vdom.py 169–206 and, for `script`, _html.py 119–170.  Simplification: the tag is not `fragment` and has no `_`. -/
def construct (tag : String) (attrs : List (String × String)) (kids : List V) : Except Err V :=
  let js := attrs.filter (fun p => isEventName p.1)
  let at_ := (attrs.filter (fun p => !isEventName p.1)).map (fun p => (p.1, AVal.str p.2))
  if tag = "script" then
    match kids with
    | [] =>
      match (get at_ "key").or (get at_ "src") with
      | some k => .ok (.elem tag (put at_ "key" k) js [] [])
      | none => .ok (.elem tag at_ js [] [])
    | [.text s] => .ok (.elem tag (put at_ "key" ((get at_ "key").getD (.str s))) js [] kids)
    | _ => .error .value
  else if noChildren.contains tag && !kids.isEmpty then .error .type
  else .ok (.elem tag at_ js [] kids)

/-- transforms.py 98–117 `infer_key_from_attributes`. -/
def inferKey (tag : String) (attrs : List (String × AVal)) : List (String × AVal) :=
  let key := ((get attrs "key").or (get attrs "id")).or
    (if tag ∈ ["input", "select", "textarea"] then get attrs "name" else none)
  match key with
  | some (.str "") => attrs
  | some k => if (get attrs "key").isNone then put attrs "key" k else attrs
  | none => attrs

/-- transforms.py 83–96 `input_element_value_prop_to_defaultValue`. -/
def inputValue (tag : String) (attrs : List (String × AVal)) : List (String × AVal) :=
  if tag = "input" then
    match get attrs "value" with
    | some v => put (del attrs "value") "defaultValue" v
    | none => attrs
  else attrs

/-- (Python's white space, on ASCII; transforms.py 41, utils.py 111) -/
def isSpace (c : Char) : Bool := c == ' ' || c == '\t' || c == '\n' || c == '\r'

/-- `str.strip()`, transforms.py 41, utils.py 111. -/
def strip (cs : List Char) : List Char := ((cs.dropWhile isSpace).reverse.dropWhile isSpace).reverse

/-- `part.split(":", 1)` of a part with a colon. -/
def cut (cs : List Char) : Option (List Char × List Char) :=
  if cs.contains ':' then some (cs.takeWhile (· ≠ ':'), (cs.dropWhile (· ≠ ':')).drop 1) else none

/-- transforms.py 33–47: the style dict of a style string. -/
def parseStyle (s : List Char) : List (String × String) :=
  ofPairs ((splitOn ';' s).filterMap cut |>.map (fun p => (String.ofList (kebabToCamel (strip p.1)), String.ofList (strip p.2))))

/-- transforms.py 33–47 `normalize_style_attributes`. -/
def normalizeStyle (attrs : List (String × AVal)) : List (String × AVal) :=
  match get attrs "style" with
  | some (.str s) => put attrs "style" (.style (parseStyle s.toList))
  | _ => attrs

/-- A child as an attribute value. `_parse_options`, transforms.py 132–153. -/
def V.asValue : V → AVal
  | .text s => .str s
  | _ => .other "child"

mutual
/-- transforms.py 132–153 `_parse_options`: the changed tree and the selected values.  `attributes` is present
exactly when not empty; `vdom["children"][0]` is evaluated even when there is a value. -/
def parseOptions : V → Except Err (V × List AVal)
  | .elem tag attrs js hs kids =>
    if tag = "option" ∧ attrs ≠ [] then
      match kids with
      | [] => .error .key
      | k :: ks => do
        let value := (get attrs "value").getD k.asValue
        let attrs := if (get attrs "value").isNone then put attrs "value" value else attrs
        let (attrs, sel) := if (get attrs "selected").isSome then (del attrs "selected", [value]) else (attrs, [])
        let (k', s) ← parseOptions k
        let (ks', ss) ← parseOptionsL ks
        return (.elem tag attrs js hs (k' :: ks'), sel ++ s ++ ss)
    else do
      let (kids, sel) ← parseOptionsL kids
      return (.elem tag attrs js hs kids, sel)
  | v => .ok (v, [])
/-- The loop over the children in `_parse_options`, transforms.py 150–151. -/
def parseOptionsL : List V → Except Err (List V × List AVal)
  | [] => .ok ([], [])
  | v :: vs => do
    let (v', s) ← parseOptions v
    let (vs', ss) ← parseOptionsL vs
    return (v' :: vs', s ++ ss)
end

/-- transforms.py 63–81 `select_element_to_reactjs`. -/
def selectElement (tag : String) (attrs : List (String × AVal)) (kids : List V) : Except Err (List (String × AVal) × List V) :=
  if tag ≠ "select" ∨ kids = [] then .ok (attrs, kids)
  else do
    let multiple := (get attrs "multiple").isSome
    let (kids, selected) ← parseOptionsL kids
    let attrs := if multiple then put attrs "multiple" .true else attrs
    match selected with
    | [] => return (attrs, kids)
    | s :: ss => return (put attrs "defaultValue" (if multiple then .many (s :: ss) else s), kids)

/-- transforms.py 49–60 `textarea_children_to_prop`; `defaultValue` is a string here. -/
def textarea (tag : String) (attrs : List (String × AVal)) (kids : List V) : List (String × AVal) × List V :=
  if tag = "textarea" ∧ kids ≠ [] then
    let text := String.join (kids.filterMap (fun k => match k with | .text s => some s | _ => none))
    let default := (get attrs "defaultValue").getD (.str "")
    (put (del attrs "defaultValue") "defaultValue" (if text = "" then default else .str text), [])
  else (attrs, kids)

/-- transforms.py 24–31 `RequiredTransforms`: every transform, in the order of `dir`, that is by name. -/
def requiredTransforms (intercept : Bool) : V → Except Err V
  | .elem tag attrs js hs kids => do
    let attrs := inferKey tag attrs
    let attrs := inputValue tag attrs
    let hs := if tag = "a" && intercept then hs ++ ["onClick"] else hs
    let attrs := normalizeStyle attrs
    let (attrs, kids) ← selectElement tag attrs kids
    let (attrs, kids) := textarea tag attrs kids
    return .elem tag attrs js hs kids
  | v => .ok v

mutual
/-- utils.py 145–171 `_etree_to_vdom`, without transforms given by the user. -/
def toVdom (intercept : Bool) : El → Except Err V
  | .mk tag attrs text kids => do
    let children ← toVdomL intercept kids
    let el ← construct tag (attributesToReact attrs) ((if text ≠ "" then [.text text] else []) ++ children)
    requiredTransforms intercept el
/-- utils.py 218–237 `_generate_vdom_children`, the children and their tails. -/
def toVdomL (intercept : Bool) : List (El × String) → Except Err (List V)
  | [] => .ok []
  | (e, tail) :: ks => do
    let v ← toVdom intercept e
    let vs ← toVdomL intercept ks
    return v :: ((if tail ≠ "" then [.text tail] else []) ++ vs)
end

end Verif.Markup
