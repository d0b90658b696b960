import Verif.Markup.AttrsSpec
/-! # The attributes that reactpy documents, and their names in HTML -/
namespace Verif.Markup

/-- types.py 551–794 `VdomAttributesTypeDict`: the attributes an element may have, as a user of reactpy writes them.  Left out:
the prefixes `aria-` and `data-`. -/
def documented : List String :=
  ["key", "value", "defaultValue", "dangerouslySetInnerHTML", "suppressContentEditableWarning",
   "suppressHydrationWarning", "style", "accessKey", "autoCapitalize", "className", "contentEditable", "dir",
   "draggable", "enterKeyHint", "htmlFor", "hidden", "id", "is", "inputMode", "itemProp", "lang", "onAnimationEnd",
   "onAnimationEndCapture", "onAnimationIteration", "onAnimationIterationCapture", "onAnimationStart",
   "onAnimationStartCapture", "onAuxClick", "onAuxClickCapture", "onBeforeInput", "onBeforeInputCapture", "onBlur",
   "onBlurCapture", "onClick", "onClickCapture", "onCompositionStart", "onCompositionStartCapture", "onCompositionEnd",
   "onCompositionEndCapture", "onCompositionUpdate", "onCompositionUpdateCapture", "onContextMenu",
   "onContextMenuCapture", "onCopy", "onCopyCapture", "onCut", "onCutCapture", "onDoubleClick", "onDoubleClickCapture",
   "onDrag", "onDragCapture", "onDragEnd", "onDragEndCapture", "onDragEnter", "onDragEnterCapture", "onDragOver",
   "onDragOverCapture", "onDragStart", "onDragStartCapture", "onDrop", "onDropCapture", "onFocus", "onFocusCapture",
   "onGotPointerCapture", "onGotPointerCaptureCapture", "onKeyDown", "onKeyDownCapture", "onKeyPress",
   "onKeyPressCapture", "onKeyUp", "onKeyUpCapture", "onLostPointerCapture", "onLostPointerCaptureCapture",
   "onMouseDown", "onMouseDownCapture", "onMouseEnter", "onMouseLeave", "onMouseMove", "onMouseMoveCapture",
   "onMouseOut", "onMouseOutCapture", "onMouseUp", "onMouseUpCapture", "onPointerCancel", "onPointerCancelCapture",
   "onPointerDown", "onPointerDownCapture", "onPointerEnter", "onPointerLeave", "onPointerMove",
   "onPointerMoveCapture", "onPointerOut", "onPointerOutCapture", "onPointerUp", "onPointerUpCapture", "onPaste",
   "onPasteCapture", "onScroll", "onScrollCapture", "onSelect", "onSelectCapture", "onTouchCancel",
   "onTouchCancelCapture", "onTouchEnd", "onTouchEndCapture", "onTouchMove", "onTouchMoveCapture", "onTouchStart",
   "onTouchStartCapture", "onTransitionEnd", "onTransitionEndCapture", "onWheel", "onWheelCapture", "role", "slot",
   "spellCheck", "tabIndex", "title", "translate", "onReset", "onResetCapture", "onSubmit", "onSubmitCapture",
   "formAction", "checked", "defaultChecked", "accept", "alt", "capture", "autoComplete", "autoFocus", "dirname",
   "disabled", "form", "formEnctype", "formMethod", "formNoValidate", "formTarget", "height", "list", "max",
   "maxLength", "min", "minLength", "multiple", "name", "onChange", "onChangeCapture", "onInput", "onInputCapture",
   "onInvalid", "onInvalidCapture", "pattern", "placeholder", "readOnly", "required", "size", "src", "step", "type",
   "width", "label", "cols", "rows", "wrap", "rel", "precedence", "media", "onError", "onLoad", "as", "imageSrcSet",
   "imageSizes", "sizes", "href", "crossOrigin", "referrerPolicy", "fetchPriority", "hrefLang", "integrity",
   "blocking", "async", "noModule", "nonce", "referrer", "defer", "onToggle", "onToggleCapture", "onLoadCapture",
   "onErrorCapture", "onAbort", "onAbortCapture", "onCanPlay", "onCanPlayCapture", "onCanPlayThrough",
   "onCanPlayThroughCapture", "onDurationChange", "onDurationChangeCapture", "onEmptied", "onEmptiedCapture",
   "onEncrypted", "onEncryptedCapture", "onEnded", "onEndedCapture", "onLoadedData", "onLoadedDataCapture",
   "onLoadedMetadata", "onLoadedMetadataCapture", "onLoadStart", "onLoadStartCapture", "onPause", "onPauseCapture",
   "onPlay", "onPlayCapture", "onPlaying", "onPlayingCapture", "onProgress", "onProgressCapture", "onRateChange",
   "onRateChangeCapture", "onResize", "onResizeCapture", "onSeeked", "onSeekedCapture", "onSeeking",
   "onSeekingCapture", "onStalled", "onStalledCapture", "onSuspend", "onSuspendCapture", "onTimeUpdate",
   "onTimeUpdateCapture", "onVolumeChange", "onVolumeChangeCapture", "onWaiting", "onWaitingCapture"]

/-- `acceptCharset` and `httpEquiv` of transforms.py 403–404, which types.py does not list. -/
def alsoKnown : List String := ["acceptCharset", "httpEquiv"]

/-- The names, in lower case as the parser gives them, under which an attribute may be written in HTML: that of HTML where it
differs (`class`), and its own.  `checked` in HTML is the initial state, `defaultChecked`. (transforms.py 399–405) -/
def htmlNames (n : String) : List String :=
  if n = "className" then ["class", "classname"]
  else if n = "htmlFor" then ["for", "htmlfor"]
  else if n = "defaultChecked" then ["checked", "defaultchecked"]
  else if n = "checked" then []
  else if n = "acceptCharset" then ["accept-charset"]
  else if n = "httpEquiv" then ["http-equiv", "httpequiv"]
  else [String.ofList (n.toList.map Char.toLower)]

/-- The event handlers that every element may have in HTML (the HTML standard, 8.1.8.2; not in /repo). -/
def standardHandlers : List String :=
  ["onabort", "onauxclick", "onbeforeinput", "onbeforematch", "onbeforetoggle", "onblur", "oncancel", "oncanplay",
   "oncanplaythrough", "onchange", "onclick", "onclose", "oncontextlost", "oncontextmenu", "oncontextrestored",
   "oncopy", "oncuechange", "oncut", "ondblclick", "ondrag", "ondragend", "ondragenter", "ondragleave", "ondragover",
   "ondragstart", "ondrop", "ondurationchange", "onemptied", "onended", "onerror", "onfocus", "onformdata", "oninput",
   "oninvalid", "onkeydown", "onkeypress", "onkeyup", "onload", "onloadeddata", "onloadedmetadata", "onloadstart",
   "onmousedown", "onmouseenter", "onmouseleave", "onmousemove", "onmouseout", "onmouseover", "onmouseup", "onpaste",
   "onpause", "onplay", "onplaying", "onprogress", "onratechange", "onreset", "onresize", "onscroll", "onscrollend",
   "onsecuritypolicyviolation", "onseeked", "onseeking", "onselect", "onslotchange", "onstalled", "onsubmit",
   "onsuspend", "ontimeupdate", "ontoggle", "onvolumechange", "onwaiting", "onwheel"]

/-- Those that reactpy has no name for: transforms.py 164–397 lists none that is the same but for capitals. -/
def unknownHandlers : List String :=
  ["onbeforematch", "onbeforetoggle", "oncancel", "onclose", "oncontextlost", "oncontextrestored", "oncuechange",
   "ondblclick", "ondragleave", "onformdata", "onmouseover", "onscrollend", "onsecuritypolicyviolation", "onslotchange"]

end Verif.Markup
