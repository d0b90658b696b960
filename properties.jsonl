{"id": "C01", "title": "Client view equals the expansion of the latest renders", "statement": "When a client applies every layout update returned by Layout.render() (serial rendering), in order, to an initially empty model, every update's path resolves in the client's tree, and after each update the client's tree is exactly the recursive expansion of the root component: every element shows the tag, attributes, handlers and children its component most recently returned (None children dropped, other values as text, order kept), and every child component is expanded from its own most recent render, or shown as an error fragment if that render raised.", "quantifier": "every root component, every user component behaviour (arbitrary results or exceptions per render), every sequence of state changes, events and render() calls, trees of any size and depth", "why_tests_cant": "The differ's result depends on the whole history of keys, types, indices and paths; tests sample a handful of re-render shapes.", "anchors": ["src/reactpy/core/layout.py:Layout._create_layout_update", "src/reactpy/core/layout.py:Layout._render_component", "src/reactpy/core/layout.py:Layout._render_model_children", "src/reactpy/core/layout.py:_get_children_info", "src/reactpy/executors/pyscript/layout_handler.py:ReactPyLayoutHandler.update_model"]}
{"id": "C02", "title": "Component state follows key and type", "statement": "When a component re-renders, a child component keeps its instance (and so all its hook state) if and only if the previous render had, at the same place (same chain of keys), a child component with the same key and the same component type; reordering keyed siblings never loses or swaps instances, and a new instance is otherwise created with fresh state.", "quantifier": "every old tree, every new rendered output, every permutation of keyed siblings at any depth", "why_tests_cant": "The number of old/new child-list pairs is unbounded; an aliasing of two instances only shows for particular key/type mixes.", "anchors": ["src/reactpy/core/layout.py:Layout._render_component", "src/reactpy/core/layout.py:_update_component_model_state", "src/reactpy/core/layout.py:_update_life_cycle_state"]}
{"id": "C03", "title": "Mount/unmount exactly once, nothing leaks", "statement": "Every component instance that is mounted is unmounted (its effects stopped) exactly once: when it leaves the rendered tree or when the layout is exited, and never while it is still displayed. After the layout exits no instance is left mounted.", "quantifier": "every history of renders and state changes followed by exit, every tree shape, component failures included", "why_tests_cant": "Leaks are invisible in a single render's output and depend on the exact sequence of replaced subtrees.", "anchors": ["src/reactpy/core/layout.py:Layout._unmount_model_states", "src/reactpy/core/layout.py:Layout.__aexit__", "src/reactpy/core/_life_cycle_hook.py:LifeCycleHook.affect_component_will_unmount"]}
{"id": "C04", "title": "Events reach the handler currently displayed", "statement": "For every event handler entry shown in the client's tree, delivering an event to that entry's target calls exactly the Python function which the most recent render attached to that element and event name.", "quantifier": "every reachable layout state, every element and event name in the displayed tree", "why_tests_cant": "Targets are derived strings re-used between renders; a wrong or stale mapping appears only for particular histories.", "anchors": ["src/reactpy/core/layout.py:Layout._render_model_attributes", "src/reactpy/core/layout.py:Layout._render_model_event_handlers_without_old_state", "src/reactpy/core/layout.py:Layout._process_event_queue"]}
{"id": "C05", "title": "No handler of a removed element can run", "statement": "Once an element or one of its event handlers is no longer displayed, no event sent by a client can run that handler: the set of invocable targets is exactly the set of targets in the displayed tree.", "quantifier": "every reachable layout state, every target string a client may send", "why_tests_cant": "A leaked registration is only observable by sending a target that no longer exists.", "anchors": ["src/reactpy/core/layout.py:Layout._unmount_model_states", "src/reactpy/core/layout.py:Layout._render_model_attributes"]}
{"id": "C06", "title": "Event targets are unique", "statement": "Two different (element, event name) pairs displayed at the same time never share a target, so an event cannot be delivered to another element's handler.", "quantifier": "all pairs of elements in all displayed trees, all keys the user may choose", "why_tests_cant": "Collisions need particular key strings; the space of keys is infinite.", "anchors": ["src/reactpy/core/layout.py:_make_element_model_state", "src/reactpy/core/layout.py:Layout._render_model_attributes"]}
{"id": "C07", "title": "use_context sees the nearest enclosing provider", "statement": "At every render of a component, use_context(ctx) returns the value of the nearest enclosing provider of ctx in the displayed tree as of that provider's latest render, or the context's default if there is none; every displayed component has been rendered with the values its enclosing providers currently have.", "quantifier": "every tree, every nesting of providers and contexts, every sequence of re-renders starting anywhere in the tree", "why_tests_cant": "Provider tables are copied between hooks at render time and persist; staleness depends on which ancestor re-rendered.", "anchors": ["src/reactpy/core/_life_cycle_hook.py:LifeCycleHook.set_current", "src/reactpy/core/_life_cycle_hook.py:LifeCycleHook.get_context_provider", "src/reactpy/core/hooks.py:use_context", "src/reactpy/types.py:ContextProvider"]}
{"id": "C08", "title": "A failing component is contained", "statement": "If a component raises while rendering, only that component's place in the tree is replaced by an error fragment; its ancestors and siblings are displayed normally, Layout.render() does not raise, and later renders of any component keep working.", "quantifier": "every component that may raise at any render in any tree, and every later schedule of renders", "why_tests_cant": "The damage of a failed render (orphaned descendants) only appears when one of them re-renders later.", "anchors": ["src/reactpy/core/layout.py:Layout._render_component", "src/reactpy/core/layout.py:_ModelState.parent"]}
{"id": "C09", "title": "One render per component per update; effects after, children first", "statement": "During one layout update every component in the re-rendered subtree is rendered exactly once, parents before their children, and after the update completes the effects of each rendered component are started exactly once, children before parents.", "quantifier": "every subtree and every update", "why_tests_cant": "Ordering bugs depend on tree shape and on what was unmounted in the same update.", "anchors": ["src/reactpy/core/layout.py:Layout._render_component", "src/reactpy/core/layout.py:Layout._create_layout_update", "src/reactpy/core/_life_cycle_hook.py:LifeCycleHook.affect_layout_did_render"]}
{"id": "C10", "title": "Duplicate sibling keys are detected and nothing else is rejected", "statement": "A list of children is rejected exactly when two of its non-None children have the same effective key (explicit key, or position when no key is given); children with distinct explicit keys are always accepted.", "quantifier": "all child lists, all mixes of explicit keys and unkeyed children", "why_tests_cant": "Mixed keyed/unkeyed lists form an infinite family.", "anchors": ["src/reactpy/core/layout.py:_get_children_info", "src/reactpy/core/layout.py:Layout._render_model_children"]}
{"id": "C11", "title": "The browser client replaces the root model on a root update", "statement": "When the JavaScript client receives an update with the empty path its model becomes exactly the received model.", "quantifier": "all pairs of old and new root models", "why_tests_cant": "Stale keys survive only for particular old/new key sets (e.g. after an error).", "anchors": ["src/js/packages/@reactpy/client/src/components.tsx:Layout", "src/reactpy/executors/pyscript/layout_handler.py:ReactPyLayoutHandler.update_model"]}
{"id": "C12", "title": "No state change is ever lost by the scheduler", "statement": "If a state setter changes a mounted component's state, then a render of that component starts after the change (unless the component is unmounted first); setter calls that do not change the value schedule nothing; several changes before the render starts cause only one render.", "quantifier": "every interleaving of setter calls, render starts, cancellations and unmounts", "why_tests_cant": "A lost wake-up needs a particular interleaving of setter and render task.", "anchors": ["src/reactpy/core/_life_cycle_hook.py:LifeCycleHook.schedule_render", "src/reactpy/core/_life_cycle_hook.py:LifeCycleHook.affect_component_will_render", "src/reactpy/core/layout.py:Layout._schedule_render_task", "src/reactpy/core/hooks.py:_CurrentState"]}
{"id": "C13", "title": "render() hands out every finished update exactly once (parallel mode)", "statement": "Every scheduled render task is consumed by exactly one render() iteration, an update that completed is returned by exactly one render() call, cancelled tasks are skipped, and render() never blocks while an unconsumed finished task exists.", "quantifier": "every interleaving of scheduling, completion, cancellation and render() calls", "why_tests_cant": "The counting semaphore and the task set are updated at different times; an imbalance needs a long particular schedule.", "anchors": ["src/reactpy/core/layout.py:Layout._parallel_render", "src/reactpy/core/layout.py:Layout._schedule_render_task"]}
{"id": "C14", "title": "With parallel rendering the client ends up showing the newest render", "statement": "When all scheduled renders have completed and all their updates have been delivered and applied, the client displays for every component the result of its newest render.", "quantifier": "every schedule of state changes, task completions and render() calls with asynchronous rendering enabled", "why_tests_cant": "Delivery order of simultaneously finished tasks is arbitrary (set.pop).", "anchors": ["src/reactpy/core/layout.py:Layout._parallel_render", "src/reactpy/core/layout.py:Layout._create_layout_update"]}
{"id": "C15", "title": "The serial render queue drops nothing and duplicates nothing", "statement": "Each value put on the rendering queue while it is not already pending is obtained by exactly one later get; a put during a pending period is merged with it; values are obtained in the order of their first pending put; internal bookkeeping never raises; backpressure never loses a value.", "quantifier": "every interleaving of put (from any thread), the scheduled enqueue tasks and get, any queue size", "why_tests_cant": "Requires all interleavings of cross-thread puts and suspended enqueue tasks.", "anchors": ["src/reactpy/core/layout.py:_ThreadSafeQueue"]}
{"id": "C16", "title": "Events of one target are handled one at a time and in order", "statement": "Events delivered to the same target are handled sequentially in delivery order, each at most once, and each exactly once if its handler is registered when it is processed; an exception in a handler does not prevent later events from being handled; different targets do not block one another.", "quantifier": "all event sequences, all interleavings of targets, all handler outcomes, any queue size", "why_tests_cant": "Needs all interleavings of producers and per-target consumers.", "anchors": ["src/reactpy/core/layout.py:Layout.deliver", "src/reactpy/core/layout.py:Layout._process_event_queue"]}
{"id": "C17", "title": "Acknowledged sequence numbers are sound", "statement": "The ackSeq attached to an input element is monotone over time, is the largest client sequence number received for one of the element's handlers, and an element rendered with ackSeq n reflects the processing of all that element's events with sequence number at most n.", "quantifier": "all interleavings of event arrival, handler execution and re-rendering", "why_tests_cant": "Depends on a render slipping between recording the number and running the handler.", "anchors": ["src/reactpy/core/layout.py:Layout._process_event_queue", "src/reactpy/core/layout.py:Layout._inject_event_ack_seq"]}
{"id": "C18", "title": "The client never overwrites newer input with an older server value", "statement": "A user-input element ignores a server value whenever the server has not yet acknowledged every event the element has sent.", "quantifier": "all interleavings of keystrokes and server updates", "why_tests_cant": "A race between typing and network latency; tests use a few fixed timings.", "anchors": ["src/js/packages/@reactpy/client/src/components.tsx:UserInputElement", "src/js/packages/@reactpy/client/src/vdom.tsx:createEventHandler"]}
{"id": "C19", "title": "Hook state is positional and stable", "statement": "A component that calls the same hooks in the same order on every render gets, at every call position, the very same state cell in every render of the same instance, created by the first render's initial value and by nothing else; instances never share cells.", "quantifier": "all numbers of hooks, all renders, all instances", "why_tests_cant": "Index bookkeeping must hold for every prefix of every render history.", "anchors": ["src/reactpy/core/_life_cycle_hook.py:LifeCycleHook.use_state", "src/reactpy/core/_life_cycle_hook.py:LifeCycleHook.affect_component_did_render", "src/reactpy/core/hooks.py:_use_const"]}
{"id": "C20", "title": "State updates are applied in order and none is lost", "statement": "After any sequence of setter calls the state equals the left fold of the updates over the initial value (values replace, functions map the current value), up to the library's equality; a render reads the value after all preceding updates.", "quantifier": "all sequences of value and functional updates, interleaved with renders", "why_tests_cant": "All update sequences and interleavings.", "anchors": ["src/reactpy/core/hooks.py:_CurrentState", "src/reactpy/core/hooks.py:use_state"]}
{"id": "C21", "title": "use_reducer folds actions", "statement": "The state of use_reducer equals the left fold of the dispatched actions with the reducer passed in the current render.", "quantifier": "all reducers, action sequences and renders that may pass different reducers", "why_tests_cant": "All action sequences; also reducers that change between renders.", "anchors": ["src/reactpy/core/hooks.py:use_reducer", "src/reactpy/core/hooks.py:_create_dispatcher"]}
{"id": "C22", "title": "use_memo is exact", "statement": "In every render use_memo returns the value computed by the function of the most recent render whose dependencies differed from those before (or were None); in particular the returned value was computed under dependencies equal to the current ones; the function is called only when the dependencies changed.", "quantifier": "all sequences of dependency tuples and functions, including functions that raise", "why_tests_cant": "Histories of dependencies with failures in between are unbounded.", "anchors": ["src/reactpy/core/hooks.py:use_memo", "src/reactpy/core/hooks.py:_Memo"]}
{"id": "C23", "title": "use_callback and use_ref keep identity", "statement": "use_ref returns the same object in all renders of an instance; use_callback returns the same function object as long as dependencies are equal, and a function created in a render with equal dependencies otherwise.", "quantifier": "all sequences of renders and dependencies", "why_tests_cant": "All histories.", "anchors": ["src/reactpy/core/hooks.py:use_callback", "src/reactpy/core/hooks.py:use_ref"]}
{"id": "C24", "title": "A component recovers after a failed first render", "statement": "If a component's render raises and a later render of the same instance does not raise, the later render displays normally with properly initialised state.", "quantifier": "all points at which the first render may raise (before, between or after its hooks)", "why_tests_cant": "Needs failure at each hook position.", "anchors": ["src/reactpy/core/_life_cycle_hook.py:LifeCycleHook.use_state", "src/reactpy/core/_life_cycle_hook.py:LifeCycleHook.affect_component_did_render"]}
{"id": "C25", "title": "Effect clean-ups run exactly once and before the next effect", "statement": "For every use_effect, each effect body that returned a clean-up function has that function called exactly once: before the next body of the same effect starts or when the component unmounts; at most one generation is active at any time and after unmount none is.", "quantifier": "all sequences of renders (effect re-runs) and interleavings of the effect tasks and the unmount", "why_tests_cant": "Interleavings of effect tasks with stop events.", "anchors": ["src/reactpy/core/hooks.py:use_effect", "src/reactpy/core/hooks.py:run_effect_cleanup", "src/reactpy/core/_life_cycle_hook.py:LifeCycleHook.affect_layout_did_render", "src/reactpy/core/_life_cycle_hook.py:LifeCycleHook.affect_component_will_unmount"]}
{"id": "C26", "title": "Effects run after a render exactly when their dependencies changed", "statement": "After each render an effect's body is scheduled exactly once if it is the first render, the dependencies are None or differ from the previous render's, and not otherwise.", "quantifier": "all sequences of renders and dependencies", "why_tests_cant": "All histories of dependencies.", "anchors": ["src/reactpy/core/hooks.py:use_effect", "src/reactpy/core/_life_cycle_hook.py:LifeCycleHook.add_effect", "src/reactpy/core/hooks.py:use_memo"]}
{"id": "C27", "title": "Async effects: every returned clean-up runs exactly once", "statement": "For every use_async_effect (shielded or not) each completed effect coroutine's clean-up function is called exactly once, before the next generation's coroutine starts or at unmount, and no two generations' coroutines run at the same time.", "quantifier": "all interleavings of effect tasks, coroutine completion, cancellation, re-runs and unmount", "why_tests_cant": "The interleaving space of three tasks per generation is unbounded.", "anchors": ["src/reactpy/core/hooks.py:use_async_effect"]}
{"id": "C28", "title": "State equality is a sound change test", "statement": "If the library considers two values equal (no re-render, no recomputation) then they are indistinguishable for the component; values of different types are never equal.", "quantifier": "all pairs of Python values, functions included", "why_tests_cant": "All pairs of values, including closures.", "anchors": ["src/reactpy/core/hooks.py:strictly_equal"]}
{"id": "C29", "title": "Children are flattened completely and in order", "statement": "An element constructor's children are exactly the leaves of the nested iterables it was given, in left-to-right order, with strings and mappings never split; attributes are taken only from a leading plain dict.", "quantifier": "all nestings of iterables of any depth", "why_tests_cant": "Infinite family of nestings.", "anchors": ["src/reactpy/core/vdom.py:separate_attributes_and_children", "src/reactpy/core/vdom.py:_flatten_children"]}
{"id": "C30", "title": "Every attribute lands in exactly one place", "statement": "Each attribute passed to an element constructor appears in exactly one of attributes, eventHandlers and inlineJavaScript of the result, unchanged and in order, according to its value's kind; nothing is lost.", "quantifier": "all attribute dicts and all element constructors", "why_tests_cant": "All key/value mixes, all constructors.", "anchors": ["src/reactpy/core/vdom.py:separate_attributes_handlers_and_inline_javascript", "src/reactpy/core/vdom.py:Vdom.__call__", "src/reactpy/_html.py:_fragment"]}
{"id": "C31", "title": "Every emitted model satisfies the VDOM JSON schema", "statement": "Every model in every layout update satisfies VDOM_JSON_SCHEMA, including that error models have an empty tag name.", "quantifier": "all renders of all trees", "why_tests_cant": "All trees; validation is off by default.", "anchors": ["src/reactpy/core/vdom.py:VDOM_JSON_SCHEMA", "src/reactpy/core/layout.py:Layout._create_layout_update"]}
{"id": "C32", "title": "Merged event handlers call every handler once and refuse conflicts", "statement": "merge_event_handlers returns a handler that calls every merged function exactly once with the event data, keeps the shared settings, and raises ValueError exactly when settings conflict (or the list is empty).", "quantifier": "all lists of handlers and event data", "why_tests_cant": "All list lengths and setting mixes.", "anchors": ["src/reactpy/core/events.py:merge_event_handlers", "src/reactpy/core/events.py:merge_event_handler_funcs"]}
{"id": "C33", "title": "Debounce inspection never guesses", "statement": "inspect_event_handler reports a debounce value only if no assignment to event.debounce in the handler has an unresolvable value, and preventDefault/stopPropagation are reported exactly when the handler's code accesses them on its event argument.", "quantifier": "all instruction sequences", "why_tests_cant": "Unbounded instruction sequences.", "anchors": ["src/reactpy/core/_event_inspect.py:inspect_event_handler", "src/reactpy/core/_event_inspect.py:_resolve_debounce_value"]}
{"id": "C34", "title": "Options notify subscribers exactly on change and children follow parents", "statement": "After any sequence of set, unset, reload and set_default operations, every subscriber has been called with each new current value exactly when the value changed, in order, and a child option's value equals its parent's value whenever the parent changed last.", "quantifier": "all sequences of operations on a parent and its children, all validators", "why_tests_cant": "All operation sequences.", "anchors": ["src/reactpy/_option.py:Option.set_current", "src/reactpy/_option.py:Option.subscribe", "src/reactpy/_option.py:Option.unset"]}
{"id": "C35", "title": "An option's environment variable takes effect", "statement": "If the environment defines an option's variable with a valid value, the option's initial current value is that value.", "quantifier": "all options (with and without parent), all values", "why_tests_cant": "Depends on the combination of the option's and its parent's environment.", "anchors": ["src/reactpy/_option.py:Option.__init__"]}
{"id": "C36", "title": "Immutable or rejected option updates change nothing; set_default never fails on valid input", "statement": "An immutable option's value never changes after construction; a rejected value leaves the option unchanged; set_default(v) returns the current value, setting it only if unset.", "quantifier": "all operation sequences", "why_tests_cant": "All operation sequences and values.", "anchors": ["src/reactpy/_option.py:Option.set_current", "src/reactpy/_option.py:Option.set_default"]}
{"id": "C37", "title": "HTML string conversion preserves content and order", "statement": "reactpy_to_string(vdom) is the HTML text obtained by serialising the VDOM tree directly (tags, text and nested children in document order, fragments inlined), and shows the same text the layout would display.", "quantifier": "all VDOM trees", "why_tests_cant": "The text/tail bookkeeping of the element tree must be right for every interleaving of text and elements.", "anchors": ["src/reactpy/utils.py:reactpy_to_string", "src/reactpy/utils.py:_add_vdom_to_etree"]}
{"id": "C38", "title": "Parsing HTML keeps text and elements in order", "statement": "string_to_reactpy of a document has the document's elements and text in document order; converting the result back yields the same structure.", "quantifier": "all element trees", "why_tests_cant": "All interleavings of text and elements.", "anchors": ["src/reactpy/utils.py:_generate_vdom_children", "src/reactpy/utils.py:etree_to_vdom"]}
{"id": "C39", "title": "Style names survive conversion", "statement": "Converting a CSS property name to its camelCase form and back to kebab-case yields the original name; so does converting the name of a style in a component to kebab-case and back.", "quantifier": "all CSS property names", "why_tests_cant": "All names, including vendor prefixes and custom properties.", "anchors": ["src/reactpy/transforms.py:RequiredTransforms.normalize_style_attributes", "src/reactpy/utils.py:_react_attribute_to_html"]}
{"id": "C40", "title": "HTML attribute names are normalised idempotently", "statement": "Normalising attribute names to React props is idempotent, never drops an attribute, and maps distinct attributes to distinct props.", "quantifier": "all attribute dicts", "why_tests_cant": "All dicts over an infinite set of names.", "anchors": ["src/reactpy/transforms.py:attributes_to_reactjs", "src/reactpy/transforms.py:RequiredTransforms"]}
{"id": "C41", "title": "Only registered root components can be served", "statement": "For every websocket path a client may request, the middleware renders a component only if the path names one of the registered root components; otherwise no component code runs.", "quantifier": "all request paths and registrations", "why_tests_cant": "All strings; regular-expression corner cases.", "anchors": ["src/reactpy/executors/asgi/middleware.py:ReactPyMiddleware.match_dispatch_path", "src/reactpy/executors/asgi/middleware.py:ReactPyWebsocket.run_dispatcher"]}
{"id": "C42", "title": "Requests are routed to exactly one application with fixed priority", "statement": "Every request is handled by exactly one of: component dispatcher (websocket), static files, web modules, user routes, user app, in that order of priority, and requests outside the ReactPy path prefix always reach the user's application.", "quantifier": "all scopes, all prefixes, all registered routes", "why_tests_cant": "All paths and prefixes.", "anchors": ["src/reactpy/executors/asgi/middleware.py:ReactPyMiddleware.__call__", "src/reactpy/executors/asgi/standalone.py:ReactPy.match_extra_paths"]}
{"id": "C43", "title": "Relative module URLs resolve within the base", "statement": "Relative import URLs are resolved like standard URL resolution: './' stays in the base directory, each '../' removes one directory, and resolution never changes the host.", "quantifier": "all base URLs and relative references", "why_tests_cant": "All reference shapes.", "anchors": ["src/reactpy/reactjs/utils.py:normalize_url_path"]}
{"id": "C44", "title": "Export resolution finds exactly the names reachable by re-exports", "statement": "resolve_names_from_url/file terminate for every (possibly cyclic) module graph and return exactly the names exported by the modules reachable through re-exports within the depth limit, independently of the order of re-exports.", "quantifier": "all module graphs, all depth limits, all iteration orders", "why_tests_cant": "Cyclic and branching graphs of any size; set iteration order.", "anchors": ["src/reactpy/reactjs/utils.py:resolve_names_from_file", "src/reactpy/reactjs/utils.py:resolve_names_from_url"]}
{"id": "C45", "title": "The module file lock is exclusive", "statement": "At most one process is inside file_lock(f) at any time; a process that leaves (normally or by exception) lets another in; a process that crashes inside does not block others for ever.", "quantifier": "all interleavings of any number of processes, all crash points", "why_tests_cant": "Concurrency and crashes.", "anchors": ["src/reactpy/reactjs/utils.py:file_lock"]}
{"id": "C46", "title": "Web module files are replaced atomically", "statement": "At every moment, and after a crash at any point, a module file is absent (only if it was absent), has its old content or has the complete new content.", "quantifier": "all crash points, all interleavings with readers, all contents", "why_tests_cant": "Crash points between system calls.", "anchors": ["src/reactpy/reactjs/utils.py:copy_file", "src/reactpy/reactjs/module.py:file_to_module", "src/reactpy/reactjs/module.py:string_to_module"]}
{"id": "C47", "title": "Throttling bounds the rate and keeps the last event", "statement": "A throttled handler fires at most once per interval, fires in event order, and the last event is eventually delivered.", "quantifier": "all event time sequences, all timer latencies", "why_tests_cant": "Timing-dependent.", "anchors": ["src/js/packages/@reactpy/client/src/components.tsx:throttleHandler"]}
{"id": "C48", "title": "Debouncing delivers exactly the last event of each burst", "statement": "A debounced handler fires once per burst, with the last event's arguments, after the quiet period, and never loses the last event.", "quantifier": "all event time sequences", "why_tests_cant": "Timing-dependent.", "anchors": ["src/js/packages/@reactpy/client/src/components.tsx:debounceHandler"]}
{"id": "C49", "title": "Reconnection backs off within its bounds", "statement": "Reconnect delays grow geometrically, never exceed the configured maximum, at most maxRetries attempts are made between successful connections, and a successful connection resets the schedule.", "quantifier": "all sequences of opens and closes, all configurations", "why_tests_cant": "All connection histories.", "anchors": ["src/js/packages/@reactpy/client/src/websocket.ts:createReconnectingWebSocket"]}
{"id": "C50", "title": "Client messages are sent in order, none while disconnected", "statement": "Messages passed to sendMessage are handed to the socket exactly once, in order, only while it is open; messages sent while disconnected are queued and flushed on reconnect.", "quantifier": "all interleavings of sendMessage and connection changes", "why_tests_cant": "All interleavings.", "anchors": ["src/js/packages/@reactpy/client/src/client.ts:ReactPyClient.sendMessage"]}
{"id": "C51", "title": "Event conversion is total and bounded", "statement": "Converting any (cyclic) event object terminates, the result contains no cycle, and nesting depth is bounded by maxDepth.", "quantifier": "all object graphs, all depth limits", "why_tests_cant": "All cyclic graphs.", "anchors": ["src/js/packages/event-to-object/src/index.ts:convert"]}
{"id": "C52", "title": "VDOM dictionaries only hold VDOM keys", "statement": "A VdomDict never contains a key other than the VDOM keys.", "quantifier": "all sequences of mutations", "why_tests_cant": "All mutation sequences through every dict method.", "anchors": ["src/reactpy/types.py:VdomDict"]}
{"id": "C53", "title": "Attribute renaming is idempotent", "statement": "The code-rewriting command maps each snake_case attribute to the same camelCase name and leaves already rewritten names unchanged.", "quantifier": "all attribute names", "why_tests_cant": "All strings.", "anchors": ["src/reactpy/_console/rewrite_props.py:conv_attr_name"]}
{"id": "C54", "title": "Inline image sources decode to the image", "statement": "widgets.image produces an img element whose src, unless the attributes given override it, is a data URL whose base64 payload decodes to exactly the given bytes.", "quantifier": "all byte strings", "why_tests_cant": "All lengths modulo 3 and all byte values.", "anchors": ["src/reactpy/widgets.py:image"]}
{"id": "C55", "title": "Standalone responses are consistent", "statement": "The standalone app answers HEAD without body, answers 304 exactly when the client's validators match, and declares a content-length equal to the number of bytes sent.", "quantifier": "all request headers and index documents", "why_tests_cant": "All documents including non-ASCII.", "anchors": ["src/reactpy/executors/asgi/standalone.py:ReactPyApp.__call__"]}
{"id": "C56", "title": "PyScript workspaces are garbage collected", "statement": "After a PyScript layout starts, the only remaining workspaces are those whose UUID is still present in the document, and no live workspace is removed.", "quantifier": "all documents and workspace sets", "why_tests_cant": "All combinations.", "anchors": ["src/reactpy/executors/pyscript/layout_handler.py:ReactPyLayoutHandler.delete_old_workspaces"]}
{"id": "C57", "title": "Attribute names survive HTML conversion", "statement": "An attribute of an HTML document converted by string_to_reactpy and back by reactpy_to_string has the same HTML name and text; a documented attribute of a component written by reactpy_to_string and read by string_to_reactpy has the same name and text.", "quantifier": "all attribute names and values", "why_tests_cant": "The two conversions use different tables over an infinite set of names; only a proof shows where they are inverse.", "anchors": ["src/reactpy/transforms.py:attributes_to_reactjs", "src/reactpy/utils.py:_react_attribute_to_html"]}
{"id": "C58", "title": "User routes of the standalone app", "statement": "A route registered with a standalone app is called for exactly the paths its pattern matches in full; registering a path again replaces its app; other requests get the ReactPy page; at most one lifespan app can be registered.", "quantifier": "all sequences of registrations, all paths", "why_tests_cant": "The routes are regular expressions over all strings, and the outcome depends on the whole registration history.", "anchors": ["src/reactpy/executors/asgi/standalone.py:ReactPy.match_extra_paths", "src/reactpy/executors/asgi/standalone.py:ReactPy.route", "src/reactpy/executors/asgi/standalone.py:ReactPy.lifespan"]}
{"id": "C59", "title": "Linked inputs agree", "statement": "Inputs created together by use_linked_inputs always show the same value: the one most recently typed into any of them; on_change is called once per change with the converted value, in order, except for ignored empty values.", "quantifier": "all numbers of inputs and all sequences of changes to any of them", "why_tests_cant": "Every history of edits over any number of inputs.", "anchors": ["src/reactpy/widgets.py:use_linked_inputs"]}
{"id": "C61", "title": "The PyScript document shows the model", "statement": "The document a PyScript layout builds in the browser has the elements, attributes, texts and listeners of the current model in order, with fragments and component wrappers removed, and each listener addresses the handler of the model and applies the handler's options; imported components, inline JavaScript and errors are not lost.", "quantifier": "all models and all runs", "why_tests_cant": "Models are trees of any shape and depth.", "anchors": ["src/reactpy/executors/pyscript/layout_handler.py:ReactPyLayoutHandler.build_element_tree"]}
{"id": "C62", "title": "Minified PyScript sources keep the program", "statement": "The Python source sent to the browser has the same lines of code, with the same indentation and order, as the file given; only blank lines, comments and docstrings are removed.", "quantifier": "all source files", "why_tests_cant": "All texts; regular expressions applied to source code.", "anchors": ["src/reactpy/executors/pyscript/utils.py:minify_python", "src/reactpy/executors/pyscript/utils.py:fetch_cached_python_file"]}
{"id": "C60", "title": "Repeated imports give what the call asks for", "statement": "Each call of component_from_url/npm/file/string gives constructors for exactly the names asked for, carrying this call's module, unmount flag and fallback; the module file served has the contents given; the call fails exactly if a name asked for is not exported.", "quantifier": "all sequences of calls in one process, with any names, contents, flags and fallbacks", "why_tests_cant": "Histories of calls sharing a cache.", "anchors": ["src/reactpy/reactjs/__init__.py:component_from_url", "src/reactpy/reactjs/__init__.py:component_from_file", "src/reactpy/reactjs/__init__.py:component_from_string", "src/reactpy/reactjs/module.py:module_to_vdom"]}
{"id": "C63", "title": "Exported names are recognised", "statement": "Every name a JavaScript module exports is found, nothing else is, and exactly the modules of its `export * from` statements are read as well; the default export is left out of a module read in this way.", "quantifier": "all module texts", "why_tests_cant": "Texts of any length with any number of statements.", "anchors": ["src/reactpy/reactjs/utils.py:resolve_names_from_source"]}
{"id": "C64", "title": "Each module has its own file inside the modules directory", "statement": "The file of a module lies inside the configured modules directory, modules with different names have different files, and the file's extension is that of the module's path, never a part of its version, and js if the path has none.", "quantifier": "all module names", "why_tests_cant": "All strings.", "anchors": ["src/reactpy/reactjs/module.py:get_module_path", "src/reactpy/reactjs/module.py:module_name_suffix"]}
{"id": "C65", "title": "When effect coroutines are cancelled", "statement": "A coroutine of use_async_effect with shield=True is never cancelled by the library; without it a coroutine that is still running is asked to stop when the effect runs again or the component is unmounted, and not before; in both cases the effect is not finished before its coroutine is.", "quantifier": "all interleavings of effect tasks, coroutine completion, re-runs and unmount, shielded or not", "why_tests_cant": "The request depends on which task reaches its suspension point first.", "anchors": ["src/reactpy/core/hooks.py:use_async_effect"]}
{"id": "C66", "title": "Event data are faithful", "statement": "Every entry of the plain data that event-to-object makes of a browser event, at every level of nesting, shows the property of that name (or the form element of that name) of the object it belongs to: primitives unchanged, list members in order, each name once. Nothing is missing: every property that a for-in loop visits, and dataset, value, checked, files, type, name and the named elements of a form, is there, unless it is not data (null, undefined, a function, a window, document or style sheet, a filtered name), is an ancestor, or lies below the depth limit. An Event also gets the window selection.", "quantifier": "all object graphs, finite or infinite, cyclic or not, with getters that raise, all depth limits and all selections", "why_tests_cant": "Object graphs are arbitrary; tests convert a handful of event types.", "anchors": ["src/js/packages/event-to-object/src/index.ts:convert", "src/js/packages/event-to-object/src/index.ts:deepCloneClass", "src/js/packages/event-to-object/src/index.ts:classToObject", "src/js/packages/event-to-object/src/index.ts:shouldIgnoreValue"]}
{"id": "C67", "title": "HTML attributes survive import", "statement": "string_to_reactpy keeps every attribute of every element, under the name React uses for it and with the same text. Exceptions are exactly these: on… attributes become inline JavaScript, style becomes a dict of its declarations, the value of an input and the text of a textarea become initial values, the selected options of a select become its initial value(s), an id (or the name of a form field) also becomes the key, and a link gets an onClick handler that prevents navigation when interception is on. Children and text stay in order.", "quantifier": "all element trees: tags, attribute lists, text, nesting, with and without link interception", "why_tests_cant": "HTML is unbounded; tests import a few dozen snippets.", "anchors": ["src/reactpy/transforms.py:RequiredTransforms", "src/reactpy/transforms.py:attributes_to_reactjs", "src/reactpy/utils.py:string_to_reactpy", "src/reactpy/utils.py:_etree_to_vdom"]}
{"id": "C68", "title": "A scheduled render of a displayed component yields one update", "statement": "Rendering a displayed component (the root before the first render) ends and yields exactly one layout update. Rendering an instance that was unmounted, or never existed, changes nothing and yields none.", "quantifier": "all applications whose components are not nested without end, all histories of renders, events and state changes", "why_tests_cant": "Component trees and histories are unbounded; a test only sees that the trees it builds do render.", "anchors": ["src/reactpy/core/layout.py:Layout.render", "src/reactpy/core/layout.py:Layout._create_layout_update", "src/reactpy/core/layout.py:Layout._render_component"]}
{"id": "C69", "title": "Settings are applied as given or refused", "statement": "Creating an ASGI application with settings either fails with an error or gives every named option the value that its validator makes of the setting, leaves all other options as they were, and routes under the configured prefix. A path prefix that does not start and end with a slash, a web module directory that does not exist and a name that is no option are refused; an application refused for its prefix or directory leaves every option as it was. Boolean options accept exactly true, 1, false and 0 in any letter case as text. Documented settings with values of their types are accepted.", "quantifier": "all settings (names, spellings, values, orders), all prior values of the options, all validators", "why_tests_cant": "Combinations of settings, spellings and prior configuration are unbounded; tests try a few.", "anchors": ["src/reactpy/executors/utils.py:process_settings", "src/reactpy/executors/utils.py:check_path", "src/reactpy/executors/asgi/middleware.py:ReactPyMiddleware.__init__", "src/reactpy/config.py:boolean"]}
{"id": "C70", "title": "A page leads back to its own application", "statement": "The page (or template tag) that an application gives out names a websocket that the application's dispatcher takes and serves with the intended root component, a client script and an import map among its static files, and modules among its web modules. This holds whatever other applications are created in the process, and whenever the page is asked for.", "quantifier": "all accepted path prefixes, all registered components, all histories of creating applications and visiting their pages", "why_tests_cant": "The page is rendered lazily from process-wide options; tests run one application per process.", "anchors": ["src/reactpy/executors/asgi/standalone.py:ReactPyApp.render_index_html", "src/reactpy/executors/utils.py:server_side_component_html", "src/reactpy/executors/utils.py:default_import_map", "src/js/packages/@reactpy/client/src/mount.tsx:mountReactPy", "src/js/packages/@reactpy/client/src/client.ts"]}
{"id": "C71", "title": "use_location sees the page's location", "statement": "At every connection, first or repeated, the location that components see is the path and the query string of the page at that moment, byte for byte.", "quantifier": "all paths and query strings (any bytes), all histories of navigation and reconnection", "why_tests_cant": "URLs are unbounded and pass an encoder and a decoder in two languages; tests try a few simple ones.", "anchors": ["src/js/packages/@reactpy/client/src/mount.tsx:mountReactPy", "src/js/packages/@reactpy/client/src/websocket.ts:syncBrowserLocation", "src/reactpy/executors/asgi/middleware.py:_location_from_websocket_query_string"]}
{"id": "C72", "title": "A connection delivers each event once, in order, and ends", "statement": "The events that a browser sends over one connection reach the layout in the order sent, each at most once, none invented; those not delivered are still queued. The layout is opened at most once and closed exactly when the rendering ends. The queue never exceeds its configured size. When the connection ends nothing more is delivered and the rendering task ends; unknown messages change nothing; the handler always gets to notice the end of the connection.", "quantifier": "all interleavings of browser messages, deliveries, failures and cancellation, all queue sizes", "why_tests_cant": "Interleavings of two tasks over an unbounded message sequence cannot be enumerated.", "anchors": ["src/reactpy/executors/asgi/middleware.py:ComponentDispatchApp", "src/reactpy/executors/asgi/middleware.py:ReactPyWebsocket", "src/reactpy/core/serve.py:serve_layout"]}
{"id": "C73", "title": "Leaving a layout ends everything it started", "statement": "When a layout's context is left (the connection ended), every render and every event handler still running is told to stop and has ended by the time leaving returns; every displayed component is unmounted exactly once, its effects told to stop and awaited; and leaving returns without raising or hanging, whatever is in progress at that moment.", "quantifier": "all trees of components with any effects, all sets of running, ended and failed render and event tasks, all interleavings of their ends, of new renders and of new events with the leaving task", "why_tests_cant": "A test leaves the layout at one moment with one set of tasks; the moment, the tasks in progress and the order in which they end are unbounded.", "anchors": ["src/reactpy/core/layout.py:Layout.__aexit__", "src/reactpy/core/layout.py:Layout._unmount_model_states", "src/reactpy/core/_life_cycle_hook.py:LifeCycleHook.affect_component_will_unmount"]}
{"id": "C74", "title": "Log assertions tell what was logged", "statement": "assert_reactpy_did_log passes exactly when its block logged a matching record, assert_reactpy_did_not_log exactly when it did not; exceptions raised in the block come out; capturing blocks, however nested and however they end, leave the logger's level, handlers and earlier records as they were; list_logged_exceptions returns exactly the matching exceptions in order and deletes exactly their records.", "quantifier": "all lists of records, all test code built from logging, raising and nested capturing and asserting blocks", "why_tests_cant": "The tools are what tests are judged by; their own behaviour for every nesting and every sequence of records is not covered by any finite set of uses.", "anchors": ["src/reactpy/testing/logs.py:assert_reactpy_did_log", "src/reactpy/testing/logs.py:assert_reactpy_did_not_log", "src/reactpy/testing/logs.py:list_logged_exceptions", "src/reactpy/testing/logs.py:capture_reactpy_logs"]}
{"id": "C75", "title": "Polling notices a condition and ends", "statement": "poll(f).until(cond, timeout) returns after the first result of f that meets cond, unless the timeout was exceeded after an earlier result; it raises TimeoutError exactly when the timeout is exceeded after a result that does not meet cond; a result obtained late but meeting the condition still counts.", "quantifier": "all sequences of results, all clock readings, all timeouts", "why_tests_cant": "Result and clock sequences are unbounded.", "anchors": ["src/reactpy/testing/common.py:poll.until"]}
{"id": "C76", "title": "The browser builds what the model describes", "statement": "For every model the server sends, the browser client builds an element at each place of the model with the same tag, shows exactly the texts of the model (and error messages of failed components) in order, gives every element inline JavaScript before an event handler before an attribute of one name, throttles and debounces handlers exactly as asked, shows the fallback of an imported component while it loads, and sends for every call of a handler one message with all its arguments, numbered in order.", "quantifier": "all models of any size and depth, all attribute, handler and inline JavaScript objects, all sequences of calls", "why_tests_cant": "Models are unbounded trees; the cases combine tags, imported components, errors and wrappers.", "anchors": ["src/js/packages/@reactpy/client/src/components.tsx:Element", "src/js/packages/@reactpy/client/src/components.tsx:StandardElement", "src/js/packages/@reactpy/client/src/components.tsx:UserInputElement", "src/js/packages/@reactpy/client/src/components.tsx:ImportedElement", "src/js/packages/@reactpy/client/src/vdom.tsx:createImportSourceElement", "src/js/packages/@reactpy/client/src/vdom.tsx:createAttributes", "src/js/packages/@reactpy/client/src/vdom.tsx:createEventHandler"]}
{"id": "C77", "title": "Imported components show the newest model and leave nothing behind", "statement": "A JavaScript component that the page imports is bound once, shows the model given last as soon as its module has been loaded, whatever renders, loads and changes of source happen in between, is never rendered after it was unmounted, comes to rest after finitely many steps of its own, and when it is removed nothing of it stays mounted.", "quantifier": "all interleavings of renders by the parent, effects, finished, improper and failed loads, changes of import source, and removal; both kinds of bindings the client provides", "why_tests_cant": "The interleavings of renders, effects and module loads are unbounded and up to the browser.", "anchors": ["src/js/packages/@reactpy/client/src/components.tsx:useImportSource", "src/js/packages/@reactpy/client/src/vdom.tsx:loadImportSource", "src/js/packages/@reactpy/client/src/bind.tsx:reactjs_bind", "src/js/packages/@reactpy/client/src/bind.tsx:local_preact_bind"]}
{"id": "C78", "title": "Imported components inside imported components", "statement": "A component of one JavaScript module inside a component of another shows the model given last once its module is loaded, in whatever order loads end; at most one binding exists at a time and none is rendered after it was unmounted; nothing is shown outside the document; and the component is shown whenever it is in the document and loaded.", "quantifier": "all sequences of models given, loads ended well or badly in any order, connections and disconnections", "why_tests_cant": "Loads end in any order and interleave with updates and moves in the document.", "anchors": ["src/js/packages/@reactpy/client/src/vdom.tsx:ReactPyChild", "src/js/packages/@reactpy/client/src/vdom.tsx:createImportSourceElement"]}
{"id": "C79", "title": "Moving keys into the attributes keeps the program", "statement": "`reactpy rewrite-keys` changes a program so that every element constructor whose attributes are a dict (or absent) has its key in that dict and not as an argument, a second run changes nothing, and the rewritten program builds the same elements with the same attributes, keys and children; other calls keep their meaning.", "quantifier": "all syntax trees, of any size and nesting of calls, dicts and keyword arguments; any choice of which plain names are element constructors", "why_tests_cant": "Programs nest calls without bound, and a moved key may itself contain calls to be rewritten.", "anchors": ["src/reactpy/_console/rewrite_keys.py:find_nodes_to_change", "src/reactpy/_console/ast_utils.py:find_element_constructor_usages"]}
{"id": "C80", "title": "Rewriting commands change only what they rewrite", "statement": "The rewriting commands write each changed call, printed anew, over the lines of the call (or of the widest expression or statement beginning on its line); every other line of the file stays as it was and in its place; what stands before and after the rewritten text on its first and last line stays; and every changed call is rewritten.", "quantifier": "all sources, and all lists of changed nodes with any nesting of nodes around them", "why_tests_cant": "Files have any number of lines and changed calls, nested or sharing lines in any way.", "anchors": ["src/reactpy/_console/ast_utils.py:rewrite_changed_nodes", "src/reactpy/_console/rewrite_keys.py:generate_rewrite", "src/reactpy/_console/rewrite_props.py:generate_rewrite"]}
{"id": "C81", "title": "The page runs the user's code", "statement": "The program a page gets for a component that runs in the browser is the given files' code, every line of every file in order (tabs as spaces, indented), inside the workspace of the component, followed by the call of the root component; nothing of the code is changed by the substitution of the id and the root's name; files without a definition of the root are refused. The browser reads exactly this program from the element. The setup's configuration holds every entry the user gives; where they say nothing ReactPy and the extra packages and modules.", "quantifier": "all lists of files, all ids and root names, all configurations, packages and modules", "why_tests_cant": "The code and the configuration are any texts, also ones that look like the template's placeholders.", "anchors": ["src/reactpy/executors/pyscript/utils.py:pyscript_executor_html", "src/reactpy/executors/pyscript/utils.py:pyscript_component_html", "src/reactpy/executors/pyscript/utils.py:pyscript_setup_html", "src/reactpy/executors/pyscript/utils.py:extend_pyscript_config", "src/reactpy/executors/pyscript/component_template.py"]}
{"id": "C82", "title": "The page loads this ReactPy", "statement": "A page whose components run in the browser is given the address of a wheel (package file) of exactly the server's ReactPy version that is in the served directory: in a source checkout one that is not older than any source file, or the one just built; otherwise one already there, or one rebuilt from exactly the installed files, with a record of their names, hashes and lengths. Whenever the work is stopped, every wheel in the served directory is whole. The next time the same wheel is used and nothing is written.", "quantifier": "all directories, file names, versions, times, installed files, and all histories of copies and rebuilds stopped at any point", "why_tests_cant": "The process may stop between any two acts on the file system and the leftovers meet any later start; file names and versions are any texts.", "anchors": ["src/reactpy/executors/pyscript/utils.py:_ensure_local_reactpy_wheel", "src/reactpy/executors/pyscript/utils.py:_find_current_reactpy_wheel", "src/reactpy/executors/pyscript/utils.py:_copy_reactpy_wheel_to_static_dir", "src/reactpy/executors/pyscript/utils.py:_rebuild_installed_reactpy_wheel", "src/reactpy/executors/pyscript/utils.py:_record_text"]}
{"id": "C83", "title": "Hook calls reach the component whose body makes them", "statement": "However the renders of several tasks interleave, a hook call made in a component's body belongs to that component: the n-th call of a body gets the n-th state of its own component (the given value in the first run, the same value ever after), contexts are those seen by the component that is being rendered around it, and no two renders are inside of one component at a time. Effects, event handlers and anything else that runs outside of components' bodies get the error that no hook is active. The errors about an invalid hook stack never occur.", "quantifier": "all numbers of tasks, all orders of their steps, all trees of renders, failing and cancelled renders included", "why_tests_cant": "The current component is found through a variable that tasks copy from each other and that refers to shared lists; the interleavings of tasks are unbounded.", "anchors": ["src/reactpy/core/_life_cycle_hook.py:_HookStack", "src/reactpy/core/_life_cycle_hook.py:LifeCycleHook.set_current", "src/reactpy/core/_life_cycle_hook.py:LifeCycleHook.unset_current", "src/reactpy/core/_life_cycle_hook.py:LifeCycleHook.use_state", "src/reactpy/core/layout.py:Layout._create_layout_update", "src/reactpy/core/layout.py:Layout._render_component"]}
{"id": "C84", "title": "Listeners get the messages they have subscribed to", "statement": "In the browser every message of the server is given to exactly those functions that listen to its type when it arrives, in the order of their subscriptions and once per subscription; one that has ended its subscription gets no later message; a message without a type, or of a type that nobody listens to, causes a warning and nothing else. The connection is not opened before somebody listens. Imported modules can send and receive messages with the functions they are given.", "quantifier": "all histories of subscriptions, their ends and messages, all behaviours of listeners (which may subscribe, end subscriptions and throw)", "why_tests_cant": "Histories are unbounded and listeners may change the subscriptions while a message is being given out.", "anchors": ["src/js/packages/@reactpy/client/src/client.ts:BaseReactPyClient.onMessage", "src/js/packages/@reactpy/client/src/client.ts:BaseReactPyClient.handleIncoming", "src/js/packages/@reactpy/client/src/vdom.tsx:loadImportSource"]}
{"id": "C85", "title": "The component named in Python is the one of the module", "statement": "An imported component written in Python as `Name`, `Name.a.b` or as attributes of the constructor for `Name` is displayed as what the JavaScript module exports under that path, with the module and settings of the constructor. If a part of the path is missing, nothing is displayed and one message tells which part is missing of what; nothing is thrown. Elements that are not imported have no nested components.", "quantifier": "all modules (any objects and properties), all names and paths of any length", "why_tests_cant": "Paths have any depth and objects any properties, own and inherited.", "anchors": ["src/reactpy/core/vdom.py:Vdom.__getattr__", "src/js/packages/@reactpy/client/src/vdom.tsx:getComponentFromModule"]}
{"id": "C86", "title": "Pages with components that run in the browser are complete", "statement": "The page of an application rendered by the browser, or of one that sets PyScript up, has the elements of the user's head, then the set-up of PyScript with this application's options, exactly once, and in the body the notice followed by the program (or the code that mounts the component); other applications and earlier requests do not change it. A page component in a tree rendered by the server shows nothing in its first render, asks for exactly one more, and then shows its container and program; it keeps running when its parent is rendered again.", "quantifier": "all histories of making heads, making applications and requesting pages; all head contents; all sequences of renders of a page component", "why_tests_cant": "The constructor changes dictionaries that several applications may share, and the page is cut and joined as text; tests look at one application with one head.", "anchors": ["src/reactpy/executors/asgi/standalone.py:ReactPy.__init__", "src/reactpy/executors/asgi/standalone.py:ReactPyApp.render_index_html", "src/reactpy/executors/asgi/pyscript.py:ReactPyCsr", "src/reactpy/executors/asgi/pyscript.py:ReactPyPyscriptApp.render_index_html", "src/reactpy/executors/pyscript/components.py:_pyscript_component", "src/reactpy/executors/utils.py:vdom_head_to_html"]}
{"id": "C87", "title": "Any callable can handle events", "statement": "Whatever callable is given as an event handler, through an element's attribute, the event decorator or the handler class — a function, a coroutine function, a function in decorators, a partial, a method or any other callable — each event runs the user's function exactly once, with the event's data after the arguments bound before, and the handler has the options that were given and those that the function's source asks for.", "quantifier": "all callables built from functions, decorators, partials and methods in any nesting; all sources; all data", "why_tests_cant": "The kinds of callables nest without bound; tests use plain functions and one partial.", "anchors": ["src/reactpy/core/events.py:event", "src/reactpy/core/events.py:EventHandler.__init__", "src/reactpy/core/events.py:to_event_handler_function", "src/reactpy/core/vdom.py:separate_attributes_handlers_and_inline_javascript", "src/reactpy/core/_event_inspect.py:inspect_event_handler"]}
{"id": "C88", "title": "A script runs when it appears and when its key changes, and at no other time", "statement": "Of the scripts that a component returns there is at most one script element each in the page at any moment, and exactly one, in the same order, once the page has come to rest. A script is put into the page when it is first shown, when its key changes, and when it is shown again after it was gone, each time once; rendering the component again, or changing the order of the scripts, does not run it. Without a key, the page holds the code or the src of the scripts that were rendered last, since html.script makes them the key.", "quantifier": "every sequence of renders of any number of scripts with any keys, with the effects running at any moments in between; every attribute and code", "why_tests_cant": "the tests show one script and change its key once; that a script neither runs twice nor is missed depends on every sequence of renders, keys and late effects", "anchors": ["src/js/packages/@reactpy/client/src/components.tsx: ScriptElement, StandardElement", "src/reactpy/_html.py: _script", "src/reactpy/core/layout.py: _get_children_info"]}
{"id": "C89", "title": "html.<name> makes the element with that name", "statement": "Every element name without underscores can be used as an attribute of html, with underscores appended or with underscores for dashes; whatever was used before, it gives the constructor of that element, and the same one each time. The constructor refuses children exactly if HTML gives the element no content, and otherwise keeps them all. The same holds for html.svg.", "quantifier": "every sequence of names used before, every name, every attributes and children", "why_tests_cant": "the constructors are made on demand and cached under names that are rewritten; that no sequence of uses mixes them up, and that all names are covered, cannot be tried out", "anchors": ["src/reactpy/_html.py: HtmlConstructor.__getattr__, SvgConstructor.__getattr__, NO_CHILDREN_ALLOWED_HTML_BODY, NO_CHILDREN_ALLOWED_SVG", "src/reactpy/core/vdom.py: Vdom.__call__"]}
{"id": "C90", "title": "Effects are started once and stopped, also when updates overlap", "statement": "A component may be part of several updates that are made at the same time, its own and those of components above it, and any of them may be cancelled. Whatever the schedule, each effect that a render of the component asked for is started exactly once, in order, at the latest when the layout has nothing left to do; it is not started before the update that asked for it is complete. When the component is removed, all of its effects are told to stop and are waited for, and no effect is started afterwards.", "quantifier": "every schedule of the layout's tasks, every component, every number of effects asked for by each render", "why_tests_cant": "needs all interleavings of updates of a component, of components above it, of cancellations and of removals", "anchors": ["src/reactpy/core/_life_cycle_hook.py: LifeCycleHook.add_effect, affect_layout_did_render, affect_component_will_unmount", "src/reactpy/core/layout.py: Layout._create_layout_update, _render_component, _unmount_model_states"]}
{"id": "C91", "title": "Hooks without dependencies never work with old variables", "statement": "When a component gives no dependencies, use_memo returns in every render what the function of that render would return, and calls it only if one of the function's local variables changed; use_callback returns a function that does, whenever it is called, what the function of the latest render would do, and the same function as long as the variables keep their values; an effect is run again exactly if one of its variables changed.", "quantifier": "every history of renders, every function, every values of its variables, every way of passing it", "why_tests_cant": "needs all histories of renders and all functions: which values a function may depend on is not visible in any single run", "anchors": ["src/reactpy/core/hooks.py: _try_to_infer_closure_values, use_memo, use_callback, use_effect, use_async_effect"]}
{"id": "C92", "title": "Children without keys are reported, at the application's line", "statement": "In debug mode, every component or element without a key that is passed to an element in a list is reported in a warning, and no other child; without debug mode nothing is reported; the element gets the same children in both modes. Every warning of ReactPy names the innermost line of the program that is outside of ReactPy.", "quantifier": "all nested lists and generators of children; all call stacks", "why_tests_cant": "children can be nested in any way and the stack can be of any shape", "anchors": ["src/reactpy/core/vdom.py: _flatten_children, _is_single_child, _validate_child_key_integrity", "src/reactpy/_warnings.py: warn, _frame_depth_in_module, _iter_frames"]}
{"id": "C93", "title": "Components from NPM packages share the React of the page", "statement": "A component from an NPM package is loaded from the requested version of that package at the requested CDN, and different requests have different addresses. At esm.sh the address asks for each option once, and leaves React to the page. The import map that ReactPy writes gives every name that is left to the page, each once, and all of them stand for the same version of one framework, also in debug mode and for versions with options; contradictory requests are refused.", "quantifier": "all packages, versions, CDNs, frameworks and settings", "why_tests_cant": "package names, versions and CDNs are arbitrary texts", "anchors": ["src/reactpy/reactjs/__init__.py: component_from_npm", "src/reactpy/reactjs/module.py: import_reactjs", "src/reactpy/executors/utils.py: default_import_map"]}
{"id": "C94", "title": "A component takes the arguments of its function, and a key", "statement": "Whatever function is made a component and whatever it is called with, rendering calls the function with exactly these arguments. The keyword key, wherever it stands, is the component's key and does not reach the function. A function is refused exactly if some call could give its parameter key a value by keyword, so for functions that are accepted nothing but an entry of **kwargs can be lost.", "quantifier": "all functions with any signature, all arguments and keywords", "why_tests_cant": "signatures and argument lists are unbounded", "anchors": ["src/reactpy/core/component.py: component", "src/reactpy/types.py: Component.render"]}
{"id": "C95", "title": "The error of a component is reported in its place", "statement": "Whatever components of a page raise, an error is displayed in the place of each, and everything else is displayed as without it. In debug mode the error tells what was raised; otherwise the page tells nothing about it.", "quantifier": "all pages of components, nested to any depth, and all errors they raise", "why_tests_cant": "pages, arguments of components and errors are unbounded", "anchors": ["src/reactpy/core/layout.py: Layout._render_component", "src/reactpy/types.py: Component.__repr__"]}
{"id": "C96", "title": "The data of an event can be read as attributes", "statement": "The values that the client sends with an event arrive as the arguments of the handler, in order. In a handler, event.a.b is event[\"a\"][\"b\"], whatever the names and however deep; what the event does not have is None; nothing else is found. An attribute that the handler assigns is read back and changes nothing else.", "quantifier": "all event data, all paths of names", "why_tests_cant": "event data are nested to any depth and names are arbitrary", "anchors": ["src/reactpy/types.py: Event", "src/reactpy/core/layout.py: Layout._process_event_queue"]}
{"id": "C97", "title": "An event runs the handler of the element that the user acted on", "statement": "What a user does to a displayed element is handled once, in order, in the session that displays the element, by the handler attached to this element, or not at all if the element is gone: never in another session and never by the handler of another element, although the connection may be lost, opened again and the page be rendered again in between.", "quantifier": "all applications, all renders, all histories of the connection, all moments at which the user acts", "why_tests_cant": "events race with renders and with reconnecting; handlers are found by a string made from keys, which must be different for all elements of all trees, also between different sessions", "anchors": ["src/reactpy/core/layout.py: Layout.deliver, Layout._render_model_event_handlers_without_old_state", "src/reactpy/executors/asgi/middleware.py: ReactPyWebsocket", "src/js/packages/@reactpy/client/src/client.ts: ReactPyClient.sendMessage", "src/js/packages/@reactpy/client/src/websocket.ts: createReconnectingWebSocket", "src/js/packages/@reactpy/client/src/components.tsx: Layout"]}
{"id": "C98", "title": "The page shows what the components rendered last, and its elements run their functions", "statement": "At every moment the elements that the browser builds are those that the root component displays, every component by what its most recent call returned: nothing for None, text as itself, elements with their attributes, inline JavaScript and children in order, a failed component as its error message in debug mode and nothing otherwise. An event on an element sends a message for which the server runs the function that the most recent render attached.", "quantifier": "all applications, all histories of renders, state changes and events, all component trees", "why_tests_cant": "the page is the result of any number of partial updates of trees of any depth, put together on both sides of the wire", "anchors": ["src/reactpy/core/layout.py: Layout.render, Layout._render_model, Layout._serialize_event_handler", "src/reactpy/core/serve.py: _single_outgoing_loop", "src/js/packages/@reactpy/client/src/components.tsx: Layout, Element, StandardElement, UserInputElement", "src/js/packages/@reactpy/client/src/vdom.tsx: createAttributes, createChildren, createEventHandler"]}
{"id": "C99", "title": "Transforms given to string_to_reactpy see every element once, children first", "statement": "string_to_reactpy calls the transforms it is given for every element of the document exactly once, after the element's children have been converted, in the order in which they are given, each with what the one before returned. The first gets the element as it is without transforms, with the children as they have become. What the last one returns takes the place of the element. If a transform raises, no transform is called any more and string_to_reactpy raises the same exception. A transform that only computes therefore gives the document's model with the function applied to every element from the leaves to the root.", "quantifier": "all documents, all lists of transforms with any state of their own, any result and any exception", "why_tests_cant": "documents have any depth and transforms are arbitrary functions that may keep state between calls", "anchors": ["src/reactpy/utils.py: string_to_reactpy, _etree_to_vdom, _generate_vdom_children", "src/reactpy/transforms.py: RequiredTransforms"]}
{"id": "C100", "title": "The rewriting commands change the files they were given, and no others", "statement": "`reactpy rewrite-keys` and `reactpy rewrite-props` change nothing but the files given, and the files with names ending in .py below the directories given. If the command succeeds, each of these is either as it was, if there was nothing to change, or reads as the rewritten text; it succeeds if every file can be read and parsed. If it fails, then because of one file, and every file is either rewritten or as it was. Where rewriting is idempotent a second run changes nothing. Bytes outside the rewritten code, such as line ends, stay.", "quantifier": "all trees of files, contents, lists of paths, orders in which directories are listed, rewriting functions, encodings and line separators", "why_tests_cant": "a failure may happen at any of any number of files, and encodings and line ends of the machine differ from those of the files", "anchors": ["src/reactpy/_console/rewrite_keys.py: rewrite_keys", "src/reactpy/_console/rewrite_props.py: rewrite_props"]}
{"id": "C101", "title": "use_debug_value logs the message when it has changed, in debug mode only", "statement": "In every render in debug mode, use_debug_value logs the message exactly if it is != to the message that it logged last, or none was logged; in other renders it logs nothing, and what changed meanwhile is logged by the next render in debug mode. The message may be a value or a function that computes it.", "quantifier": "all components, messages, sequences of renders, and changes of debug mode between them", "why_tests_cant": "whether a message is logged depends on the whole history of messages, of debug mode and of what the function's variables were", "anchors": ["src/reactpy/core/hooks.py: use_debug_value, use_memo, _try_to_infer_closure_values"]}
{"id": "C102", "title": "BackendFixture stops its server, restores logging and reports logged errors", "statement": "After `async with BackendFixture()` the server is stopped and ReactPy's logger is as it was before, however the block ends, whether or not the fixture was restarted, and wherever the block stands among other capturing blocks. Leaving the block raises LogAssertionError exactly if an exception was logged while the fixture was open.", "quantifier": "all test code: logging, raising, capturing and asserting in any nesting, fixtures inside each other, restarts, and servers that start or do not", "why_tests_cant": "nestings, places of exceptions and of logged errors are unbounded; the fixture is itself what the tests rely on to notice errors", "anchors": ["src/reactpy/testing/backend.py: BackendFixture.__aenter__, __aexit__, restart, list_logged_exceptions", "src/reactpy/testing/logs.py: capture_reactpy_logs, list_logged_exceptions"]}
{"id": "C103", "title": "Views of a hotswap component show what was swapped in last", "statement": "With `swap, root = _hotswap(update_on_change=True)`, every view of `root` on any page, once no render is scheduled for it, shows what the component swapped in last shows, and swapping tells exactly the views still on a page. Without update_on_change (as BackendFixture.mount), each view shows what was the latest when the view last rendered.", "quantifier": "all numbers of views and all orders of mounting, effects running, swaps, renders and unmounting", "why_tests_cant": "the orders of swaps, first renders, effects and unmounting of several views are unbounded; the test has one view and waits between the steps", "anchors": ["src/reactpy/testing/backend.py: _hotswap, mount_to_hotswap, root_hotswap_component", "src/reactpy/core/hooks.py: use_state, use_effect, strictly_equal"]}
{"id": "C104", "title": "Switching parallel rendering loses no update of an open layout", "statement": "REACTPY_ASYNC_RENDERING may be assigned at any time, also by starting another application with the setting async_rendering. Whenever render() has nothing left to wait for, it has returned an update with the newest state of every component, whatever the option was when the state changed and when render() was called.", "quantifier": "all sequences of assignments of the option, changes of components, tasks running and calls of render()", "why_tests_cant": "tests set the option before a layout is entered; assignments can come at any point between scheduling, rendering and waiting", "anchors": ["src/reactpy/core/layout.py: Layout.render, _serial_render, _parallel_render, _schedule_render_task", "src/reactpy/config.py: REACTPY_ASYNC_RENDERING"]}
{"id": "C105", "title": "The log level follows debug mode, and capturing blocks capture everything", "statement": "ReactPy's logger is at level DEBUG in debug mode and at INFO otherwise, whenever and wherever REACTPY_DEBUG is assigned. Inside capture_reactpy_logs every message of level DEBUG and more is captured, in debug mode or not, and after the block the level is the one for debug mode, also if the block raised.", "quantifier": "all code that assigns debug mode, logs, raises and captures, in any nesting", "why_tests_cant": "nestings of blocks, places of assignments and of exceptions are unbounded", "anchors": ["src/reactpy/logging.py: _set_debug_level, ROOT_LOGGER", "src/reactpy/testing/logs.py: capture_reactpy_logs", "src/reactpy/_option.py: Option.set_current, subscribe"]}
{"id": "C106", "title": "Rendering in parallel adds no errors", "statement": "With REACTPY_ASYNC_RENDERING on, whatever setters are called while renders are in progress, render() does not raise, and a component whose body does not raise is not replaced by an error message in the page.", "quantifier": "all trees of components, all results of bodies that do not raise, all interleavings of render tasks, setters, cancellations and the freeing of objects", "why_tests_cant": "the errors need one render to be cancelled by another in the middle of unmounting, and a third to be scheduled before the second is through", "anchors": ["src/reactpy/core/layout.py: Layout._create_layout_update, _render_component, _render_model_children, _unmount_model_states, _schedule_render_task, _ModelState.parent"]}
{"id": "C107", "title": "In parallel rendering, a component that stays in the tree keeps its state", "statement": "With REACTPY_ASYNC_RENDERING on, a component that every render of its parent returns keeps its hook state; at most one instance of it exists; it is unmounted exactly when a component above it is rendered without it.", "quantifier": "all trees of components, all results of bodies that do not raise, all interleavings of render tasks, setters, cancellations and the freeing of objects", "why_tests_cant": "which earlier state a render starts from depends on which other renders were cancelled, and when", "anchors": ["src/reactpy/core/layout.py: Layout._render_component, _render_model_children, _schedule_render_task, _update_component_model_state"]}
{"id": "C108", "title": "A component that was removed does not come back", "statement": "With REACTPY_ASYNC_RENDERING on, after a component was unmounted, and its effects were told to stop, the same instance is never rendered again; when it reappears it is a new instance with new state and effects.", "quantifier": "all trees of components, all results of bodies that do not raise, all interleavings of render tasks, setters, cancellations and the freeing of objects", "why_tests_cant": "it needs a render that is cancelled after it has unmounted a component, in a place where the next render still finds it", "anchors": ["src/reactpy/core/layout.py: Layout._render_model_children, _unmount_model_states, _render_component", "src/reactpy/core/_life_cycle_hook.py: LifeCycleHook.affect_component_will_unmount"]}
{"id": "C109", "title": "Parallel renders of one component do not overlap, and never wait for each other for ever", "statement": "With REACTPY_ASYNC_RENDERING on, at any time at most one render is between the beginning of a component's body and the end of its render, so that the hooks of a component are used by one render at a time; and the renders that are in progress never all wait for each other: each can go on, or waits for one that can, or for one that waits for such a one, and so on.", "quantifier": "all trees of components, all results of bodies that do not raise, all interleavings of render tasks, setters and cancellations", "why_tests_cant": "which renders meet in a component depends on the schedule; a deadlock needs a cycle of waits that no test would hit by chance", "anchors": ["src/reactpy/core/_life_cycle_hook.py: LifeCycleHook.affect_component_will_render, affect_component_did_render", "src/reactpy/core/layout.py: Layout._render_component, _schedule_render_task"]}
{"id": "C110", "title": "Components see the connection of the websocket that serves them", "statement": "In every component of a page, use_connection, use_scope and use_location give the connection, the scope and the location of the websocket that serves the page: the location is the one at which the page was when it connected, also after navigations and reconnections. This holds whatever was rendered before, in which order and with which failures, except inside another ConnectionContext provider of the application. In a layout without such a provider the hooks raise RuntimeError.", "quantifier": "all applications, all histories of renders, events and state changes, all pages, query strings, navigations and reconnections", "why_tests_cant": "components are rendered alone or with others in arbitrary order, and one that is rendered alone must still see the provider above it; there are infinitely many trees and histories", "anchors": ["src/reactpy/core/hooks.py: use_context, use_connection, use_scope, use_location, ConnectionContext", "src/reactpy/executors/asgi/middleware.py: ReactPyWebsocket.run_dispatcher, _location_from_websocket_query_string", "src/reactpy/types.py: Connection, ContextProvider"]}
{"id": "C111", "title": "DisplayFixture closes what it opened and shows what it was told to", "statement": "A block of DisplayFixture closes, when it is left, exactly the browser, page, backend and Playwright that it opened itself, each once and in the opposite order, wherever its body fails, and leaves open what was passed in; afterwards nothing is mounted. A show that succeeds has mounted the component before it loaded the page from the fixture's backend, and keeps the page there is. The same should hold when entering fails, when a fixture is used again, for the argument headless, and for two fixtures at a time.", "quantifier": "all fixtures with or without a browser and a backend of their own, all bodies, all points at which Playwright or the backend fail", "why_tests_cant": "a test sees one body and one place where it fails; what must be closed depends on where each call failed", "anchors": ["src/reactpy/testing/display.py: DisplayFixture.__init__, show, goto, __aenter__, configure_page, __aexit__", "src/reactpy/testing/backend.py: BackendFixture, _hotswap"]}
{"id": "C112", "title": "Parallel rendering gives what serial rendering gives", "statement": "With REACTPY_ASYNC_RENDERING on (the default), whatever setters are called and in whatever order the render tasks are run, each from start to end, and their updates handed out: the layout is one that serial rendering reaches too, a task renders the current state of its component, a setter that is called leads to a render of its component as long as it is there, and once everything was handed out the client shows for every component its latest render, which began after its setter was last called, and its event handlers lead to the functions of that render.", "quantifier": "all applications, all histories of setters (inside and outside renders), render tasks, user code, events and deliveries", "why_tests_cant": "tasks capture the state they were made for and are cancelled by renders around them; which of them are pending, cancelled or finished depends on the whole history", "anchors": ["src/reactpy/core/layout.py: Layout.render, _parallel_render, _create_layout_update, _render_component, _schedule_render_task, __aenter__", "src/reactpy/core/_life_cycle_hook.py: LifeCycleHook.schedule_render, affect_component_will_render"]}
{"id": "C113", "title": "At rest the page is a function of the state", "statement": "In an application whose components are functions of their arguments, of their use_state values and of the contexts they see, whatever events arrive, whatever setters are called and in whatever order the renders they cause are run and delivered: once nothing is left to do, the page shows what the components return for the present values, each component under the contexts of the providers around it, with the event handlers that they attach now; a component that raises an exception for its present values, or returns what cannot be displayed, is shown as the message of the exception (as nothing outside debug mode), and nothing else is affected. After an event at a handler of the page, exactly the values that the handler's setters address have changed, one call after another, and new components have their initial values.", "quantifier": "all applications, also with components that fail, all histories of events, setter calls, render tasks and deliveries with parallel rendering (renders do not overlap; setters are called by handlers, by components that are being rendered, or by other code at any time), and all histories of events, setter calls and renders with serial rendering", "why_tests_cant": "whether every component on the page was rendered after the last change of its values depends on the whole history of setters, cancelled and finished tasks, and deliveries", "anchors": ["src/reactpy/core/hooks.py: use_state, _CurrentState, use_context, strictly_equal", "src/reactpy/core/_life_cycle_hook.py: LifeCycleHook.use_state, schedule_render, set_current", "src/reactpy/core/layout.py: Layout._process_event_queue, _parallel_render, _create_layout_update", "src/js/packages/@reactpy/client/src/components.tsx: Layout"]}
{"id": "C114", "title": "Inline JavaScript runs as in an event attribute of HTML", "statement": "A string of JavaScript given for an event attribute (or found in HTML given to string_to_reactpy) does to the page, at each event, what it does as the event attribute of an HTML element: it is run once, `this` is the element, names mean what they mean on the page, and it fails where that fails. A string that is a function is called with the arguments of the event, or with what a component of an imported module passes, and its result is returned.", "quantifier": "all programs of a small JavaScript (names, this, properties, assignments, arrow functions, calls, return), all pages, elements and events, all functions of the page that keep their hands off the names in question, all arguments", "why_tests_cant": "Programs and pages are unbounded; whether a name of the page is hidden depends on the names in the client's source.", "anchors": ["src/js/packages/@reactpy/client/src/vdom.tsx:createInlineJavaScript", "src/reactpy/core/vdom.py:separate_attributes_handlers_and_inline_javascript"]}
{"id": "C115", "title": "The module that the browser loads is the one that was made", "statement": "After component_from_string or component_from_file (or string_to_module, file_to_module), a page of the application that loads the module gets the content given, whatever names, directories and prefixes are used, and whatever else was made, asked for or configured before or after, as long as no other module of that name is made. Requests for modules never give anything but files inside the modules directory of the application.", "quantifier": "all names, contents, prefixes and directories, all applications of a process, all histories of settings, modules and requests, all paths asked for", "why_tests_cant": "Names go through the file system, the URL parser of the browser and the decoding of the server; whether the directory is the same depends on the order of settings, modules and applications in the whole process.", "anchors": ["src/reactpy/reactjs/module.py:string_to_module", "src/reactpy/reactjs/module.py:file_to_module", "src/reactpy/reactjs/module.py:get_module_path", "src/reactpy/executors/asgi/middleware.py:WebModuleApp", "src/js/packages/@reactpy/client/src/client.ts:loadModule"]}
{"id": "C116", "title": "When event handlers are equal", "statement": "Comparing an EventHandler with another object tells whether the object has the same function and options (prevent_default, stop_propagation, debounce, target, throttle). Handlers made in the same way of the same function with the same options are equal.", "quantifier": "all handlers and objects, all histories of making handlers directly, by event(), by attributes of elements and by StaticEventHandler.use", "why_tests_cant": "which function object a handler holds depends on how every handler was made; tests compare a few", "anchors": ["src/reactpy/core/events.py: EventHandler.__eq__, EventHandler.__init__, to_event_handler_function, event", "src/reactpy/core/vdom.py: separate_attributes_handlers_and_inline_javascript", "src/reactpy/testing/common.py: StaticEventHandler.use"]}
{"id": "C117", "title": "HookCatcher holds the hooks of the last renders", "statement": "After any renders of components decorated with HookCatcher.capture, latest is the hook of the last render, and index[v] the hook of the last render whose indexing argument was v; a decorated component is called with the arguments that it was given, and works as without the decorator.", "quantifier": "all sequences of calls of components decorated with one catcher, with any arguments, in and outside of renders, before and after the catcher was deleted", "why_tests_cant": "what the catcher holds depends on the whole history of renders of all components it decorates", "anchors": ["src/reactpy/testing/common.py: HookCatcher", "src/reactpy/core/_life_cycle_hook.py: _HookStack.current_hook"]}
{"id": "C118", "title": "The page of a component that runs in the browser follows the model", "statement": "After every update of a layout that runs in the browser (PyScript), the content of its container looks like the current model, whatever it held before, and every element listens to exactly the events that the model has handlers for, addressing the current targets.", "quantifier": "all components, all sequences of renders, all initial contents of the container", "why_tests_cant": "the page is patched in place, so what it is depends on all earlier models", "anchors": ["src/reactpy/executors/pyscript/layout_handler.py: ReactPyLayoutHandler.render_html", "src/reactpy/executors/pyscript/layout_handler.py: ReactPyLayoutHandler.run", "src/reactpy/executors/pyscript/utils.py: pyscript_component_html"]}
{"id": "C119", "title": "Subscribers that assign an option", "statement": "After any history of assignments and unsettings of an option, also by subscribers while they are told of a change, every subscriber was last called with the option's present value, and never twice in a row with the same value.", "quantifier": "all subscribers, with any reaction to the values they are told, all histories of subscribing, assigning and unsetting", "why_tests_cant": "assignments nest in each other as subscribers react", "anchors": ["src/reactpy/_option.py: Option.set_current", "src/reactpy/_option.py: Option.unset", "src/reactpy/_option.py: Option.subscribe"]}
{"id": "C120", "title": "Calls of a setter that overlap", "statement": "However calls of a state setter overlap, made by other threads or by the updater functions and reducers given to other calls, every call that returns takes effect, as if the calls had been made one after the other in an order that agrees with the order of calls that do not overlap; a call whose updater raises has no effect; and once no call is in progress a render has been asked for since the state last changed.", "quantifier": "all values and updater functions, all interleavings of any number of calls", "why_tests_cant": "lost updates depend on where a call is when another begins", "anchors": ["src/reactpy/core/hooks.py: _CurrentState", "src/reactpy/core/hooks.py: use_reducer", "src/reactpy/core/hooks.py: _create_dispatcher"]}
{"id": "C121", "title": "Clicks on links of HTML that was read", "statement": "In the browser, a click on any link of HTML that was given to string_to_reactpy does not leave the page but is sent to the server when links are intercepted, and does what it does in HTML when they are not.", "quantifier": "all HTML documents, every link at any depth, with and without interception", "why_tests_cant": "the handler passes through the conversion, the layout and the browser's merging of properties, for every combination of attributes", "anchors": ["src/reactpy/transforms.py: RequiredTransforms.intercept_link_clicks", "src/reactpy/utils.py: string_to_reactpy", "src/js/packages/@reactpy/client/src/vdom.tsx: createAttributes"]}
{"id": "C122", "title": "Attributes arrive in the browser as they were given", "statement": "The values of an element's attributes arrive in the browser as they were given: None as null, numbers, strings, booleans, lists and dicts with equal contents. With REACTPY_CHECK_JSON_ATTRS on, an element whose attributes cannot be sent cannot be made, and every other can. Updates are sent in order, and attributes that cannot be sent affect the component that gave them only.", "quantifier": "all values of attributes, nested to any depth; all sequences of updates", "why_tests_cant": "three encoders with different limits (json.dumps, orjson, the browser's doubles) must agree on every value", "anchors": ["src/reactpy/core/vdom.py: Vdom.__call__", "src/reactpy/executors/asgi/middleware.py: ReactPyWebsocket.send_json", "src/reactpy/core/serve.py: _single_outgoing_loop", "src/reactpy/config.py: REACTPY_CHECK_JSON_ATTRS"]}
{"id": "C123", "title": "What reactpy documents can be written in HTML", "statement": "An attribute that reactpy documents for its elements can be written in HTML given to string_to_reactpy: under its HTML name (in any case, as HTML has none) it becomes the documented prop with the same text, and an event handler becomes inline JavaScript of the documented name. Nothing else becomes inline JavaScript, and every event handler attribute of the HTML standard does.", "quantifier": "all documented attribute names, all elements, attribute lists and contents", "why_tests_cant": "Two tables of more than 200 names each, written by hand in two files, have to agree for every element and every combination of attributes; tests try a handful of names.", "anchors": ["src/reactpy/types.py:VdomAttributesTypeDict", "src/reactpy/transforms.py:KNOWN_REACT_PROPS", "src/reactpy/transforms.py:REACT_PROP_SUBSTITUTIONS", "src/reactpy/transforms.py:attributes_to_reactjs", "src/reactpy/core/vdom.py:EVENT_ATTRIBUTE_PATTERN"]}
{"id": "C124", "title": "What is passed to the component tag stays data", "statement": "The component tag of a template puts an empty element with the given class and no other attribute into the page, and programs in which the path of the component, the settings and the import map are data: whatever class and path are given, nothing of them becomes markup or code. An argument other than class raises an error that names it.", "quantifier": "all classes, paths, settings and keyword arguments", "why_tests_cant": "Whether text between quotes stays there depends on every character of it.", "anchors": ["src/reactpy/templatetags/jinja.py:component", "src/reactpy/templatetags/jinja.py:ReactPyJinja", "src/reactpy/executors/utils.py:server_side_component_html", "src/reactpy/executors/utils.py:default_import_map"]}
