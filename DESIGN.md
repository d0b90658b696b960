# Formal model of reactive-python/reactpy in Lean 4

Source under study: `/repo` (pinned commit). All models live in `lean/Verif/`. The
properties are listed in `properties.jsonl`; `MANIFEST.json` maps each of them to the
theorems that settle it.

## Trusted base

* Lean 4.33.0's kernel. No `native_decide`, no `bv_decide`, no `sorry`, no added axioms.
  Every theorem depends on at most `propext`, `Classical.choice`, `Quot.sound`
  (checked with `#print axioms`; see the table at the end of this file).
* The hand translation of Python/TypeScript into Lean definitions. Each definition cites
  the file and lines it models and says what is simplified. The translation is not
  machine-checked: it is the part a reader must review.
* The environment of the code: CPython semantics of dict/list/set/str, the asyncio event
  loop (tasks, `Queue`, `wait`, `Event`), anyio's semaphore, `re`, lxml, the browser's
  timers and WebSocket, POSIX `open(O_EXCL)`, `rename`. Where a property depends on one of
  them, the assumption is written at the definition that models it.

## Layout of the Lean project

* `Verif/<Area>/Model.lean`   the code, function by function, with citations
* `Verif/<Area>/Spec.lean`    the specification the theorems are stated against (no model helpers)
* `Verif/<Area>/Lemmas*.lean` auxiliary lemmas and invariants
* `Verif/<Area>/Props.lean`   the property theorems and, beside each one, a non-vacuity `example`

Naming: `Cnn_...` a theorem for property Cnn, `Cnn_..._partial` only part of the property,
`Cnn_..._violated` a machine-checked counterexample showing that the code does not have the
property in full generality.

## Modelling method

* User code (component bodies, event handlers, reducers, effect bodies, validators) is a
  parameter: theorems quantify over all of it. Where user code is stateful it is a function
  of an arbitrary world type that it may change.
* Exceptions are values. Every `raise`, `KeyError` and `except` in the modelled functions is a branch.
* asyncio code is modelled as a transition system whose atomic steps are the code between two
  `await` points; theorems quantify over all sequences of steps (all schedules).
* Non-terminating recursion (a component that renders itself for ever) is cut by fuel; a run
  that exhausts fuel yields a separate `diverged` result about which nothing is claimed.

## Plan per property

| id | what is modelled | how it is proved |
|---|---|---|
| C01 | whole serial renderer: `_create_layout_update`, `_render_component`, `_render_model`, `_render_model_attributes`, `_render_model_children`, `_get_children_info`, `_unmount_model_states`, model state constructors; client `update_model` as JSON-pointer assignment | invariant over all op sequences; spec is an independent relation "this JSON is the expansion of the latest results" |
| C02 | same renderer | induction over the render: identity of instance for matching key/type, freshness otherwise |
| C03 | same renderer with a log of mount/unmount; error paths keep orphans explicitly | permutation invariant mounted = tree + orphans; counterexample with a failing component |
| C04, C05, C06 | handler table of the renderer, target strings | local invariants per key-path prefix; injectivity of the target encoding for safe keys; counterexamples for colliding keys, leaked handlers, static targets |
| C07 | context tables of the hooks inside the renderer | invariant: table of a hook = providers on the path to it |
| C08 | error branches of the renderer | containment theorem + counterexample with orphaned descendants |
| C09 | render log of the renderer | induction |
| C10 | `_get_children_info` | direct |
| C11 | `Object.assign` root update of the JS client | counterexample + partial |
| C12–C15 | scheduling protocol: hook flag (`_scheduled_render`), render tasks with their stacks of components, cancelling of tasks, semaphore, done set, `_ThreadSafeQueue`. A component body returns any list of children; `kids` records the newest list, so that "in the tree" (`Present`) is a matter of the records and not of the registry | transition systems with invariants over all schedules; a setter in another thread is a separate action |
| C16–C18 | event queues, sequence numbers (attached to elements by the renderer: `Layout/Ack`), client input element | transition systems; counterexamples where the code's guard is wrong |
| C19–C24, C26, C28 | `LifeCycleHook`, `use_state`, `use_reducer`, `use_memo`, `use_ref`, `use_callback`, `strictly_equal` | induction on histories |
| C25, C27, C65 | effect tasks as transition systems | invariants over all schedules; counterexample for shielded async effects |
| C29, C30, C52 | `core/vdom.py`, `types.VdomDict`, `_html` custom constructors | structural induction |
| C31 | schema predicate over the JSON type of the renderer | corollary of the render invariants |
| C32, C33 | `core/events.py`, `core/_event_inspect.py` | list induction |
| C34–C36 | `_option.py` | induction over op sequences |
| C37–C40, C57 | `utils.py`, `transforms.py` string/etree conversion | structural induction, finite table lifted by lemma |
| C41, C42, C55, C58 | ASGI routing, user routes, the index response | decision logic over all strings |
| C43, C44 | `reactjs/utils.py` | induction |
| C45, C46 | file lock and copy as transition systems with crash steps | invariants |
| C47–C50 | JS client timers, reconnect, message queue | transition systems |
| C51 | event-to-object conversion over cyclic object graphs | induction on depth |
| C66 | the same model of event-to-object; the relation `Shows` between values and data, both ways | induction on fuel, a lemma per loop; `C66_names_violated` for filtered names of data attributes and form elements |
| C67 | the same model of `_etree_to_vdom` and `RequiredTransforms`; `AttrsSpec.lean` says what an attribute becomes | one lemma per transform, composed; `C67_last_violated` for several selected options without `multiple` |
| C68 | the layout model; `Contains U d c`: a body of component `c` can return VDOM that has component `d` in it | well-founded induction on `Contains`, with fuel monotonicity (`Layout/Fuel.lean`): the renderer's fuel is irrelevant |
| C53 | `conv_attr_name` | string induction |
| C54, C59 | `widgets.py`: base64 in `image`, `use_linked_inputs` | induction in steps of three bytes; induction over histories |
| C56 | workspace deletion of the PyScript layout handler | invariant over the deletions, any order |
| C61 | `build_element_tree` of the PyScript layout handler | mutual structural induction; composed with C01 |
| C62 | `minify_python` | induction over texts with accumulators |
| C60, C64 | `reactjs/__init__.py` imports with their cache, `get_module_path` | induction over histories of calls; paths as lists of parts |
| C63 | `resolve_names_from_source`: the three regular expressions as scans | for all lists of export statements, printed and then scanned |
| C69 | `config.py`, `process_settings`, `check_path`, the constructor, over the option trees of C34 | induction over the settings; violated for half-applied settings, spelling of names, child options |
| C70 | the pages (`standalone.py`, `server_side_component_html`, import map), the URLs the client derives from them, several applications in one process; composed with the routing of C41 | invariant over histories; violated by two prefixes in one process and by odd prefixes |
| C71 | `URLSearchParams` and `parse_qs` on bytes, the client's location sync | round trip by list induction; history by fold |
| C72 | handler task, queue and rendering task of one connection as a transition system | invariant by induction over the actions; violated by a dead rendering task with a full queue |
| C73 | `__aexit__` as a task stepping over the sets of render and event tasks and the stack of states to unmount, the other tasks as environment; the tree left by a render cut short | invariant by induction over the actions, a decreasing measure for the end; violated by a failed render task, a render scheduled during leaving, a handler that swallows its cancellation, a cancelled effect, and a render in progress |
| C74 | the logger (level, captor, records), test code as a tree of blocks with an interpreter; the deleting loop of `list_logged_exceptions` | induction over test code against a logger-free meaning; induction over the loop; violated by deleting while iterating, by nested assertions, by a swallowed assertion failure |
| C75 | `poll.until` over the sequences of results and clock readings | induction over the checks, exact characterisation of the three outcomes |
| C76 | `Element`, `createAttributes`, `createImportSourceElement` as functions from the model to a tree of elements; calls of an event handler as a fold | structural induction over the model; paths, texts and properties compared with specifications that do not use the builder; refuted for fallbacks, errors and throttles inside imported components, special names, non-event arguments |
| C77 | `useImportSource` as a transition system over renders, effects, loads and removal; the bindings of `bind.tsx` as interpreters of the calls | invariants over all runs (captured values, current run of the effect, order of bindings), a decreasing measure for coming to rest; refuted for the double load at the first appearance and for removal during it |
| C78 | `ReactPyChild` as a transition system over connection, models given and loads | invariant: orderly calls, newest model shown, a load waited for otherwise; refuted for moved elements and modules that raise |
| C79 | `find_nodes_to_change` of `rewrite_keys` on syntax trees, with `add_props=True` | evaluator of elements and dicts as the specification; mutual induction on trees: same value, keys moved, second run changes nothing; refuted for other functions |
| C80 | `rewrite_changed_nodes` on lists of lines and nodes with spans; printing, comments and white space are parameters | splicing from the end refines a relation that replaces disjoint ranges of lines; stable sort; refuted for calls sharing a line, columns counted in bytes, tabs, comments |
| C81 | `pyscript_executor_html`, `pyscript_component_html`, the script of `pyscript_setup_html`, `extend_pyscript_config` on texts; the fetched files and `json.dumps` are parameters | `replace` passes over text where no match can begin; the program as a list of lines; reading the element and attribute as the browser does; look-ups in the configuration; refuted for annotated roots, mentions, texts over several lines, end tags, packages in the configuration |
| C82 | the choice, copying and rebuilding of ReactPy's wheel on a directory of names and files, one act on the file system at a time; Hatch, zip and hash are parameters | invariant over histories of attempts stopped at any point; names matched with a grammar of wheel names; reader of comma separated values for the record; refuted for two servers at once, the moment between removal and renaming, versions with `-`, deleted sources |
| C83 | tasks with copies of a variable that refers to shared list objects, the hook stack on them, the render lock of a component, states and context values of components | refinement, by an invariant over all interleavings, to a machine in which every task has its own call stack; consequences read off; refuted for tasks that a body starts and that call hooks |
| C84 | the client's table of listeners with the names inherited from `Object.prototype`, subscription and its end, `handleIncoming` with listeners that act and throw; what modules get of it | refinement to a book of numbered subscriptions, over all histories; refuted for a listener subscribed twice, names of `Object.prototype`, throwing listeners, ends during a message, and the functions given to modules |
| C85 | nested attribute access on constructors in Python; the look-up of a dotted name in the objects of the page | path relation on objects; induction over the path; refuted for names that constructors have themselves and for inherited properties |
| C86 | `Pyscript/Page`: the user's heads as shared objects, the constructors that add the set-up to them, the page as text (cut at `</head>`), the kept page; the body of a page component as a function of its state | exact content of the page for every history by an invariant over the operations; cutting at the end tag by showing that it does not overlap itself; witnesses for a shared head, an end tag in a script and the restart of the component |
| C87 | `Handlers/Callable`: callables as a tree of functions, decorators, partials and methods; what calling and awaiting them runs; which code is inspected | structural induction over the callable; the options by the theorems of C33; witnesses for decorated coroutine functions, callables without byte code, and partials |
| C88 | `ScriptElement` as instances that Preact matches by key, with an effect that runs late, at the next render of the instance, or never if it is gone; `html.script` from `Vdom/` gives the key | invariant over any events for the page (`C88_page`), for arbitrary keys; for keys that are text and distinct, what was put into the page equals the scripts that appear (`C88_runs`), and is never more (`C88_at_most`); composed with `html.script` (`C88_content_partial`); violated where code and `src` coincide, where siblings have the same code, for changed attributes and for `False`/`None` |
| C89 | the two class-level caches and `__getattr__` with the identity of the objects, composed with `Vdom.__call__` from `Vdom/` | invariant over any sequence of names: the cache holds the constructor of each tag, and each object once; refusal of children compared with a list of HTML's void elements; violated for SVG's elements with content and for names with underscores |
| C90 | the lists of effects, stop events and effect tasks of one component (`Effects/Parallel`), driven by what any schedule of `Sched/` does to the component | invariant over any sequence of bodies, ends of updates and removals; a second invariant over the scheduler shows that every update that ran the body ends; violated for a component that is removed while it is rendered, for overlapping updates (started early) and for the lists that only grow |
| C91 | functions as code with the contents of their cells at the hook's call and later, defaults, and a meaning as a parameter; `_try_to_infer_closure_values` and the three hooks on top of `Hooks/Model` | by C22, C23 over any history of renders, with the hypothesis that only local variables matter; violated for defaults, other functions with equal variables, variables assigned later, local functions, unassigned variables, decorated functions |
| C92 | `_flatten_children` with its checks; the stack as a list of frames with `stacklevel` as Python's `warnings` counts it | mutual induction over nested children, membership stated by an inductive relation; lists of frames split at the first one outside; violated for keys that are `None`, for generators, for the module `reactpy` and for imports between modules of ReactPy |
| C93 | the address of `component_from_npm`, the maps of `import_reactjs` and `default_import_map` as lists of entries | addresses are read by a small specification (file before the first question mark, options cut at ampersands); cases of the framework; violated for versions with an option in `import_reactjs` |
| C94 | `component`, `Component.render`; signatures, and binding arguments to parameters as `inspect.Signature.bind` does | lists of keywords with and without `key`; for refused functions a call that passes all parameters by keyword is the witness |
| C95 | `_render_component` with its `except`, children one after another, `Component.__repr__`; making texts may raise | mutual induction on the page; exact condition; violated where describing the component or the error raises |
| C96 | `Event.__getattr__` with Python's order of looking up attributes, the conversion of the arguments of a handler | an inductive relation says where data are; induction on the path, exact; violated for names of methods and behind lists |
| C97 | the page over several connections (each a session with a layout of its own) on top of the models of the connection and of the layout | invariant over histories of the page; `Places` says which keys, event and function a displayed handler has, targets are injective in keys and event; violated for events made offline, before the first update of a new session, and for elements without keys that move |
| C98 | the layout, the model kept by the JavaScript client and the elements built from it, composed | the client's model is the one of C01 as long as the root component has not failed (induction over the history); induction on `Shows` gives an independent relation `Displays` between what components return and what the page has; with parallel rendering by C112 and an invariant that the browser holds the same model; violated after a failure of the root component |
| C99 | the conversion of a parsed document with a list of stateful transforms that may raise | the calls are logged by instrumenting the transforms; mutual induction on the document shows that log and result satisfy an independent relation `Converted`; for computing transforms the result is a bottom-up map of the result without transforms |
| C100 | the loops of the two commands over a tree of files, with the decoding, newline translation and encoding of Python's text files as parameters | the two loops visit one list of files (files stay files); induction over that list, for success and for failure at any place; violated for encodings other than UTF-8, foreign line ends, and directories named like Python files |
| C101 | the hook with its memo, for renders with debug mode on or off, values and functions as messages | the memo gives the current result by C91; induction over the renders compares the log with a specification that knows only messages and debug mode; violated for changed lists and for functions that read more than their variables |
| C102 | start, stop and restart of the fixture as changes of the logger of C74, a count of servers, and one exit stack per open fixture; test code as programs around the programs of C74 | induction over programs with an invariant for each place (outside, in a fixture, in a capturing block); that errors are never noticed is proved for all code, the other violations by a case each |
| C103 | the two hotswap components as state machines over mount, effect, swap, render and unmount of numbered views, with the setter of C20 | induction over histories against specifications that read the history alone; violated by a swap before the effect, and for local components of the same name |
| C104 | queue, tasks, the call of `render()` in progress and the option, with the states of the components numbered | invariant: the newest state was handed out or a render of it is to come; a bounded number of calls in either mode empties both; violated for a call that waits while the option is turned off, for every continuation |
| C105 | debug mode, its subscriber and the logger of C74; code as programs with capturing blocks | induction over programs, with an exact description of what a block captures; violated by assignments inside blocks |
| C106 | the `_ModelState` objects that renders share: which state a render reads, which it replaces, weak references to parents, freed states | invariant over all calm executions: each component that no render is at is the child of the state that will be read; executions with `RuntimeError` out of `render()` and with `KeyError` in place of a component |
| C107 | as C106, with the instances numbered | the same invariant; step by step: made only where none is mounted, unmounted exactly if dropped; an execution that makes a second instance |
| C108 | as C106 | the same invariant; an instance that is not registered is not found in any state that will be read; an execution that revives one |
| C109 | as C106: the semaphores of the hooks | invariant over all executions: a semaphore is held by exactly the task that is inside; waits go down the tree |
| C110 | the hooks for the connection on top of the layout model (C07) and of the location of a connection (C71) | composition of C07 and C71 with the root that the dispatcher makes |
| C111 | what a fixture opens, keeps on its exit stack and closes; each call of Playwright or of the backend may fail | invariant of the block: the stack is what was opened since it began; concrete witnesses of the failing cases |
| C112 | render tasks, the flag of the hooks, cancelling and the order of deliveries, on top of the renderer of C01–C10 | invariant of the scheduling over any history; simulation by serial rendering; updates of places that are apart commute |
| C113 | applications with `use_state`, setters and handlers on top of the page with parallel rendering (C98) | a render puts each component it calls in agreement with its values (induction on the renderer); components that fail are shown as their messages; what is not owed a render stays in agreement; the page by C98 and C112; also with serial rendering, where requests wait in a queue and are taken from it in any order |
| C114 | `Client/Inline.lean`: a small JavaScript with an evaluator bounded by a number of steps; `inlineCall` is the wrapper around `eval` | The meaning of event attributes in HTML is written down separately (`pageScope`, `htmlAttribute`); evaluation in the two scopes agrees, by induction on the steps, for values that contain only such functions; violations by concrete programs |
| C115 | `Reactjs/Served.lean`: the option, the files, the caches and the applications of a process with any history; the path of a URL in the browser, its decoding, and the file server | Plain paths arrive as they are written (induction on the path); the file is kept by induction on the history; every reply is inside the directory; violations by concrete histories and names |
| C116 | `EventHandler.__eq__` on objects with any attributes; functions as objects with identities, made by `to_event_handler_function` | case analysis; induction on the history of handlers made, with new functions numbered upwards |
| C117 | the wrapper of `HookCatcher.capture`, the catcher's dictionary and `latest`, calls with any arguments | induction on the calls |
| C118 | `render_html` and `run` of the PyScript layout handler on the layout model, with morphdom's algorithm for documents without `id` (external, written down from its behaviour) | mutual induction on the new document; induction on the operations |
| C119 | one option with subscribers that assign and unset it when they are called; nested calls of `set_current` and `unset` | induction on the depth of nesting with an invariant for one position in the list of subscribers |
| C120 | one piece of state; a call of its setter is six atomic steps, any number of calls interleave (threads, calls nested in updater functions) | linearization: an order of the calls that took effect is built along the execution; invariant that what a call in progress will assign is its update of the present value |
| C121 | the model of string_to_reactpy (C38, C67) followed by the elements the browser builds (C76) | structural induction on documents: the clicks of the page in document order are those expected of the links of the document |
| C122 | values of attributes through the check, orjson and JSON.parse; the loop that sends updates | structural induction on values: exactly the plain ones arrive as given; arithmetic of doubles for integers |
| C123 | The list of documented attributes of types.py and the names HTML has for them are the specification; the model is the table of transforms.py with the reading of elements of C67. | The tables are compared in the kernel name by name, and the result is carried to all elements by C67. Violated by 14 event handlers of the HTML standard that reactpy has no name for, and by `checked`. |
| C124 | The text of the page (executors/utils.py, jinja.py), a reader of start tags and scripts, and a lexer that tells text in quotes from code. | Induction over the text between the quotes: what the browser reads is the page of the specification; for the class exactly if it has no `"`. Violated by quotes in the class (an event handler is added) and in the path (code is run), as nothing is escaped. |

Not modelled (for any property): import machinery, logging, JSON text encoding, HTML parsing by lxml,
HTTP/WebSocket framing, React's own reconciliation in the browser, PyScript packaging, build scripts.

## What is modelled, file by file

Paths are relative to `/repo/src/reactpy` (Python) and `/repo/src/js/packages` (TypeScript). "Modelled" means: there is a Lean
definition that follows the function branch by branch; its comment names the lines and every simplification.

| file | modelled | not modelled |
|---|---|---|
| `core/layout.py` | serial renderer (`_create_layout_update`, `_render_component`, `_render_model*`, `_inject_event_ack_seq`, `_unmount_model_states`, model states, `_get_children_info`): `Layout/`; scheduling of renders (`_parallel_render`, `_serial_render`, `_schedule_render_task`, cancelling): `Sched/`; the renderer under parallel scheduling: `Parallel/`; `deliver`, `_process_event_queue`: `Events/`; `__aexit__`: `Closing/`; `_ThreadSafeQueue` without `close`: `Queue/` | logging; `__repr__`; the order of `set` iteration is a parameter where it matters |
| `core/_life_cycle_hook.py` | hook state list, `schedule_render`, contexts, effects start/stop, the flags: `Hooks/`, `Effects/`, `Sched/`; the hook stack as a context variable: `Hooks/Stack`; the effects of a component in overlapping updates: `Effects/Parallel` | the thread-local variant |
| `core/hooks.py` | `use_state`, `use_reducer`, `use_memo`, `use_callback`, `use_ref`, `strictly_equal`, dependencies that are found: `Hooks/`; `use_effect`, `use_async_effect`: `Effects/`; `use_context` through `Layout/`; `use_connection`, `use_scope`, `use_location`: `Location/Hooks` | `use_debug_value` |
| `core/vdom.py`, `types.py`, `_html.py` | element constructors, `VdomDict`, custom constructors, `html.<name>`: `Vdom/`; nested names of imported components: `Client/Named`; JSON schema: `Layout/Schema`; key warnings, also `_warnings.py`: `Vdom/Warn` | type aliases |
| `core/component.py`, `Component` in `types.py` | `component`, `render`, `__repr__`; reporting of errors in `core/layout.py`: `Component/` | Python's binding of arguments is modelled as `inspect.Signature.bind` does it |
| `core/events.py`, `core/_event_inspect.py` | `to_event_handler_function`, `merge_event_handlers`, `merge_event_handler_funcs`, byte code inspection, the callables accepted, `Event`, equality of handlers: `Handlers/` | instructions other than those of CPython 3.11–3.13 that the inspection names |
| `core/serve.py`, `executors/asgi/middleware.py` | routing, dispatcher, one connection (queue, rendering task, handler task): `Asgi/`, `Connection/`; location from the query string: `Location/` | static files, JSON decoding, other ASGI messages |
| `executors/asgi/standalone.py`, `executors/utils.py`, `config.py` | user routes, index page and its caching, settings, import map: `Asgi/`, `Startup/`; the content of the page and PyScript's set-up: `Pyscript/Page` | the date of `last-modified` (a parameter) |
| `executors/pyscript/layout_handler.py` | `update_model`, `build_element_tree`, `create_event_handler`, `delete_old_workspaces`, `render_html`, `run`: `Layout/Model`, `Pyscript/` | morphdom itself (its algorithm without ids is written down in `Pyscript/Morph`) |
| `executors/asgi/pyscript.py`, `executors/pyscript/components.py` | the page, the body of the component: `Pyscript/Page` | – |
| `executors/pyscript/utils.py` | `minify_python`: `Pyscript/Minify*`; the program, element and configuration: `Pyscript/Executor`; the wheel: `Pyscript/Wheel` | running Hatch |
| `_option.py` | all of it: `Option/` | deprecation warnings |
| `utils.py`, `transforms.py` | `reactpy_to_string`, `string_to_reactpy` after parsing, all transforms, those of the user too: `Markup/` | HTML parsing by lxml; `import_dotted_path`, `Ref` |
| `reactjs/*` | name resolution, URLs, file lock, file copy, caches of imports, module paths, addresses of NPM packages and import maps, the way of a module to the browser: `Reactjs/` | HTTP requests (a parameter) |
| `widgets.py` | all of it: `Widgets/` | – |
| `_console/*` | `rewrite_props` and `rewrite_keys` on syntax trees, writing changed nodes back, the loops over files: `Console/` | parsing and printing Python, finding comments |
| `@reactpy/client/src/websocket.ts`, `client.ts`, `mount.tsx` | reconnecting, message queue, location: `Client/Conn`, `Location/`; listeners: `Client/Dispatch`; events over several connections: `Session/` | DOM access |
| `@reactpy/client/src/components.tsx`, `vdom.tsx`, `bind.tsx` | root model, user input element, debounce and throttle, elements built from the model (also composed with the layout: `Whole/`), event handlers called, imported components (also inside each other), scripts, inline JavaScript: `Client/` | React's reconciliation apart from scripts |
| `event-to-object/src/index.ts` | `convert`, `deepClone*` and the event filter: `Client/Convert` | – |
| `testing/logs.py`, `testing/common.py` | log assertions, `poll.until`, `HookCatcher`: `Testing/`; `StaticEventHandler.use`: `Handlers/Equal.lean` | `poll.until_is`, `until_equals` |
| `testing/backend.py` | starting, stopping and restarting `BackendFixture`; `_hotswap`: `Testing/Backend`, `Testing/Hotswap` | uvicorn (a parameter), ports, `url` |
| `logging.py` | the level: `Testing/Level` | format of the output |
| `testing/display.py`, `web/*`, `templatetags/*` | – | all |

## Where the code does not have the property

Each line is a theorem: a concrete case, checked by the kernel, in which the claim fails of the modelled code.

* `Layout.C01_client_view_violated`: **C01 is violated** after a failure: the root fails while `fn 1` and `fn 2` are displayed; then `fn 2` (state changed) is rendered, and the update it yields addresses a place that the client does not have.
* `Layout.C03_mount_unmount_violated`: **C03 is violated** by a failing component: the root fails while `fn 1` and `fn 2` are displayed. They are not displayed any more, but they are not unmounted, not even when the layout is left.
* `Layout.C04_moved_violated`: **C04 is violated** for a handler with a target of its own (as `StaticEventHandler` makes them) that moves to an element before: it is displayed, and its target is displayed only once, but the server does not know the target.
* `Layout.C04_routing_violated`: **C04 and C06 are violated** for keys that print alike: the handler displayed on `p` is number 10, but the server runs number 20 for its target, which `q` has too.
* `Layout.C05_only_displayed_violated`: **C05 is violated** after a failure: nothing but an error is displayed, and the handler displayed before the failure can still be run.
* `Layout.C05_static_target_violated`: **C05 is violated** without any failure if an explicit target changes between two renders.
* `Layout.C06_unique_targets_violated`: **C06 is violated** for keys that print alike.
* `Layout.C08_contained_violated`: **C08 is violated**: after the root failed, `render()` for the formerly displayed child (whose state was changed) raises, which ends the connection.
* `Client.Root.C11_error_violated`: C11 fails: once the root has rendered with an error, no later root update without an error removes it: the JavaScript client shows the error for ever.
* `Client.Root.C11_violated`: Such a history: the root component raises once, then renders.
* `Sched.C12_other_thread_violated`: **C12 is violated** by a setter called in another thread: the change of component 1 is never rendered, although it is in the tree and all tasks have ended.
* `Sched.Serial.C12_serial_thread_violated`: **C12 is violated** by setters in another thread: the event loop renders the component between the queueing and the setting of the flag, which then stays set although nothing is queued, so that the next change is ignored for ever.
* `Sched.C13_cancelled_render_violated`: **C13 is violated** when a call of `render()` is cancelled while it waits for tasks: the next call blocks although task 1 has ended with an update.
* `Sched.C13_later_task_violated`: **C13 is violated**: `render()` waits for task 1 (of component 1), which has not ended; task 2, scheduled since, has ended with an update, but no step of `render()` is possible.
* `Sched.C14_order_violated`: Task 1 rendered component 1 and its update waits to be returned; task 2 then renders the root and component 1 in its newer state. Both have ended, and `render()` may return the update of task 2 first. When all is done and delivered, the client shows the older state of component 1.
* `Queue.C15_order_violated`: C15 is false of the code with backpressure: a value whose task begins between the `get` that made room and the resumption of the task waiting for room overtakes it.
* `Queue.C15_threads_violated`: C15 is false of the code when two threads put the same value at the same time, although the class is made for that: both find it not pending, it is enqueued twice, and the second `get` raises `KeyError` out of `Layout.render()`.
* `Events.C16_order_violated`: C16, order fails under backpressure: with a queue of size one, a message whose `put` is suspended is overtaken by a message received after it that finds room.
* `Events.C16_violated`: C16 fails when a handler ends with a `BaseException` such as `CancelledError` (a handler that awaits a task that is cancelled): the processing task dies, and the next event of that target, though received with its handler registered, is never handled, whatever happens later.
* `Events.C17_handlers_violated`: C17 fails for an element with two handlers: the larger number of one handler acknowledges an earlier event of the other whose processing has not begun.
* `Events.C17_inherited_violated`: C17 fails for an element that takes the place of another: numbers are never removed, so the new element is first rendered with the number of the removed one, of which it has received no event.
* `Events.C17_violated`: C17 fails for the event itself: the number is recorded before the handler runs, so a render that happens while the handler is awaiting attaches `n` although the handling of event `n` is not over.
* `Client.Input.C18_violated`: C18 fails: the server has acknowledged only the first of two events, and its older value replaces the newer text.
* `Hooks.C21_fold_violated`: A reducer passed by a later render is never used, whatever it is: the fold always uses the first render's reducer.
* `Hooks.C22_changed_list_violated`: C22 is violated: a component that changes its list of dependencies in place, from `[1]` to `[2]`, and passes it again, gets the old value.
* `Hooks.C22_value_violated`: The full C22 fails: if the function raises in a render with changed dependencies, the next render with those same dependencies does not call its function and returns the value computed under the old, different dependencies.
* `Hooks.C24_recovers_violated`: A component that raises in its first render after `k` hook calls and makes more calls later never recovers: each later render raises at call position `k` (`IndexError`), without exception.
* `Effects.Sync.C25_violated`: C25 is false of the code when a clean-up raises: it stays in the reference (647–650 clear it only afterwards), so it is called again, and the next generation's function never runs.
* `Effects.Async.C27_overlap_violated`: The second part of C27 is false too, shielded or not: when generation 0 is resumed it clears `pending_task` (262), which by then holds generation 1's task; the next effect task then neither cancels nor awaits generation 1's coroutine: two coroutines run at the same time.
* `Effects.Async.C27_violated`: C27 is false of the code, shielded or not: the clean-up that generation 0 returned is overwritten and never called, although the component is unmounted and every task has finished; and it had not been called when the coroutine of generation 1 began.
* `Hooks.C28_sound_violated`: Two closures of one local function over different values are "equal", although they are different functions: a state holding one is not replaced by the other, whatever `==` says.
* `Vdom.C30_attributes_violated`: **C30 is violated** by `html.fragment` and `html.script`: inline JavaScript disappears silently.
* `Layout.C31_schema_violated`: **C31 is violated** by a negative `debounce`: the event handler accepts it, and the update contains it.
* `Handlers.C33_captured_violated`: C33 fails when an inner function captures the event: it is then loaded with `LOAD_DEREF`, which the inspection does not take for a load of the event.
* `Handlers.C33_conditional_violated`: C33 fails for conditional values: only the last operand is looked at. `def h(event): event.debounce = g() or 200` reports 200 whatever `g()` returns.
* `Handlers.C33_default_violated`: C33 fails for a parameter that has been assigned: its default is reported. `def h(event, ms=200): ms = 300; event.debounce = ms` reports 200.
* `Handlers.C33_method_violated`: C33 fails for methods: the first parameter is `self`, the event is the second, and what is done with it is not seen. `def on_click(self, event): event.preventDefault()`, given as a bound method.
* `Handlers.C33_store_load_violated`: C33 fails when the load of the event is fused with the store before it (`STORE_FAST_LOAD_FAST`, CPython 3.13, for two statements on one line): `def h(event): x = 1; event.preventDefault()`.
* `Handlers.C33_violated`: C33 fails: once one assignment has been resolved, later ones are not looked at, so a debounce is reported although another assignment has an unresolvable value. `def h(event): event.debounce = 200; event.debounce = g()` reports 200.
* `Option.C34_notified_violated`: **C34 is violated** when a subscriber raises: here the child's validator rejects the value 5. The parent has the value 5, but the callback subscribed after the child was not called.
* `Option.C35_env_violated`: **C35 is violated** for options with a parent (`REACTPY_CHECK_VDOM_SPEC`): the parent's value 0 replaces the value 1 of the variable.
* `Option.C36_rejected_by_child_violated`: **C36 is violated** in another way: setting a value that a child rejects raises, but the value has been changed.
* `Option.C36_set_default_violated`: **C36 is violated**: `set_default(default)` on an option that is not set raises `AttributeError` (`REACTPY_DEBUG.set_default(False)`).
* `Markup.C37_none_violated`: A layout shows nothing for a child `None`; the conversion writes `None`.
* `Markup.C37_number_violated`: A component that renders a number is shown as an empty `div`.
* `Markup.C37_string_violated`: A component that renders a string gets a `div` the model does not have.
* `Markup.C38_iframe_violated`: An `iframe` with content, which HTML allows, raises.
* `Markup.C38_option_violated`: An option without text raises `KeyError`, though it has a value.
* `Markup.C38_textarea_violated`: The text of a `textarea` becomes its `defaultValue`, and converting back loses it.
* `Markup.C39_custom_violated`: Custom properties lose both.
* `Markup.C39_vendor_camel_violated`: **C39 is violated** by the names React has for styles with a vendor's prefix: they come back without the capital.
* `Markup.C39_vendor_violated`: Vendor prefixes lose their first dash.
* `Markup.C40_violated`: **C40, violated.** `class` and `classname` become one prop, and one value is lost.
* `Asgi.C42_prefix_violated`: A dot in the prefix is a pattern: a websocket outside the prefix goes to the dispatcher, and runs a component.
* `Reactjs.C43_host_violated`: A `../` too many replaces the host by the file name; so does `./` from a base without a path.
* `Reactjs.C43_inner_violated`: **C43, violated.** `../` is only understood at the start of a reference: after `./` it is kept (and `./` after `../` too).
* `Reactjs.C43_network_violated`: A reference that names its host (`//host/…`) is looked up at the host of the base.
* `Reactjs.C43_query_violated`: A slash in the query of the base counts as a directory.
* `Reactjs.C44_order_violated`: The order in which the references of a URL are visited (that of a Python set of strings, different in each process) decides what is found: a reference is looked up from the module of the reference before it.
* `Reactjs.C44_package_violated`: A reference to a package (`export * from "react"`) is fetched as if it were a URL, which raises an exception that nothing catches.
* `Reactjs.Lock.C45_crash_violated`: Once a process has been killed inside the lock no process ever enters again, however long it waits and however often it tries: all later uses of the module fail after ten seconds, until somebody removes the file by hand.
* `Reactjs.Lock.C45_directory_violated`: The lock file lies beside the module file, whose directory is created only inside the lock (`copy_file`): for a module name with a new directory in it the lock is free, and yet nobody ever gets it.
* `Reactjs.Copy.C46_fallback_violated`: Where an open file cannot be replaced (Windows), the file is removed first.
* `Reactjs.Copy.C46_same_string_violated`: Two processes that make different modules of the same name from strings can leave neither: both have finished, and the file has the contents of one cut short by the other.
* `Reactjs.Copy.C46_string_violated`: A module made from a string is removed, then truncated, then written, without a lock: readers see it missing, empty and incomplete.
* `Reactjs.Copy.C46_symlink_violated`: A file that is replaced by a link is missing for a while; a process killed then leaves it missing.
* `Client.Timing.C47_late_violated`: C47 fails with a late timer: a leading call does not cancel the pending timer, so the handler is called with the newer event first, and then, within the interval, with the older one.
* `Client.Timing.C47_rerender_violated`: C47 fails across renders: a render makes a new wrapper, which knows of no earlier call.
* `Client.Timing.C48_late_violated`: With late timers a quiet period may go unnoticed: the event before it is not delivered.
* `Client.Timing.C48_rerender_violated`: C48 fails across renders: a render in the middle of a burst makes a new wrapper, the timer of the old one stays pending, and both the middle and the last event of the burst are delivered.
* `Client.C49_first_violated`: C49 fails for the first delay: it is the starting interval even if that exceeds the maximum.
* `Client.C49_zero_violated`: C49 fails for a configured maximum of zero retries: `0 || 150` is 150, and the client does reconnect.
* `Client.Convert.C51_files_violated`: C51 fails: the depth is not bounded by the limit, for `files` is given a new depth of its own at each level.
* `Client.Convert.C51_infinite_violated`: C51 fails on an infinite heap: the conversion never ends.
* `Client.Convert.C51_selection_raises_violated`: C51 fails for an event with a selection in a node with a property that raises: so does the conversion.
* `Client.Convert.C51_selection_violated`: C51 fails for an event with a selection: its nodes are one level too deep (here limit 2, depth 3), and beyond the limit the program's own marker is left in the data.
* `Vdom.C52_keys_violated`: **C52 is violated** through `update`, `setdefault` and `|=`, which `VdomDict` inherits unchecked.
* `Console.C53_keyword_violated`: A name may be renamed to a reserved word: `dict(class_=…)` becomes `dict(class=…)`, which Python cannot parse.
* `Console.C53_others_violated`: Not only attributes are renamed: any function called by its name with a dict is taken for an element constructor (`save({"user_id": 1})`), and the arguments of any call in `style` for CSS names (`html.div({"style": theme(base_size=1)})`).
* `Console.C53_repeated_violated`: Two names may become one: `dict(tab_index=…, tabIndex=…)` becomes a call with a repeated argument.
* `Console.C53_style_violated`: **C53, violated.** `style_` is renamed to `style`, whose contents are renamed only by a second run.
* `Asgi.C55_length_violated`: The length counts characters: a document with other characters declares fewer bytes than it sends.
* `Asgi.C55_override_violated`: An `etag` set by the user is sent but not recognised when it comes back.
* `Asgi.C55_precedence_violated`: A client whose `etag` is that of an older document is told it has the current one if the dates are equal (HTTP gives the `etag` precedence).
* `Markup.C57_checked_violated`: **C57 is violated** by `checked`: read again, it is the initial state only.
* `Markup.C57_document_violated`: A whole document: `<p class="a"></p>` becomes `<p classname="a"></p>`.
* `Markup.C57_handlers_violated`: **C57 is violated** by event handlers: inline JavaScript is not written, whatever the element, so that `<p onclick="go()"></p>` becomes `<p></p>`.
* `Markup.C57_multiple_violated`: **C57 is violated** by `multiple`, whose text does not come back: `<select multiple="">…</select>` becomes `<select multiple="True">…</select>`.
* `Markup.C57_violated`: **C57, violated.** `class` and `for` come back under names HTML does not know.
* `Asgi.C58_alternatives_violated`: The anchors are not around the whole pattern: a route `/a|/b` also takes every path beginning with `/a`.
* `Asgi.C58_newline_violated`: A newline after the path is ignored.
* `Reactjs.Cache.C60_content_violated`: The contents are not looked at when the name was used before: a module made anew from other contents is the old one.
* `Reactjs.Cache.C60_fallback_violated`: The fallback of the first import is shown by later ones that give none.
* `Pyscript.C61_double_click_violated`: The handler of a double click listens to an event that no browser sends (`dblclick` is the name).
* `Pyscript.C61_ignored_violated`: The document has no trace of whether a handler prevents the default action, stops propagation, is debounced or throttled, of inline JavaScript handlers, of the module an element is imported from, or of a component's error: models that differ in these only give the same document.
* `Pyscript.C62_string_violated`: A `#` in a string is taken for a comment: the rest of the line is cut off, and with it the closing quote.
* `Pyscript.C62_text_violated`: A text in triple quotes on a line of its own is taken for a docstring, also where it is an argument.
* `Reactjs.Exports.C63_comma_violated`: **C63 fails for initial values with commas**: `export let a = f(1, x);` is read as exporting `x)`.
* `Reactjs.Exports.C63_comment_violated`: **C63 fails for text that is not code**: names are found in comments and string literals.
* `Reactjs.Exports.C63_destructuring_violated`: **C63 fails for destructuring**: of `export const { a, b } = o;` the second name is found as `b }`, and of `export const { a: b } = o;`, which exports `b`, the name `a` is found.
* `Reactjs.Exports.C63_kinds_violated`: **C63 fails for `var` and asynchronous functions**: neither name is found.
* `Reactjs.Exports.C63_lines_violated`: **C63 fails for lists over several lines**: nothing is found.
* `Reactjs.Exports.C63_tab_violated`: **C63 fails for `as` without spaces around it** (tabs or line ends): the whole item is taken for the name.
* `Reactjs.Cache.C64_escape_violated`: A name with `..` is written outside the modules directory, and names that differ in empty parts have one file.
* `Client.Convert.C66_names_violated`: C66 fails for data attributes and form elements with unlucky names: `data-size` is left out, and so is a form element named `ID`: the names that are filtered out of browser objects are filtered out of the author's names too.
* `Markup.C67_last_violated`: Of several selected options of a `select` that takes one, a browser shows the last; the model shows the first.
* `Startup.C69_child_violated`: **C69 is violated** for options with a parent: `check_vdom_spec=False, debug=True` starts with the check on.
* `Startup.C69_half_violated`: **C69 is violated** when a later setting is refused: the application does not start, but the earlier settings stay changed for the whole process (here `reconnect_interval` is refused, `max_queue_size` has been set).
* `Startup.C69_spelling_violated`: **C69 is violated** by the spelling of names: `PATH_PREFIX="app"` is accepted without being checked.
* `Startup.C69_timeout_violated`: **C69 is violated** for `tests_default_timeout`, a setting that `ReactPyConfig` declares: no value but the default can be given.
* `Startup.C70_query_violated`: **C70 is violated** by prefixes that are accepted but end the path of a URL: the websocket of `/a?b/` is `/a`.
* `Startup.C70_root_prefix_violated`: **C70 is violated** by the prefix `/`, which is accepted: its import map names `//static/preact.js`, a file of the host `static`.
* `Startup.C70_two_prefixes_violated`: **C70 is violated** with two prefixes in one process: when the first page is asked for after the second application was created, it names the second's prefix, and the first application does not know its websocket.
* `Connection.C72_stuck_violated`: **C72 is violated** when the rendering task has died: here no component was found (an unregistered path). The client goes on sending events; when the queue is full the handler waits for room for ever, and never notices the end of the connection.
* `Closing.C73_cancelled_effect_violated`: C73 is violated when an effect task was cancelled by others (the event loop shuts down, or the effect raises `CancelledError`): the cancellation comes out of `__aexit__`, and the remaining components are never told to stop.
* `Closing.C73_failed_render_violated`: C73 is violated when a render task has failed (a component's render raised something the renderer does not catch) and its failure was not collected before leaving: the exception comes out of `__aexit__`; whatever happens, leaving never completes and no component is ever told to stop, so no effect is cleaned up.
* `Closing.C73_interrupted_render_violated`: C73 is violated when leaving comes while the root is being rendered again: cancelled at its first suspension point, the new state of the root, which is the one registered, has no children yet, so that leaving stops the root alone and returns; all that was displayed below it stays registered and is never told to stop, so its effects are never cleaned up.
* `Closing.C73_interrupted_unmount_violated`: … and when leaving comes while a component that is no longer displayed is being unmounted: it is out of the registry, but the wait for its effects is cancelled, and what was displayed below it, and the components before it that are no longer displayed either, stay registered and are never told to stop.
* `Closing.C73_render_scheduled_violated`: C73 is violated when a render is scheduled while leaving waits for another (a handler or effect that sets state on its way out): the loop over the set raises, and nothing is unmounted.
* `Closing.C73_swallowed_cancellation_violated`: C73 is violated when an event handler swallows its cancellation (the loop around it takes the next event and the task goes on): as long as that task does not end, leaving does not return, and no component is told to stop.
* `Testing.C74_deleting_violated`: C74 is violated by `list_logged_exceptions` with deleting (the default), which deletes from the list it is going through: of two errors in a row only the first is returned; and of two errors with a message between them the message is deleted and the second error stays.
* `Testing.C74_nested_violated`: C74 is violated by an assertion inside another capturing block: it looks at what was logged before it too. Nothing is logged in the inner block, yet the assertion that something was passes, and the assertion that nothing was fails.
* `Testing.C74_swallowed_violated`: C74 is violated by `assert_reactpy_did_not_log` around an assertion that fails: the failure is swallowed, and the test passes.
* `Client.Elem.C76_fallback_violated`: C76 is violated for imported components: the fallback given for the time of loading is never shown.
* `Client.Elem.C76_imported_error_violated`: C76 is violated inside imported components: the message of a failed component is not shown.
* `Client.Elem.C76_imported_input_violated`: C76 is violated for an imported component whose name is that of an input: the HTML element is shown instead.
* `Client.Elem.C76_imported_throttle_violated`: C76 is violated inside imported components: a handler's throttle is ignored there, though the same element is throttled elsewhere.
* `Client.Elem.C76_inherited_violated`: C76 is violated for a tag that `Object.prototype` has a member for: nothing of the element is shown.
* `Client.Elem.C76_prevented_violated`: C76 is violated by a handler that prevents the default or stops propagation, when a component calls it with anything that is not an event (many call `onChange(event, value)`): it raises, and nothing is sent.
* `Client.Imp.C77_left_violated`: C77 is violated for a component removed while its module is loaded for the second time: what it shows stays mounted, with every binding.
* `Client.Imp.C77_twice_violated`: C77 is violated while a component appears: as the element does not exist yet when the dependencies are first looked at, the module is loaded and bound twice; the first binding is unmounted and then rendered, and never unmounted again.
* `Client.Child.C78_meanwhile_violated`: C78 is violated for an element that is out of the document when its module arrives: nothing shows it later.
* `Client.Child.C78_moved_violated`: C78 is violated for an element that is moved in the document (a component that reorders its children): it is unmounted and nothing shows it again, though it is in the document, has its model, and nothing is loading.
* `Client.Child.C78_raises_violated`: C78 is violated by a module that raises while binding for the second time: the unmounted binding is kept and rendered.
* `Console.C79_others_violated`: C79 is violated: other functions called inside a rewritten element are given an empty dict. `html.div({}, now(), key="k")` becomes `html.div({"key": "k"}, now({}))`.
* `Console.C79_sorted_violated`: C79 is violated: any function that takes `key` loses it: `sorted("abc", key=f)` becomes `sorted({"key": f}, "abc")`.
* `Console.C79_twice_violated`: C79 is violated: a key given twice, `html.div(dict(a, key=1), key=2)`, gives a call with `key` repeated, `html.div(dict(a, key=1, key=2))`, which is a syntax error.
* `Console.Lines.C80_bytes_violated`: C80 is violated: columns are counted in bytes but used to count characters, so after an accented letter inside the call the comma that follows is lost, and the new source is not a program.
* `Console.Lines.C80_comment_violated`: C80 is violated: a comment at the end of the line is written twice.
* `Console.Lines.C80_same_line_violated`: C80 is violated: of two changed calls in separate statements on one line only the first is rewritten.
* `Console.Lines.C80_tabs_violated`: C80 is violated: a tab before the call becomes a space.
* `Pyscript.Exec.C81_annotation_violated`: C81 is violated for a root whose definition is written otherwise: `def root() -> X:` is refused.
* `Pyscript.Exec.C81_end_tag_violated`: C81 is violated for code with an end tag, as in a text: the browser runs the beginning of the program only.
* `Pyscript.Exec.C81_mention_violated`: C81 is violated for a root that is only mentioned: a text with `def root():` is accepted, and the page's program calls a function that isn't there.
* `Pyscript.Exec.C81_packages_violated`: C81 is violated for a configuration with packages: neither ReactPy nor the extra packages are left, so that the page can't import `reactpy`.
* `Pyscript.Exec.C81_text_violated`: C81 is violated for a text over several lines: it is changed by the indentation.
* `Pyscript.Wheel.C82_dash_violated`: C82 is violated for a version written with `-`, such as `1.0.0-a5`: the rebuilt wheel is not recognized and is built anew each time.
* `Pyscript.Wheel.C82_deleted_violated`: C82 is violated when a source file is deleted: the times of the others tell nothing, and the old wheel is used.
* `Pyscript.Wheel.C82_gap_violated`: C82 is violated while the wheel is replaced: for a moment there is none, also for a server that runs already.
* `Pyscript.Wheel.C82_two_servers_violated`: C82 is violated by two servers that start at the same time: the second empties the temporary file before the first renames it, and a page gets a broken wheel.
* `Hooks.Stack.C83_background_violated`: C83 is violated by tasks that a component's body starts: a hook call there is not refused, but answered from the component that the render happens to be inside of at that moment. Here task 1, started by the body of component 5, takes the place of the first hook call of component 6: it gets the state of that component, and the body of component 6 gets nothing in its own place.
* `Client.Dispatch.C84_context_violated`: C84 is violated for imported modules: the `sendMessage` and `onMessage` that the `bind` function of a module is given throw whenever they are called, because they have lost their object.
* `Client.Dispatch.C84_late_violated`: C84 is violated during a message: a subscription that another listener ends is still served with that message.
* `Client.Dispatch.C84_prototype_violated`: C84 is violated for the names of `Object.prototype`: nobody can subscribe to such a type, and a message of such a type, or the message `null`, throws instead of causing a warning. If a listener tries to subscribe to such a type, the listeners after it do not get the message.
* `Client.Dispatch.C84_throw_violated`: C84 is violated by a listener that throws: those after it do not get the message.
* `Client.Dispatch.C84_twice_violated`: C84 is violated for a listener that has subscribed twice to a type: ending one of its subscriptions ends both.
* `Client.Named.C85_inherited_violated`: C85 is violated for names that a component does not have but inherits from its prototype: nothing is reported as missing, and what is inherited is taken for the component.
* `Client.Named.C85_shadow_violated`: C85 is violated for nested components with a name that constructors have themselves: the attribute is that of the constructor.
* `Pyscript.Page.C86_component_restarts_violated`: **C86 is violated** when a parent is rendered again: the same call gets another id, so the page puts a new container and a new program in the place of the running ones, whose state is lost.
* `Pyscript.Page.C86_end_tag_violated`: **C86 is violated** by a script of the head that mentions the end tag: the set-up is also put into the script's text.
* `Pyscript.Page.C86_shared_head_violated`: **C86 is violated** by a head given to two applications: the constructor adds the set-up to the user's dictionary, so the page of each has both set-ups.
* `Handlers.C87_builtin_violated`: **C87 is violated** by callables without byte code: giving `print`, `items.append`, a class or an object with `__call__` as a handler raises `AttributeError`; so does giving a partial or a decorated one of them.
* `Handlers.C87_decorated_coroutine_violated`: **C87 is violated** by a coroutine function in an ordinary decorator (`functools.wraps`): its coroutine is never awaited, the user's function does not run.
* `Handlers.C87_decorated_partial_violated`: **C87 is violated** by partials of decorated functions: below a partial, decorators are not removed, and the code of the decorator is inspected.
* `Handlers.C87_partial_violated`: **C87 is violated** by partials that bind a positional argument: `partial(h, item)` for `def h(item, event): event.preventDefault()` is called with the event as second argument, but the inspection looks at the first; the default action is not prevented.
* `Client.Script.C88_attribute_violated`: C88 is violated: an attribute that changes while the code stays the same is not changed in the page.
* `Client.Script.C88_code_and_src_violated`: C88 is violated: a script with `src` that follows a script whose code is the same text is never loaded.
* `Client.Script.C88_false_violated`: C88 is violated: every attribute is given to the script element as text, so that `async=False` and `integrity=None` are there as `async="false"`, which means that it is asynchronous, and `integrity="null"`.
* `Client.Script.C88_same_code_violated`: C88 is violated: two scripts with the same code next to each other get the same key, and the layout refuses two children with the same key: the component that renders them fails.
* `Vdom.Tags.C89_svg_content_violated`: C89 is violated: the constructors of the SVG elements for text, titles, gradients, filters and so on refuse every child, so that nothing can be written with `html.svg.text`, and a gradient can have no stops.
* `Vdom.Tags.C89_underscore_violated`: C89 is violated: an element with an underscore in its name, which HTML allows, cannot be made.
* `Effects.Parallel.C90_early_violated`: C90 is violated: an effect is started before the update that asked for it is complete, when another update of the component is complete before.
* `Effects.Parallel.C90_failed_violated`: C90 is violated: when the body of a component fails, the components below it disappear from the page, but their effects are not told to stop.
* `Effects.Parallel.C90_kept_violated`: C90 is violated: every effect that a component starts is kept until the component is removed, although the next one replaces it: after `n` renders there are `n` tasks, of which none was told to stop.
* `Effects.Parallel.C90_removed_violated`: C90 is violated: a component that is removed while its own render is in progress starts the effects of that render after it was removed, and they are never told to stop.
* `Hooks.Infer.C91_assigned_later_violated`: C91 is violated: a variable that is assigned after `use_callback` was called is compared by the value it had before; the callback of an earlier render is returned, and uses the value that the variable had at the end of that render.
* `Hooks.Infer.C91_decorated_violated`: C91 is violated: given by decorating it (`@use_callback()`), or as a method, a callback is a new one in every render, although nothing changed.
* `Hooks.Infer.C91_default_violated`: C91 is violated: values that a function takes as defaults of its parameters (`lambda x=x: ...`) are not seen: `use_memo` goes on returning the result for the values of the first render.
* `Hooks.Infer.C91_function_violated`: C91 is violated: a component that passes another function with equal variables (`use_memo(f if condition else g)`) gets the result of the function that it passed before.
* `Hooks.Infer.C91_local_function_violated`: C91 is violated: a function over a local function of the component is not seen to change, although the local function uses other values now: `use_callback` returns the old one.
* `Hooks.Infer.C91_unassigned_violated`: C91 is violated: a function that mentions a variable which is assigned further down in the component (as in two functions that call each other) makes every hook raise, whatever the hook has seen before.
* `Vdom.Warn.C92_generator_violated`: C92 is violated: children without keys that come from a generator are not reported; there is one notice, also when all have keys.
* `Vdom.Warn.C92_import_violated`: C92 is violated: when a module of ReactPy is imported by another one, a warning that it causes names the line of the import.
* `Vdom.Warn.C92_none_violated`: C92 is violated: an element in a list whose key is `None`, which has the same effect as no key, is not reported.
* `Vdom.Warn.C92_root_violated`: C92 is violated: the module `reactpy` itself is not taken for a part of ReactPy; a warning that it causes names its line.
* `Reactjs.Npm.C93_option_violated`: C93 is violated by versions with an option: `component_from_npm` takes them apart correctly (`C93_options`), but `import_reactjs` writes the path inside of the package after the option, so that all names of one package stand for the same file. (In debug mode the second question mark makes the option unreadable as well.)
* `Component.C95_argument_violated`: C95 is violated if an argument of the component that raises has a `repr` that raises: the page is displayed as an error as a whole, with the wrong message, and if the component is the root, `Layout.render()` raises. With another argument all is well.
* `Component.C95_debug_violated`: C95 is violated in debug mode if the text of the exception cannot be made: the page is displayed as an error as a whole. Outside debug mode all is well.
* `Component.C95_name_violated`: C95 is violated if the component was made from a callable without `__name__`, such as a `functools.partial`: the page is displayed as an error as a whole, and if the component is the root, `Layout.render()` raises.
* `Handlers.EventData.C96_list_violated`: C96 is violated behind lists: in `event.target.files[0].name` the element of the list is a plain dictionary, and reading its entry as an attribute raises. So it is for every list of objects.
* `Handlers.EventData.C96_method_violated`: C96 is violated for entries with the names of methods: `event.dataTransfer.items` is a method of the dictionary, not what was sent. So it is for every name of a method, whatever the event.
* `Session.C97_moved_violated`: **C97 is violated** within a session: the user clicks a button while the server removes it from the list; without keys the next button takes its place, and its handler is run.
* `Session.C97_reopened_violated`: **C97 is violated** while connected: until the new session sends its first update the page shows the elements of the old one, and their events go to the new one.
* `Session.C97_session_violated`: **C97 is violated** across sessions: the user clicks while the connection is lost; the click is handed to the next session, which runs the handler of another element. Session 1 displays the list `l`, session 2 the list `l'`.
* `Whole.C98_error_violated`: **C98 is violated** after the root component has failed once: it is rendered without error again, and the page still shows the error.
* `Console.C100_directory_violated`: C100 is violated: a directory whose name ends in `.py` makes the command fail, although every file can be dealt with.
* `Console.C100_emptied_violated`: C100 is violated: if the encoding of the locale does not have a character of the rewritten text, the command empties the file.
* `Console.C100_encoding_violated`: C100 is violated: if it has the character but is not UTF-8, the command succeeds and leaves a file that it, and Python, cannot read.
* `Console.C100_line_ends_violated`: C100 is violated: a change in one line changes the end of every line, if the file's line ends are not those of the system.
* `Hooks.Infer.C101_mutated_violated`: C101 is violated: the message is a list that the component changes between renders (`world` is its content, the message the list itself); the second content is not logged, because the old message is the same list.
* `Hooks.Infer.C101_ref_violated`: C101 is violated: the message is `lambda: ref.current`; the function has the same variable `ref` in every render, so that it is never called again, and changes of `ref.current` (`world`) are not logged.
* `Testing.C102_earlier_violated`: C102 is violated inside a capturing block: an error logged before the fixture makes leaving it raise, and the server goes on running.
* `Testing.C102_start_violated`: C102 is violated when the server does not start: the task that serves is left, and the logger keeps the captor and the level DEBUG.
* `Testing.C102_unnoticed_violated`: C102 is violated: whatever test code logs inside a fixture, leaving the fixture never raises because of it: the block ends as the code alone would in a capturing block. (The records are dropped before they are looked at.)
* `Testing.C103_early_violated`: C103 is violated by a swap between the first render of a view and its effect: the view keeps showing what was before, and no render is scheduled.
* `Testing.C103_same_code_violated`: C103 is violated for two components of the same name defined inside a function: what `@component` makes of them has one code and one name, so that `strictly_equal` takes them for equal, whatever `==` says, and the view is not updated.
* `Sched.Switch.C104_stuck_violated`: C104 is violated when the option is turned off while `render()` waits: the change of a component, and whatever changes after it, is not handed out for as long as the option stays off, however often the components change and the tasks run.
* `Testing.C105_after_violated`: C105 is violated by turning debug mode on inside a block: after it debug mode is on, but the logger is at level INFO.
* `Testing.C105_missed_violated`: C105 is violated by turning debug mode off inside a block: the message of level DEBUG after it is not captured.
* `Sched.Heap.C106_detached_violated`: **C106 is violated** in parallel rendering: a task is scheduled for a component whose state was made by a render that was cancelled; the state of its parent is gone, and `render()` raises `RuntimeError`. In this execution each task goes on until it has to wait, and no body raises.
* `Sched.Heap.C106_key_error_violated`: **C106 is violated** in parallel rendering: a render that was cancelled had unmounted a child; the render that cancelled it finds the child in the older state and unmounts it again, which raises `KeyError`, and the component is replaced by an error, although its body did not raise and returned the same both times.
* `Sched.Heap.C107_lost_violated`: **C107 is violated** in parallel rendering: component 6 is in the tree from the first render on, every body returns it, and it is mounted; but a render of component 2 starts from a state that a cancelled render has left without children, and makes a new instance for place 6: the state of the component is lost in that update, and two instances are mounted there.
* `Sched.Heap.C108_back_violated`: **C108 is violated** in parallel rendering: a render that was cancelled had unmounted component 5; the render that cancelled it finds the component in the older state, mounts the same instance again and runs its body, although its effects were stopped.
* `Testing.Display.C111_again_violated`: **C111 is violated** when a fixture is used a second time: it keeps the browser, the page and the backend, which are closed, and cannot show anything, though entering succeeds.
* `Testing.Display.C111_enter_violated`: **C111 is violated** when entering fails: Playwright and the browser are left open.
* `Testing.Display.C111_headless_violated`: **C111 is violated** for the argument `headless`: the browser is started in the same way whatever it is; only the environment counts.
* `Testing.Display.C111_shared_violated`: **C111 is violated** for two fixtures at the same time: what one shows is what the other shows, since all backends share what is mounted, and leaving one takes away what the other shows.
* `Parallel.C112_disordered_violated`: **C112 is violated** when an update overtakes an earlier one that concerns it: the render of the inner component (with 7) finishes, then that of the outer one (with 9); the client is given the second before the first, and shows 7 for good: nothing waits and nothing is owed.
* `Parallel.C112_lost_violated`: **C112 is violated** for a component that is removed while its setter was called: its task is not cancelled, and will render it although it was unmounted. Here one handler calls the setters of the outer and of the inner component, and the outer one then does not show the inner one any more. (What the task then does: C106 and C108.)
* `Whole.C113_disordered_violated`: **C113 is violated** when an update overtakes an earlier one of the same component: two histories that differ in nothing but the order in which the two last updates are handed out, after both of which no component has failed, nothing is left to do and all values are the same; the pages show different values, one of them an old one.
* `Whole.C113_error_violated`: **C113 is violated** after the root component has failed once: its state changes, it is rendered again without error, nothing is left to do, and the page still shows the message.
* `Whole.C113_stray_violated`: **C113 is violated** when a component that a failed render has left behind is rendered (a setter of its was kept and is called): nothing is left to do, every component on the page was rendered last for its present state, and the page shows "old" where the component returns "new".
* `Client.Inline.C114_called_violated`: C114 is violated when the value of the code happens to be a function: `this.undo = () => save(4)` calls at once what it should only keep.
* `Client.Inline.C114_element_violated`: C114 is violated for names of properties of the element and the document: `value = title` fails.
* `Client.Inline.C114_names_violated`: C114 is violated for names of ReactPy's own code: the page's variable `name` cannot be read, the code gets the name of the attribute.
* `Client.Inline.C114_new_violated`: C114 is violated for assignments to variables that do not exist yet: `clicked = 1` fails.
* `Client.Inline.C114_return_violated`: C114 is violated by every code with `return` (`onsubmit="return check()"` in HTML that was read): nothing of it is run.
* `Reactjs.Served.C115_directory_violated`: **C115 is violated** when the modules directory is changed, as the setting `web_modules_dir` of an application does: a component made before, such as one at the top of a file of Python, is not found by the page of the application. Making it again does not help, as it is taken from the cache.
* `Reactjs.Served.C115_names_violated`: **C115 is violated** by names with `#`, `?`, `%`, `\` or a space at the end of the extension, which are accepted: the browser asks for another file.
* `Reactjs.Served.C115_prefix_violated`: **C115 is violated** by prefixes that are accepted but are not as the browser writes them: with `/a//` and `/./` no module is found.
* `Handlers.Equal.C116_function_violated`: **C116 is violated** for ordinary functions, and for every function given as an attribute of an element: handlers made in the same way of the same function, with the same options, are never equal; so elements with handlers are not either, and setting a state to an equal element renders again.
* `Testing.Catcher.C117_positional_violated`: **C117 is violated** when the argument by which a catcher indexes is given by its position: such a call works without the catcher; with it the component fails with `KeyError`, and nothing is caught.
* `Pyscript.C118_added_violated`: **C118 is violated** by a handler that is added to an element on the page: the page does not listen to its event.
* `Pyscript.C118_initial_violated`: **C118 is violated** by initial content of the same tag: the button shown while the code was loaded becomes the component's button, which no click ever reaches, although it has a handler from the start.
* `Pyscript.C118_row_violated`: **C118 is violated** by rows that move up: when the first row is removed, the page shows the second in its place, but a click on it goes to the handler of the removed row, which is gone, and not to the row's own, which is there.
* `Option.Reentrant.C119_unset_violated`: **C119 is violated** by unsetting in another way: here each subscriber gets the value of the moment, so one registered after a subscriber that reacts to it (here to the default 0) is not told the replaced value, but the new one twice.
* `Option.Reentrant.C119_violated`: **C119 is violated**: a subscriber registered after one that corrects the value is told last the value that was replaced.
* `Hooks.Overlap.C120_nested_violated`: **C120 is violated** by an updater function that calls the setter of the same state: of two increments, one inside the other, one is lost; and an updater function that sets 5 and returns what it was given undoes it.
* `Hooks.Overlap.C120_threads_violated`: **C120 is violated** by two threads that increment the state at the same time: one increment is lost.
* `Markup.C121_onclick_violated`: **C121 is violated** by a link with an `onclick` attribute: the inline JavaScript takes the place of the handler that keeps the browser on the page.
* `Wire.C122_checked_violated`: **C122 is violated** by the check of attributes: it accepts a dict with an integer as key, an integer of 65 bits, and a string with a lone surrogate, none of which can be sent; and it rejects dates, which can.
* `Wire.C122_contained_violated`: **C122 is violated** for all other components once one has attributes that cannot be sent: their updates are never sent, not even the later ones without such attributes.
* `Wire.C122_large_violated`: **C122 is violated** by large integers: 2⁵³ + 1 arrives as 2⁵³, although it can be made and sent.
* `Wire.C122_special_violated`: **C122 is violated** by not-a-number and the infinities, which arrive as `null`.
* `Markup.C123_checked_violated`: **C123 is violated** by `checked`: no attribute of HTML becomes that prop.
* `Markup.C123_handlers_violated`: **C123 is violated** by event handlers of HTML that React names differently or reactpy's list leaves out, like `ondblclick` and `onmouseover`: they are sent as attributes, whatever the element, and not as inline JavaScript, so no event runs them.
* `Startup.Text.C124_class_violated`: **C124 is violated** by a class with quotes, which may add an event handler to the page.
* `Startup.Text.C124_path_violated`: **C124 is violated** by a path with quotes, part of which the browser runs.

## Axioms

All theorems by the axioms they depend on (from Lean's `collectAxioms`).

* **none** (10): `Client.Root.C11_violated`, `Client.Input.C18_violated`, `Hooks.C22_changed_list_violated`, `Option.C35_env_violated`, `Option.C35_no_env`, `Reactjs.Cache.C60_unnamed_partial`, `Hooks.Infer.C91_given`, `Hooks.Infer.C101_ref_violated`, `Testing.C105_after_violated`, `Testing.C105_missed_violated`
* **propext** (110): `Events.C16_order_violated`, `Events.C17_handlers_violated`, `Events.C17_inherited_violated`, `Hooks.C20_fold`, `Hooks.C21_fold_partial`, `Hooks.C22_lists_partial`, `Hooks.C22_raises`, `Hooks.C28_types`, `Handlers.C32_calls`, `Handlers.C32_raising_cancels`, `Handlers.C33_captured_violated`, `Handlers.C33_conditional_violated`, `Handlers.C33_method_violated`, `Handlers.C33_store_load_violated`, `Handlers.C33_violated`, `Option.C34_notified_violated`, `Option.C34_reload_value`, `Option.C34_set_value`, `Option.C34_subscribe`, `Option.C34_unset_value`, `Option.C35_env_invalid`, `Option.C35_env_partial`, `Option.C36_immutable_raises`, `Option.C36_rejected`, `Option.C36_rejected_by_child_violated`, `Option.C36_set_default_set`, `Option.C36_set_default_violated`, `Reactjs.C43_absolute`, `Reactjs.Lock.C45_timeout`, `Reactjs.Copy.C46_fallback_violated`, `Reactjs.Copy.C46_same_string_violated`, `Reactjs.Copy.C46_string_violated`, `Reactjs.Copy.C46_symlink_violated`, `Client.Timing.C47_rerender_violated`, `Client.Timing.C48_rerender_violated`, `Vdom.C52_keys_violated`, `Vdom.C52_setitem`, `Asgi.C58_full_partial`, `Asgi.C58_lifespan_accepted`, `Connection.C72_input`, `Testing.C74_asserted_partial`, `Testing.C74_deleting_violated`, `Testing.C74_nested_violated`, `Testing.C74_restored`, `Testing.C74_restored_inside`, `Testing.C74_swallowed_violated`, `Client.Elem.C76_fallback_violated`, `Client.Elem.C76_foreign`, `Client.Elem.C76_imported_error_violated`, `Client.Elem.C76_imported_texts_partial`, `Client.Elem.C76_inherited_violated`, `Client.Elem.C76_places_partial`, `Client.Elem.C76_prevented_violated`, `Client.Elem.C76_texts_partial`, `Hooks.Stack.C83_background_violated`, `Client.Named.C85_found`, `Client.Named.C85_missing`, `Pyscript.Page.C86_component`, `Pyscript.Page.C86_component_no_files`, `Handlers.C87_builtin_violated`, `Handlers.C87_called`, `Handlers.C87_called_once_partial`, `Handlers.C87_decorated_coroutine_violated`, `Handlers.C87_decorated_partial_violated`, `Handlers.C87_partial_violated`, `Client.Script.C88_attribute_violated`, `Client.Script.C88_code_and_src_violated`, `Client.Script.C88_false_violated`, `Client.Script.C88_inline`, `Hooks.Infer.C91_decorated_violated`, `Hooks.Infer.C91_unassigned_violated`, `Vdom.Warn.C92_debug`, `Vdom.Warn.C92_generator_violated`, `Vdom.Warn.C92_none_violated`, `Component.C95_argument_violated`, `Component.C95_debug_violated`, `Component.C95_hidden`, `Component.C95_name_violated`, `Handlers.EventData.C96_arguments`, `Handlers.EventData.C96_method_violated`, `Console.C100_kinds`, `Hooks.Infer.C101_mutated_violated`, `Testing.C102_earlier_violated`, `Testing.C102_start_violated`, `Testing.C103_early_violated`, `Testing.C103_scheduled`, `Testing.C105_captured_partial`, `Sched.Heap.C106_detached_violated`, `Sched.Heap.C106_key_error_violated`, `Sched.Heap.C107_lost_violated`, `Sched.Heap.C108_back_violated`, `Testing.Display.C111_again_violated`, `Testing.Display.C111_enter_violated`, `Testing.Display.C111_headless_violated`, `Testing.Display.C111_mount`, `Testing.Display.C111_shared_violated`, `Client.Inline.C114_called_violated`, `Client.Inline.C114_element_violated`, `Client.Inline.C114_function`, `Client.Inline.C114_function_name`, `Client.Inline.C114_names_violated`, `Client.Inline.C114_new_violated`, `Client.Inline.C114_return_violated`, `Testing.Catcher.C117_positional_violated`, `Option.Reentrant.C119_unset_violated`, `Option.Reentrant.C119_violated`, `Wire.C122_checked_violated`, `Wire.C122_contained_violated`, `Wire.C122_large_violated`, `Wire.C122_special_violated`
* **Quot.sound** (1): `Hooks.C20_render_reads`
* **Quot.sound propext** (156): `Layout.C01_client_view_violated`, `Layout.C03_mount_unmount_violated`, `Layout.C04_routing_violated`, `Layout.C05_only_displayed_violated`, `Layout.C06_unique_targets_violated`, `Layout.C08_contained_violated`, `Layout.C10_duplicates`, `Layout.C10_explicit_accepted`, `Sched.C12_changed_value`, `Sched.C12_merged`, `Sched.C12_other_thread_violated`, `Sched.C12_same_value`, `Sched.C12_values`, `Sched.Serial.C12_serial_progress`, `Sched.Serial.C12_serial_thread_violated`, `Sched.Serial.C12_serial_values`, `Sched.C13_cancelled_render_violated`, `Sched.C13_later_task_violated`, `Sched.C14_order_violated`, `Queue.C15_order_violated`, `Queue.C15_threads_violated`, `Events.C17_violated`, `Client.Input.C18_applied_partial`, `Client.Input.C18_exact_partial`, `Client.Input.C18_unchanged`, `Hooks.C19_answer`, `Hooks.C19_contents`, `Hooks.C19_made`, `Hooks.C19_not_shared`, `Hooks.C19_stable`, `Hooks.C20_fold_exact`, `Hooks.C20_schedules`, `Hooks.C21_fold_violated`, `Hooks.C23_ref`, `Hooks.C24_recovers_partial`, `Effects.Sync.C25_not_early`, `Effects.Sync.C25_once_partial`, `Effects.Sync.C25_terminates`, `Effects.Sync.C25_violated`, `Hooks.C26_once`, `Effects.Async.C27_at_most_once_partial`, `Effects.Async.C27_not_early`, `Effects.Async.C27_orderly_partial`, `Effects.Async.C27_overlap_violated`, `Effects.Async.C27_violated`, `Effects.Async.C27_waits`, `Vdom.C29_single`, `Handlers.C32_all_return`, `Handlers.C32_called_once`, `Handlers.C32_raises`, `Option.C34_in_sync_partial`, `Option.C34_notified_partial`, `Option.C35_child_value`, `Option.C36_immutable`, `Option.C36_set_default_unset_partial`, `Markup.C39_camel`, `Markup.C39_camel_exact`, `Reactjs.C43_relative_partial`, `Reactjs.C43_root_partial`, `Reactjs.C44_fails_partial`, `Reactjs.C44_names_partial`, `Reactjs.C44_order_partial`, `Reactjs.Lock.C45_crash_violated`, `Reactjs.Lock.C45_directory_violated`, `Reactjs.Lock.C45_exclusive`, `Reactjs.Lock.C45_release_partial`, `Reactjs.Copy.C46_atomic_partial`, `Reactjs.Copy.C46_installed_partial`, `Reactjs.Copy.C46_installs`, `Reactjs.Copy.C46_lock_returned`, `Client.Timing.C47_at_most_once`, `Client.Timing.C47_last_kept_partial`, `Client.Timing.C47_late_violated`, `Client.Timing.C47_rate_and_order_partial`, `Client.Timing.C48_at_most_once`, `Client.Timing.C48_burst_partial`, `Client.Timing.C48_delayed`, `Client.Timing.C48_fires_last_partial`, `Client.Timing.C48_last_kept_partial`, `Client.Timing.C48_late_violated`, `Client.Timing.C48_render_keeps`, `Vdom.C52_keys_partial`, `Pyscript.C62_lines_partial`, `Reactjs.Cache.C64_extension_partial`, `Reactjs.Cache.C64_files_partial`, `Effects.Async.C65_cancelled`, `Effects.Async.C65_not_early`, `Effects.Async.C65_shielded`, `Layout.C68_fuel_irrelevant`, `Connection.C72_after_end`, `Connection.C72_bounded`, `Connection.C72_closed`, `Connection.C72_delivered_partial`, `Connection.C72_faithful`, `Connection.C72_progress_partial`, `Connection.C72_stuck_violated`, `Closing.C73_interrupted_render_violated`, `Testing.C74_listed`, `Client.Elem.C76_imported_props`, `Client.Elem.C76_props`, `Client.Imp.C77_comes_to_rest`, `Client.Imp.C77_left_violated`, `Client.Imp.C77_loaded`, `Client.Imp.C77_newest_partial`, `Client.Imp.C77_no_dead_root`, `Client.Imp.C77_removed_partial`, `Client.Imp.C77_twice_violated`, `Client.Child.C78_orderly_partial`, `Console.Lines.C80_around_partial`, `Console.Lines.C80_closest`, `Console.Lines.C80_one_line_partial`, `Pyscript.Wheel.C82_deleted_violated`, `Hooks.Stack.C83_body`, `Hooks.Stack.C83_context`, `Hooks.Stack.C83_never_broken`, `Hooks.Stack.C83_one_at_a_time`, `Hooks.Stack.C83_outside`, `Hooks.Stack.C83_own_stack`, `Hooks.Stack.C83_same`, `Hooks.Stack.C83_waits`, `Pyscript.Page.C86_component_restarts_violated`, `Handlers.C87_made`, `Client.Script.C88_at_most`, `Client.Script.C88_content_partial`, `Client.Script.C88_page`, `Client.Script.C88_runs`, `Effects.Parallel.C90_awaited`, `Effects.Parallel.C90_early_violated`, `Effects.Parallel.C90_failed_violated`, `Effects.Parallel.C90_kept_violated`, `Effects.Parallel.C90_removed_violated`, `Hooks.Infer.C91_other`, `Vdom.Warn.C92_reported`, `Component.C95_exact_partial`, `Hooks.Infer.C101_off`, `Testing.C102_nested_partial`, `Testing.C102_open`, `Testing.C102_stopped_partial`, `Testing.C102_unnoticed_violated`, `Testing.C103_on_render`, `Testing.C103_rendered_partial`, `Testing.C103_told`, `Testing.C103_updated_partial`, `Sched.Switch.C104_root`, `Sched.Switch.C104_stuck_violated`, `Testing.C105_assigned`, `Testing.C105_level_partial`, `Testing.Display.C111_closes_partial`, `Testing.Display.C111_show`, `Parallel.C112_disordered_violated`, `Parallel.C112_owed_meaning`, `Whole.C113_body`, `Client.Inline.C114_same_partial`, `Option.Reentrant.C119_told_partial`, `Wire.C122_checked_partial`, `Wire.C122_nearest`
* **Classical.choice Quot.sound propext** (456): `Layout.C01_client_view_no_failure_partial`, `Layout.C01_client_view_partial`, `Layout.C01_only_failures_stray`, `Layout.C02_displayed`, `Layout.C02_state_follows_key_and_type`, `Layout.C03_exit_partial`, `Layout.C03_mount_unmount_partial`, `Layout.C04_moved_violated`, `Layout.C04_routing_partial`, `Layout.C05_only_displayed_partial`, `Layout.C05_static_target_violated`, `Layout.C06_unique_targets_partial`, `Layout.C07_nearest_provider`, `Layout.C08_contained_partial`, `Layout.C09_one_render`, `Layout.C10_plain`, `Layout.C10_rejected`, `Client.Root.C11_error_violated`, `Client.Root.C11_js_partial`, `Client.Root.C11_newest`, `Client.Root.C11_pyscript_exact`, `Sched.C12_changes_are_rendered_partial`, `Sched.C12_made_up_partial`, `Sched.C12_no_change_lost_partial`, `Sched.C12_no_deadlock_partial`, `Sched.Serial.C12_serial_no_change_lost_partial`, `Sched.C13_exactly_once`, `Sched.C13_never_blocks_partial`, `Sched.C13_takes_finished_partial`, `Sched.C14_newest_shown_partial`, `Queue.C15_any_threads_partial`, `Queue.C15_exactly_once_partial`, `Queue.C15_fifo_partial`, `Queue.C15_no_stall_partial`, `Events.C16_complete_partial`, `Events.C16_current_handler`, `Events.C16_one_at_a_time`, `Events.C16_order_partial`, `Events.C16_patience`, `Events.C16_registered`, `Events.C16_violated`, `Events.C17_before_partial`, `Events.C17_largest_partial`, `Events.C17_monotone`, `Layout.C17_update_acknowledges`, `Hooks.C22_called_partial`, `Hooks.C22_value_partial`, `Hooks.C22_value_violated`, `Hooks.C23_callback`, `Hooks.C23_callback_same`, `Hooks.C24_recovers_violated`, `Hooks.C26_started`, `Hooks.C28_local`, `Hooks.C28_sound_partial`, `Hooks.C28_sound_violated`, `Vdom.C29_accepts`, `Vdom.C29_children`, `Vdom.C29_flatten`, `Vdom.C29_no_attributes`, `Vdom.C29_tag`, `Vdom.C30_attributes_partial`, `Vdom.C30_attributes_violated`, `Vdom.C30_complete`, `Vdom.C30_event_name`, `Vdom.C30_fragment`, `Vdom.C30_script`, `Vdom.C30_separate`, `Layout.C31_error_tag`, `Layout.C31_import_source`, `Layout.C31_schema_partial`, `Layout.C31_schema_violated`, `Handlers.C32_settings`, `Handlers.C33_adjacent_partial`, `Handlers.C33_default_violated`, `Handlers.C33_first_unresolvable`, `Handlers.C33_flags_not_missed_partial`, `Handlers.C33_flags_partial`, `Handlers.C33_handler_partial`, `Handlers.C33_no_assignment`, `Handlers.C33_no_guess_partial`, `Handlers.C33_reported`, `Markup.C37_fails_iff`, `Markup.C37_html_partial`, `Markup.C37_none_violated`, `Markup.C37_number_violated`, `Markup.C37_string_violated`, `Markup.C37_text_partial`, `Markup.C38_back_partial`, `Markup.C38_iframe_violated`, `Markup.C38_option_violated`, `Markup.C38_order_partial`, `Markup.C38_reads_partial`, `Markup.C38_textarea_violated`, `Markup.C39_custom_violated`, `Markup.C39_names_exact`, `Markup.C39_style_partial`, `Markup.C39_style_parts`, `Markup.C39_vendor_camel_violated`, `Markup.C39_vendor_violated`, `Markup.C40_idempotent`, `Markup.C40_kept_partial`, `Markup.C40_name_idempotent`, `Markup.C40_violated`, `Asgi.C41_csr`, `Asgi.C41_only_registered`, `Asgi.C41_served_iff`, `Asgi.C41_standalone`, `Asgi.C42_middleware`, `Asgi.C42_outside_partial`, `Asgi.C42_prefix_violated`, `Asgi.C42_routing`, `Reactjs.C43_host_violated`, `Reactjs.C43_inner_violated`, `Reactjs.C43_network_violated`, `Reactjs.C43_query_violated`, `Reactjs.C44_order_violated`, `Reactjs.C44_package_violated`, `Client.C49_bounded_partial`, `Client.C49_first_violated`, `Client.C49_geometric_partial`, `Client.C49_one_connection`, `Client.C49_options`, `Client.C49_persistent`, `Client.C49_retried`, `Client.C49_schedule`, `Client.C49_zero_violated`, `Client.C50_flushed`, `Client.C50_in_order`, `Client.C50_only_open`, `Client.Convert.C51_depth_finite`, `Client.Convert.C51_depth_partial`, `Client.Convert.C51_files_violated`, `Client.Convert.C51_infinite_violated`, `Client.Convert.C51_never_raises_partial`, `Client.Convert.C51_plain`, `Client.Convert.C51_selection_raises_violated`, `Client.Convert.C51_selection_violated`, `Client.Convert.C51_terminates_any_heap_partial`, `Client.Convert.C51_terminates_partial`, `Vdom.C52_construct`, `Console.C53_attributes_partial`, `Console.C53_elsewhere_partial`, `Console.C53_keyword_violated`, `Console.C53_name_idempotent`, `Console.C53_name_kept`, `Console.C53_only_names`, `Console.C53_others_violated`, `Console.C53_repeated_violated`, `Console.C53_reported`, `Console.C53_second_run_partial`, `Console.C53_style_violated`, `Console.C53_words`, `Widgets.C54_image`, `Widgets.C54_injective`, `Widgets.C54_round_trip`, `Asgi.C55_document`, `Asgi.C55_head`, `Asgi.C55_length_partial`, `Asgi.C55_length_violated`, `Asgi.C55_not_modified_iff`, `Asgi.C55_override_violated`, `Asgi.C55_precedence_violated`, `Asgi.C55_revalidation_partial`, `Pyscript.C56_logged`, `Pyscript.C56_workspaces`, `Markup.C57_checked_violated`, `Markup.C57_document_violated`, `Markup.C57_documented_partial`, `Markup.C57_each_partial`, `Markup.C57_handlers_violated`, `Markup.C57_multiple_violated`, `Markup.C57_name_partial`, `Markup.C57_violated`, `Asgi.C58_alternatives_violated`, `Asgi.C58_lifespan`, `Asgi.C58_newline_violated`, `Asgi.C58_registered_partial`, `Widgets.C59_calls`, `Widgets.C59_linked`, `Reactjs.Cache.C60_calls_partial`, `Reactjs.Cache.C60_content_violated`, `Reactjs.Cache.C60_fallback_violated`, `Reactjs.Cache.C60_key`, `Pyscript.C61_document`, `Pyscript.C61_double_click_violated`, `Pyscript.C61_ignored_violated`, `Pyscript.C61_run_partial`, `Pyscript.C62_code_partial`, `Pyscript.C62_string_violated`, `Pyscript.C62_text_violated`, `Reactjs.Exports.C63_comma_violated`, `Reactjs.Exports.C63_comment_violated`, `Reactjs.Exports.C63_destructuring_violated`, `Reactjs.Exports.C63_found_partial`, `Reactjs.Exports.C63_kinds_violated`, `Reactjs.Exports.C63_lines_violated`, `Reactjs.Exports.C63_nested_partial`, `Reactjs.Exports.C63_only_partial`, `Reactjs.Exports.C63_tab_violated`, `Reactjs.Cache.C64_escape_violated`, `Client.Convert.C66_complete`, `Client.Convert.C66_names_violated`, `Client.Convert.C66_once`, `Client.Convert.C66_selection`, `Client.Convert.C66_shown`, `Markup.C67_attributes`, `Markup.C67_children`, `Markup.C67_input`, `Markup.C67_key`, `Markup.C67_last_violated`, `Markup.C67_links`, `Markup.C67_select_partial`, `Markup.C67_style`, `Markup.C67_textarea`, `Layout.C68_render_yields_update`, `Layout.C68_unmounted_skipped`, `Startup.C69_accepted_partial`, `Startup.C69_applied_partial`, `Startup.C69_boolean`, `Startup.C69_child_violated`, `Startup.C69_half_violated`, `Startup.C69_keys`, `Startup.C69_known`, `Startup.C69_prefix_partial`, `Startup.C69_refused`, `Startup.C69_separate`, `Startup.C69_spelling_violated`, `Startup.C69_timeout_violated`, `Startup.C70_import_map_partial`, `Startup.C70_middleware_partial`, `Startup.C70_process_partial`, `Startup.C70_query_violated`, `Startup.C70_root_prefix_violated`, `Startup.C70_standalone_partial`, `Startup.C70_two_prefixes_violated`, `Location.C71_fields`, `Location.C71_location`, `Location.C71_sync`, `Closing.C73_cancelled_effect_violated`, `Closing.C73_failed_render_violated`, `Closing.C73_interrupted_unmount_violated`, `Closing.C73_leaving_ends_partial`, `Closing.C73_leaving_partial`, `Closing.C73_render_scheduled_violated`, `Closing.C73_swallowed_cancellation_violated`, `Closing.C73_uninterrupted`, `Closing.C73_waits_only_for_asked_partial`, `Testing.C74_deleting_partial`, `Testing.C74_deleting_sound`, `Testing.C75_ends`, `Testing.C75_until`, `Client.Elem.C76_imported_input_violated`, `Client.Elem.C76_imported_throttle_violated`, `Client.Elem.C76_input_props`, `Client.Elem.C76_interval`, `Client.Elem.C76_script`, `Client.Elem.C76_sent_partial`, `Client.Child.C78_meanwhile_violated`, `Client.Child.C78_moved_violated`, `Client.Child.C78_newest_partial`, `Client.Child.C78_raises_violated`, `Client.Child.C78_shown_partial`, `Console.C79_meaning_partial`, `Console.C79_moved_partial`, `Console.C79_others_violated`, `Console.C79_second_run_partial`, `Console.C79_sorted_violated`, `Console.C79_twice_violated`, `Console.Lines.C80_bytes_violated`, `Console.Lines.C80_comment_violated`, `Console.Lines.C80_each_partial`, `Console.Lines.C80_lines`, `Console.Lines.C80_same_line_violated`, `Console.Lines.C80_tabs_violated`, `Pyscript.Exec.C81_annotation_violated`, `Pyscript.Exec.C81_attribute_partial`, `Pyscript.Exec.C81_config`, `Pyscript.Exec.C81_element_partial`, `Pyscript.Exec.C81_end_tag_violated`, `Pyscript.Exec.C81_mention_violated`, `Pyscript.Exec.C81_packages_violated`, `Pyscript.Exec.C81_program`, `Pyscript.Exec.C81_text_violated`, `Pyscript.Wheel.C82_again_partial`, `Pyscript.Wheel.C82_crash`, `Pyscript.Wheel.C82_dash_violated`, `Pyscript.Wheel.C82_gap_violated`, `Pyscript.Wheel.C82_installed`, `Pyscript.Wheel.C82_record`, `Pyscript.Wheel.C82_source`, `Pyscript.Wheel.C82_tag`, `Pyscript.Wheel.C82_two_servers_violated`, `Client.Dispatch.C84_context_violated`, `Client.Dispatch.C84_delivery_partial`, `Client.Dispatch.C84_in_force_partial`, `Client.Dispatch.C84_late_violated`, `Client.Dispatch.C84_prototype_violated`, `Client.Dispatch.C84_ready_partial`, `Client.Dispatch.C84_throw_violated`, `Client.Dispatch.C84_twice_violated`, `Client.Named.C85_inherited_violated`, `Client.Named.C85_nested_partial`, `Client.Named.C85_plain`, `Client.Named.C85_shadow_violated`, `Pyscript.Page.C86_browser_page_partial`, `Pyscript.Page.C86_end_tag_violated`, `Pyscript.Page.C86_no_files`, `Pyscript.Page.C86_own_setup_partial`, `Pyscript.Page.C86_server_page`, `Pyscript.Page.C86_shared_head_violated`, `Pyscript.Page.C86_stays`, `Handlers.C87_attribute_partial`, `Handlers.C87_options_partial`, `Client.Script.C88_same_code_violated`, `Vdom.Tags.C89_children`, `Vdom.Tags.C89_constructor`, `Vdom.Tags.C89_names`, `Vdom.Tags.C89_same`, `Vdom.Tags.C89_svg_call`, `Vdom.Tags.C89_svg_children_partial`, `Vdom.Tags.C89_svg_content_violated`, `Vdom.Tags.C89_underscore_violated`, `Effects.Parallel.C90_quiet`, `Effects.Parallel.C90_schedule`, `Effects.Parallel.C90_started`, `Effects.Parallel.C90_stopped_partial`, `Hooks.Infer.C91_assigned_later_violated`, `Hooks.Infer.C91_callback_partial`, `Hooks.Infer.C91_callback_same`, `Hooks.Infer.C91_called`, `Hooks.Infer.C91_default_violated`, `Hooks.Infer.C91_effect`, `Hooks.Infer.C91_function_violated`, `Hooks.Infer.C91_local_function_violated`, `Hooks.Infer.C91_memo_partial`, `Vdom.Warn.C92_import_violated`, `Vdom.Warn.C92_located_partial`, `Vdom.Warn.C92_root_violated`, `Reactjs.Npm.C93_distinct`, `Reactjs.Npm.C93_elsewhere`, `Reactjs.Npm.C93_file`, `Reactjs.Npm.C93_local`, `Reactjs.Npm.C93_option_violated`, `Reactjs.Npm.C93_options`, `Reactjs.Npm.C93_preact`, `Reactjs.Npm.C93_provided`, `Reactjs.Npm.C93_react`, `Reactjs.Npm.C93_refused`, `Component.C94_called`, `Component.C94_fits`, `Component.C94_refused`, `Component.C94_reserved`, `Component.C95_described`, `Handlers.EventData.C96_assigned`, `Handlers.EventData.C96_attributes_partial`, `Handlers.EventData.C96_items`, `Handlers.EventData.C96_list_violated`, `Session.C97_keys_partial`, `Session.C97_moved_violated`, `Session.C97_not_earlier`, `Session.C97_once`, `Session.C97_reopened_violated`, `Session.C97_same_session_partial`, `Session.C97_session_partial`, `Session.C97_session_violated`, `Session.C97_shown`, `Whole.C98_content_partial`, `Whole.C98_error_violated`, `Whole.C98_page_partial`, `Whole.C98_parallel_partial`, `Markup.C99_calls`, `Markup.C99_maps`, `Markup.C99_raises`, `Markup.C99_without`, `Console.C100_directory_violated`, `Console.C100_done_partial`, `Console.C100_emptied_violated`, `Console.C100_encoding_violated`, `Console.C100_failed_partial`, `Console.C100_line_ends_read`, `Console.C100_line_ends_violated`, `Console.C100_others`, `Console.C100_second_run_partial`, `Hooks.Infer.C101_functions_partial`, `Hooks.Infer.C101_values_partial`, `Testing.C103_same_code_violated`, `Sched.Switch.C104_back`, `Sched.Switch.C104_kept`, `Sched.Switch.C104_unchanged_partial`, `Sched.Heap.C106_calm_partial`, `Sched.Heap.C107_kept_partial`, `Sched.Heap.C108_gone_partial`, `Sched.Heap.C109_exclusive`, `Sched.Heap.C109_no_deadlock`, `Location.C110_connection`, `Location.C110_location`, `Location.C110_none`, `Testing.Display.C111_given`, `Parallel.C112_current`, `Parallel.C112_lost_violated`, `Parallel.C112_owed_partial`, `Parallel.C112_routing_partial`, `Parallel.C112_serial_partial`, `Parallel.C112_view_partial`, `Whole.C113_disordered_violated`, `Whole.C113_error_violated`, `Whole.C113_event_partial`, `Whole.C113_serial_event_partial`, `Whole.C113_serial_partial`, `Whole.C113_serial_settles`, `Whole.C113_settles`, `Whole.C113_stray_violated`, `Whole.C113_view_partial`, `Reactjs.Served.C115_directory_violated`, `Reactjs.Served.C115_inside`, `Reactjs.Served.C115_names_violated`, `Reactjs.Served.C115_prefix_violated`, `Reactjs.Served.C115_served_partial`, `Handlers.Equal.C116_equal`, `Handlers.Equal.C116_exact`, `Handlers.Equal.C116_function_violated`, `Handlers.Equal.C116_handlers`, `Testing.Catcher.C117_called`, `Testing.Catcher.C117_index`, `Testing.Catcher.C117_latest`, `Pyscript.C118_added_violated`, `Pyscript.C118_event`, `Pyscript.C118_initial_violated`, `Pyscript.C118_listeners_partial`, `Pyscript.C118_looks_partial`, `Pyscript.C118_row_violated`, `Pyscript.C118_update`, `Hooks.Overlap.C120_asked`, `Hooks.Overlap.C120_nested_violated`, `Hooks.Overlap.C120_partial`, `Hooks.Overlap.C120_threads_violated`, `Hooks.Overlap.C120_values`, `Markup.C121_clicks`, `Markup.C121_onclick_violated`, `Markup.C121_stays_partial`, `Wire.C122_integers_partial`, `Wire.C122_order`, `Wire.C122_partial`, `Markup.C123_checked_violated`, `Markup.C123_documented_partial`, `Markup.C123_handlers`, `Markup.C123_handlers_violated`, `Markup.C123_only`, `Startup.Text.C124_arguments`, `Startup.Text.C124_class_exact`, `Startup.Text.C124_class_violated`, `Startup.Text.C124_error`, `Startup.Text.C124_import_map`, `Startup.Text.C124_page_map_partial`, `Startup.Text.C124_page_partial`, `Startup.Text.C124_path_violated`
