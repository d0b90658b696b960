{
 "claims": [
  {
   "property": "C01",
   "status": "partial",
   "theorems": [
    "Verif.Layout.C01_only_failures_stray",
    "Verif.Layout.C01_client_view_partial",
    "Verif.Layout.C01_client_view_no_failure_partial",
    "Verif.Layout.C01_client_view_violated"
   ],
   "note": "Partial: holds unless render() is performed for an instance that is registered but no longer displayed, which exists only after a component failed; the violated theorem shows such a history."
  },
  {
   "property": "C02",
   "status": "proved",
   "theorems": [
    "Verif.Layout.C02_displayed",
    "Verif.Layout.C02_state_follows_key_and_type"
   ],
   "note": "For every history of renders, events and user actions, every step compares the server's instance tree with the next one key by key: same key and type at the same place keeps the instance, anything else gets an instance never mounted before. C02_displayed ties that tree to what the client shows. Renders are atomic steps (interleaving of concurrent renders inside one render is not modelled)."
  },
  {
   "property": "C03",
   "status": "partial",
   "theorems": [
    "Verif.Layout.C03_mount_unmount_partial",
    "Verif.Layout.C03_exit_partial",
    "Verif.Layout.C03_mount_unmount_violated"
   ],
   "note": "Full accounting (mounted = unmounted + displayed + left behind by failures). Violated when a component fails: its old descendants are never unmounted."
  },
  {
   "property": "C04",
   "status": "partial",
   "theorems": [
    "Verif.Layout.C04_routing_partial",
    "Verif.Layout.C04_routing_violated",
    "Verif.Layout.C04_moved_violated"
   ],
   "note": "Partial: keys that are recognisable in a path, no user-chosen targets, no stray render. Violated for sibling keys 0 and \"0\". Also violated for a handler with a target of its own that moves to an element rendered earlier: the old element deletes the target."
  },
  {
   "property": "C05",
   "status": "partial",
   "theorems": [
    "Verif.Layout.C05_only_displayed_partial",
    "Verif.Layout.C05_only_displayed_violated",
    "Verif.Layout.C05_static_target_violated"
   ],
   "note": "Partial: plain applications without failures. Violated after a failure and for explicit targets that change."
  },
  {
   "property": "C06",
   "status": "partial",
   "theorems": [
    "Verif.Layout.C06_unique_targets_partial",
    "Verif.Layout.C06_unique_targets_violated"
   ],
   "note": "Partial: plain applications. Violated for sibling keys 0 and \"0\"."
  },
  {
   "property": "C07",
   "status": "proved",
   "theorems": [
    "Verif.Layout.C07_nearest_provider"
   ],
   "note": "All applications and histories of the serial renderer."
  },
  {
   "property": "C08",
   "status": "partial",
   "theorems": [
    "Verif.Layout.C08_contained_partial",
    "Verif.Layout.C08_contained_violated"
   ],
   "note": "Partial: plain applications, no stray render. Violated: rendering a component left behind by a failed parent raises out of render()."
  },
  {
   "property": "C09",
   "status": "proved",
   "theorems": [
    "Verif.Layout.C09_one_render"
   ],
   "note": "All applications, every update for a displayed instance."
  },
  {
   "property": "C10",
   "status": "proved",
   "theorems": [
    "Verif.Layout.C10_duplicates",
    "Verif.Layout.C10_explicit_accepted",
    "Verif.Layout.C10_rejected",
    "Verif.Layout.C10_plain"
   ],
   "note": "Rejection is the ValueError of the renderer. The KeyError named in C10_rejected is no rejection of children: it comes from event targets that collide (C06), which plain applications do not have (C10_plain)."
  },
  {
   "property": "C11",
   "status": "partial",
   "theorems": [
    "Verif.Client.Root.C11_pyscript_exact",
    "Verif.Client.Root.C11_js_partial",
    "Verif.Client.Root.C11_newest",
    "Verif.Client.Root.C11_error_violated",
    "Verif.Client.Root.C11_violated"
   ],
   "note": "PyScript client: exact. JavaScript client: exact iff no old key is missing from the new model; violated otherwise, and a root error is shown for ever."
  },
  {
   "property": "C12",
   "status": "partial",
   "theorems": [
    "Verif.Sched.C12_no_change_lost_partial",
    "Verif.Sched.C12_made_up_partial",
    "Verif.Sched.C12_no_deadlock_partial",
    "Verif.Sched.C12_changes_are_rendered_partial",
    "Verif.Sched.C12_merged",
    "Verif.Sched.C12_same_value",
    "Verif.Sched.C12_changed_value",
    "Verif.Sched.C12_values",
    "Verif.Sched.C12_other_thread_violated",
    "Verif.Sched.Serial.C12_serial_no_change_lost_partial",
    "Verif.Sched.Serial.C12_serial_values",
    "Verif.Sched.Serial.C12_serial_progress",
    "Verif.Sched.Serial.C12_serial_thread_violated"
   ],
   "note": "Model of asynchronous scheduling (hook flag, render tasks, per-component semaphore, cancellation, unmounting, failing bodies and what they leave behind, tasks that end with an exception, arbitrary interleaving) and of serial scheduling. Proved in every execution: render tasks cannot deadlock, bounded number of steps, changes merged, equal values ignored; for components none of whose setters is called in another thread, no change is lost while the component is in the tree; what a setter in another thread missed is made up for by the next change in the loop's thread. Violated by setters called in other threads, in both modes (witnesses). Missing: unmounting that fails, closing of the layout. In this model a component that is returned again is the same one; C106-C108 show when that is so."
  },
  {
   "property": "C13",
   "status": "partial",
   "theorems": [
    "Verif.Sched.C13_exactly_once",
    "Verif.Sched.C13_never_blocks_partial",
    "Verif.Sched.C13_takes_finished_partial",
    "Verif.Sched.C13_later_task_violated",
    "Verif.Sched.C13_cancelled_render_violated"
   ],
   "note": "Exactly-once consumption proved for every execution, failing bodies and tasks that end with an exception included: each task is delivered, skipped because it was cancelled, or its exception is raised by render(), once. Non-blocking proved for executions without cancelled render() calls and for tasks that existed when render() began to wait; both restrictions are necessary (witnesses)."
  },
  {
   "property": "C14",
   "status": "partial",
   "theorems": [
    "Verif.Sched.C14_newest_shown_partial",
    "Verif.Sched.C14_order_violated"
   ],
   "note": "False of the code (witness: updates of overlapping tasks delivered in the wrong order). Proved for executions, failing bodies included, in which tasks of comparable components do not overlap. In this model a component that is returned again is the same one; C106-C108 show when that is so."
  },
  {
   "property": "C15",
   "status": "partial",
   "theorems": [
    "Verif.Queue.C15_exactly_once_partial",
    "Verif.Queue.C15_fifo_partial",
    "Verif.Queue.C15_no_stall_partial",
    "Verif.Queue.C15_any_threads_partial",
    "Verif.Queue.C15_order_violated",
    "Verif.Queue.C15_threads_violated"
   ],
   "note": "Serial render queue. Proved for every queue size and interleaving of uninterrupted puts: observations are those of a duplicate-free bag of pending values, no value is lost and get never raises; FIFO when values fit; no stall. For arbitrary threads: no value is lost and none is obtained more often than it was put. Refuted by witness: overtaking under backpressure; two threads inside put of one value make get raise KeyError."
  },
  {
   "property": "C16",
   "status": "partial",
   "theorems": [
    "Verif.Events.C16_one_at_a_time",
    "Verif.Events.C16_order_partial",
    "Verif.Events.C16_registered",
    "Verif.Events.C16_complete_partial",
    "Verif.Events.C16_current_handler",
    "Verif.Events.C16_patience",
    "Verif.Events.C16_violated",
    "Verif.Events.C16_order_violated"
   ],
   "note": "Per-target one-at-a-time, at most once, nothing ignored while registered, and completeness at quiescence are proved for every queue size and schedule; order is proved without backpressure. Refuted: a handler ending with CancelledError kills the target's processing for good; a full queue lets a later message overtake."
  },
  {
   "property": "C17",
   "status": "partial",
   "theorems": [
    "Verif.Events.C17_largest_partial",
    "Verif.Events.C17_monotone",
    "Verif.Events.C17_before_partial",
    "Verif.Events.C17_violated",
    "Verif.Events.C17_handlers_violated",
    "Verif.Events.C17_inherited_violated",
    "Verif.Layout.C17_update_acknowledges"
   ],
   "note": "Largest number of the begun messages and monotonicity proved in full; 'all earlier events are processed' proved for one handler, increasing numbers, no backpressure. Refuted: the acknowledged event itself may be unhandled; two handlers of one element; an element replacing another inherits its number. The numbers in the emitted updates are proved to be exactly those in the layout model (C17_update_acknowledges)."
  },
  {
   "property": "C18",
   "status": "partial",
   "theorems": [
    "Verif.Client.Input.C18_applied_partial",
    "Verif.Client.Input.C18_exact_partial",
    "Verif.Client.Input.C18_unchanged",
    "Verif.Client.Input.C18_violated"
   ],
   "note": "All histories of edits, events, delayed sends and server models: a value is applied exactly when at most one event is unacknowledged. Violated for exactly one outstanding event (numbers on the wire start at 1, the comparison at 0)."
  },
  {
   "property": "C19",
   "status": "proved",
   "theorems": [
    "Verif.Hooks.C19_stable",
    "Verif.Hooks.C19_not_shared",
    "Verif.Hooks.C19_made",
    "Verif.Hooks.C19_contents",
    "Verif.Hooks.C19_answer"
   ],
   "note": "Verif.Hooks: heap-of-objects model of LifeCycleHook.use_state over arbitrary interleavings of instances, renders, failing initialisers and writes."
  },
  {
   "property": "C20",
   "status": "proved",
   "theorems": [
    "Verif.Hooks.C20_fold",
    "Verif.Hooks.C20_fold_exact",
    "Verif.Hooks.C20_render_reads",
    "Verif.Hooks.C20_schedules"
   ],
   "note": "Exact for Python equality; up to the library's equality when that is an equivalence and functional updates respect it. Raising functional updates leave the state unchanged."
  },
  {
   "property": "C21",
   "status": "partial",
   "theorems": [
    "Verif.Hooks.C21_fold_partial",
    "Verif.Hooks.C21_fold_violated"
   ],
   "note": "Holds when all renders pass the same reducer; a reducer passed by a later render is ignored (violation proved)."
  },
  {
   "property": "C22",
   "status": "partial",
   "theorems": [
    "Verif.Hooks.C22_lists_partial",
    "Verif.Hooks.C22_changed_list_violated",
    "Verif.Hooks.C22_value_partial",
    "Verif.Hooks.C22_called_partial",
    "Verif.Hooks.C22_raises",
    "Verif.Hooks.C22_value_violated"
   ],
   "note": "Proved when no memoised function raises and no list of dependencies is changed after it was given; violated when a function raises on changed dependencies (the dependencies are recorded before the call), and when the component changes the list in place, since the hook keeps the list itself (C22_changed_list_violated). None is recorded as the empty sequence, so None followed by () counts as unchanged."
  },
  {
   "property": "C23",
   "status": "proved",
   "theorems": [
    "Verif.Hooks.C23_callback",
    "Verif.Hooks.C23_callback_same",
    "Verif.Hooks.C23_ref"
   ],
   "note": "use_callback as use_memo of a non-raising function; use_ref as a hook cell."
  },
  {
   "property": "C24",
   "status": "partial",
   "theorems": [
    "Verif.Hooks.C24_recovers_partial",
    "Verif.Hooks.C24_recovers_violated"
   ],
   "note": "Proved for first renders that complete their hook calls; violated otherwise: every later render raises IndexError at the first hook the failed render did not reach."
  },
  {
   "property": "C25",
   "status": "partial",
   "theorems": [
    "Verif.Effects.Sync.C25_once_partial",
    "Verif.Effects.Sync.C25_terminates",
    "Verif.Effects.Sync.C25_not_early",
    "Verif.Effects.Sync.C25_violated"
   ],
   "note": "use_effect: for every schedule and non-raising clean-ups each function/clean-up runs at most once and in order, one active generation, and after unmount all clean-ups were called; termination after unmount for arbitrary functions. C25_violated: a clean-up that raises is called again and blocks the next generation."
  },
  {
   "property": "C26",
   "status": "proved",
   "theorems": [
    "Verif.Hooks.C26_started",
    "Verif.Hooks.C26_once"
   ],
   "note": "Scheduling decision of use_effect; the effect tasks themselves are C25/C27."
  },
  {
   "property": "C27",
   "status": "partial",
   "theorems": [
    "Verif.Effects.Async.C27_at_most_once_partial",
    "Verif.Effects.Async.C27_orderly_partial",
    "Verif.Effects.Async.C27_violated",
    "Verif.Effects.Async.C27_overlap_violated",
    "Verif.Effects.Async.C27_not_early",
    "Verif.Effects.Async.C27_waits"
   ],
   "note": "use_async_effect: at-most-once for every interleaving; full property for schedules where an effect task only begins when no earlier generation is in flight. Violated otherwise (shielded or not): a clean-up is lost, and two coroutines can overlap."
  },
  {
   "property": "C28",
   "status": "partial",
   "theorems": [
    "Verif.Hooks.C28_types",
    "Verif.Hooks.C28_sound_partial",
    "Verif.Hooks.C28_local",
    "Verif.Hooks.C28_sound_violated"
   ],
   "note": "Proved for values that are not functions defined inside functions; violated for closures of one local function over different values."
  },
  {
   "property": "C29",
   "status": "proved",
   "theorems": [
    "Verif.Vdom.C29_flatten",
    "Verif.Vdom.C29_children",
    "Verif.Vdom.C29_no_attributes",
    "Verif.Vdom.C29_accepts",
    "Verif.Vdom.C29_tag",
    "Verif.Vdom.C29_single"
   ],
   "note": "Verif.Vdom: flattening of element constructor arguments, any nesting."
  },
  {
   "property": "C30",
   "status": "partial",
   "theorems": [
    "Verif.Vdom.C30_event_name",
    "Verif.Vdom.C30_separate",
    "Verif.Vdom.C30_attributes_partial",
    "Verif.Vdom.C30_complete",
    "Verif.Vdom.C30_attributes_violated",
    "Verif.Vdom.C30_fragment",
    "Verif.Vdom.C30_script"
   ],
   "note": "separate_attributes... sorts every attribute into exactly one place for all dicts; all element constructors except html.fragment and html.script keep them (those two silently drop inline JavaScript: violation proved)."
  },
  {
   "property": "C31",
   "status": "partial",
   "theorems": [
    "Verif.Layout.C31_schema_partial",
    "Verif.Layout.C31_error_tag",
    "Verif.Layout.C31_import_source",
    "Verif.Layout.C31_schema_violated"
   ],
   "note": "The schema is transcribed as data with the meaning of its keywords; the model of every update of every history satisfies it, provided debounce/throttle are not negative and import sources conform (neither is checked by the code: C31_schema_violated). Tag names are strings and attributes and inlineJavaScript are objects by the types of the model."
  },
  {
   "property": "C32",
   "status": "proved",
   "theorems": [
    "Verif.Handlers.C32_raises",
    "Verif.Handlers.C32_settings",
    "Verif.Handlers.C32_calls",
    "Verif.Handlers.C32_called_once",
    "Verif.Handlers.C32_all_return",
    "Verif.Handlers.C32_raising_cancels"
   ],
   "note": "Refusal, settings and calls proved for all lists of handlers (nested merges included); exactly-once at run time proved for every schedule of the task group. C32_raising_cancels records that a raising function cancels its siblings (a caveat, not part of the claim)."
  },
  {
   "property": "C33",
   "status": "partial",
   "theorems": [
    "Verif.Handlers.C33_adjacent_partial",
    "Verif.Handlers.C33_flags_partial",
    "Verif.Handlers.C33_flags_not_missed_partial",
    "Verif.Handlers.C33_first_unresolvable",
    "Verif.Handlers.C33_no_assignment",
    "Verif.Handlers.C33_no_guess_partial",
    "Verif.Handlers.C33_reported",
    "Verif.Handlers.C33_handler_partial",
    "Verif.Handlers.C33_violated",
    "Verif.Handlers.C33_conditional_violated",
    "Verif.Handlers.C33_default_violated",
    "Verif.Handlers.C33_method_violated",
    "Verif.Handlers.C33_captured_violated",
    "Verif.Handlers.C33_store_load_violated"
   ],
   "note": "Exact instruction-level characterisation of the flags; source-level exactness via a compiler for a small source language, with any adjacent loads fused; resolvable first assignments are reported and reach the handler; the reported debounce equals every assigned value under stated conditions. Refuted by witness: later unresolvable assignment ignored; 'x or 200' reports 200; reassigned default; bound methods; captured event; STORE_FAST_LOAD_FAST."
  },
  {
   "property": "C34",
   "status": "partial",
   "theorems": [
    "Verif.Option.C34_notified_partial",
    "Verif.Option.C34_in_sync_partial",
    "Verif.Option.C34_notified_violated",
    "Verif.Option.C34_set_value",
    "Verif.Option.C34_unset_value",
    "Verif.Option.C34_reload_value",
    "Verif.Option.C34_subscribe"
   ],
   "note": "Proved for histories in which no subscriber (callback or child validator) raises; violated otherwise: subscribers registered after a raising one are not told."
  },
  {
   "property": "C35",
   "status": "partial",
   "theorems": [
    "Verif.Option.C35_env_partial",
    "Verif.Option.C35_env_invalid",
    "Verif.Option.C35_no_env",
    "Verif.Option.C35_child_value",
    "Verif.Option.C35_env_violated"
   ],
   "note": "Proved for options without a parent; violated for options with a parent, whose value is replaced by the parent's."
  },
  {
   "property": "C36",
   "status": "partial",
   "theorems": [
    "Verif.Option.C36_immutable",
    "Verif.Option.C36_immutable_raises",
    "Verif.Option.C36_rejected",
    "Verif.Option.C36_set_default_set",
    "Verif.Option.C36_set_default_unset_partial",
    "Verif.Option.C36_set_default_violated",
    "Verif.Option.C36_rejected_by_child_violated"
   ],
   "note": "Immutability and rejection by the option's own validator are full theorems. Violated: set_default(default) on an unset option raises; a value rejected by a child is nevertheless stored in the parent."
  },
  {
   "property": "C37",
   "status": "partial",
   "theorems": [
    "Verif.Markup.C37_html_partial",
    "Verif.Markup.C37_text_partial",
    "Verif.Markup.C37_fails_iff",
    "Verif.Markup.C37_none_violated",
    "Verif.Markup.C37_number_violated",
    "Verif.Markup.C37_string_violated"
   ],
   "note": "Proved: the string equals the HTML written directly from the tree, and its text equals the displayed text, outside the violated cases; failure exactly for callables or malformed dicts. Violated: None children print 'None', components rendering numbers give an empty div, components rendering strings get wrapped in a div."
  },
  {
   "property": "C38",
   "status": "partial",
   "theorems": [
    "Verif.Markup.C38_order_partial",
    "Verif.Markup.C38_back_partial",
    "Verif.Markup.C38_reads_partial",
    "Verif.Markup.C38_textarea_violated",
    "Verif.Markup.C38_option_violated",
    "Verif.Markup.C38_iframe_violated"
   ],
   "note": "Proved for all trees without textarea: document order and round trip of structure; reading succeeds on every readable tree. Violated: textarea text lost on the way back, empty option raises KeyError, iframe with content raises."
  },
  {
   "property": "C39",
   "status": "partial",
   "theorems": [
    "Verif.Markup.C39_names_exact",
    "Verif.Markup.C39_camel",
    "Verif.Markup.C39_style_partial",
    "Verif.Markup.C39_style_parts",
    "Verif.Markup.C39_vendor_violated",
    "Verif.Markup.C39_custom_violated",
    "Verif.Markup.C39_camel_exact",
    "Verif.Markup.C39_vendor_camel_violated"
   ],
   "note": "Exact characterisations of the names that survive in both directions, and whole style strings. Violated: vendor prefixes and custom properties."
  },
  {
   "property": "C40",
   "status": "partial",
   "theorems": [
    "Verif.Markup.C40_name_idempotent",
    "Verif.Markup.C40_idempotent",
    "Verif.Markup.C40_kept_partial",
    "Verif.Markup.C40_violated"
   ],
   "note": "Idempotent for all dicts; injective and lossless for lower-case names outside four aliases. Violated: class and classname collide."
  },
  {
   "property": "C41",
   "status": "proved",
   "theorems": [
    "Verif.Asgi.C41_only_registered",
    "Verif.Asgi.C41_served_iff",
    "Verif.Asgi.C41_standalone",
    "Verif.Asgi.C41_csr"
   ],
   "note": "Proved for every prefix (the exact iff for prefixes without the pattern character '.'), for the standalone and the client-side app."
  },
  {
   "property": "C42",
   "status": "partial",
   "theorems": [
    "Verif.Asgi.C42_routing",
    "Verif.Asgi.C42_outside_partial",
    "Verif.Asgi.C42_middleware",
    "Verif.Asgi.C42_prefix_violated"
   ],
   "note": "Priority proved for all servers and requests; 'outside the prefix reaches the user' is partial because a dot in the prefix is a regular-expression wildcard (witness theorem)."
  },
  {
   "property": "C43",
   "status": "partial",
   "theorems": [
    "Verif.Reactjs.C43_relative_partial",
    "Verif.Reactjs.C43_root_partial",
    "Verif.Reactjs.C43_absolute",
    "Verif.Reactjs.C43_host_violated",
    "Verif.Reactjs.C43_query_violated",
    "Verif.Reactjs.C43_network_violated",
    "Verif.Reactjs.C43_inner_violated"
   ],
   "note": "Partial: './' and '../' references within the path and '/' references. Violated: too many '../' or a base without a path replace the host; a slash in the query; '//host' references; inner './' and '../'."
  },
  {
   "property": "C44",
   "status": "partial",
   "theorems": [
    "Verif.Reactjs.C44_names_partial",
    "Verif.Reactjs.C44_fails_partial",
    "Verif.Reactjs.C44_order_partial",
    "Verif.Reactjs.C44_order_violated",
    "Verif.Reactjs.C44_package_violated"
   ],
   "note": "Partial: modules at URLs with one reference or with absolute references; then termination, exactness, failure and order independence for all graphs. Violated: relative references of one URL are resolved against each other in set order; package references raise."
  },
  {
   "property": "C45",
   "status": "partial",
   "theorems": [
    "Verif.Reactjs.Lock.C45_exclusive",
    "Verif.Reactjs.Lock.C45_timeout",
    "Verif.Reactjs.Lock.C45_release_partial",
    "Verif.Reactjs.Lock.C45_crash_violated",
    "Verif.Reactjs.Lock.C45_directory_violated"
   ],
   "note": "Mutual exclusion in full, with crashes at any point; a waiting process fails exactly if its time is over and the lock is not free; progress only without crashes. Violated: a killed process blocks the lock for ever; the lock cannot be taken before its directory exists."
  },
  {
   "property": "C46",
   "status": "partial",
   "theorems": [
    "Verif.Reactjs.Copy.C46_atomic_partial",
    "Verif.Reactjs.Copy.C46_installed_partial",
    "Verif.Reactjs.Copy.C46_symlink_violated",
    "Verif.Reactjs.Copy.C46_string_violated",
    "Verif.Reactjs.Copy.C46_same_string_violated",
    "Verif.Reactjs.Copy.C46_fallback_violated",
    "Verif.Reactjs.Copy.C46_lock_returned",
    "Verif.Reactjs.Copy.C46_installs"
   ],
   "note": "Partial: atomic replacement for copied files on systems that can replace open files, any interleaving and crash. Also, for every kind: a process alone that meets no error installs its contents and frees the lock; once all processes are through and none was killed the lock is free. Violated for symlinks, modules made from strings and the Windows fallback."
  },
  {
   "property": "C47",
   "status": "partial",
   "theorems": [
    "Verif.Client.Timing.C47_rate_and_order_partial",
    "Verif.Client.Timing.C47_last_kept_partial",
    "Verif.Client.Timing.C47_late_violated",
    "Verif.Client.Timing.C47_rerender_violated",
    "Verif.Client.Timing.C47_at_most_once"
   ],
   "note": "Per wrapper with on-time timers: spacing and order. The last event is never lost, at any latency; across renders no event is delivered twice. Violated by a late timer (leading call does not cancel it) and by re-rendering (wrapper state is lost)."
  },
  {
   "property": "C48",
   "status": "partial",
   "theorems": [
    "Verif.Client.Timing.C48_fires_last_partial",
    "Verif.Client.Timing.C48_last_kept_partial",
    "Verif.Client.Timing.C48_burst_partial",
    "Verif.Client.Timing.C48_rerender_violated",
    "Verif.Client.Timing.C48_late_violated",
    "Verif.Client.Timing.C48_at_most_once",
    "Verif.Client.Timing.C48_delayed",
    "Verif.Client.Timing.C48_render_keeps"
   ],
   "note": "Per wrapper: each call follows the last event by at least the delay and the last event is never lost, at any timer latency; with on-time timers every quiet period produces a call. Across renders: never early, no event twice, a render loses nothing. Violated across re-renders (more than the last event of a burst is delivered) and, for quiet periods, by late timers."
  },
  {
   "property": "C49",
   "status": "partial",
   "theorems": [
    "Verif.Client.C49_schedule",
    "Verif.Client.C49_geometric_partial",
    "Verif.Client.C49_bounded_partial",
    "Verif.Client.C49_one_connection",
    "Verif.Client.C49_persistent",
    "Verif.Client.C49_retried",
    "Verif.Client.C49_options",
    "Verif.Client.C49_first_violated",
    "Verif.Client.C49_zero_violated"
   ],
   "note": "Schedule, geometric growth and bound under interval <= maxInterval and interval nonzero; violated otherwise (first delay is not capped; an interval of 0 becomes 150). A connection that never opened is not retried."
  },
  {
   "property": "C50",
   "status": "proved",
   "theorems": [
    "Verif.Client.C50_in_order",
    "Verif.Client.C50_flushed",
    "Verif.Client.C50_only_open"
   ],
   "note": "All client histories: messages leave in order, once, only on an open socket, and those queued are flushed when a socket opens."
  },
  {
   "property": "C51",
   "status": "partial",
   "theorems": [
    "Verif.Client.Convert.C51_terminates_partial",
    "Verif.Client.Convert.C51_terminates_any_heap_partial",
    "Verif.Client.Convert.C51_never_raises_partial",
    "Verif.Client.Convert.C51_plain",
    "Verif.Client.Convert.C51_depth_partial",
    "Verif.Client.Convert.C51_depth_finite",
    "Verif.Client.Convert.C51_files_violated",
    "Verif.Client.Convert.C51_infinite_violated",
    "Verif.Client.Convert.C51_selection_violated",
    "Verif.Client.Convert.C51_selection_raises_violated"
   ],
   "note": "Finite heaps: terminates, result plain, no exception (events without selection), depth <= number of objects; without objects under 'files': terminates on any heap and depth <= max(1, maxDepth). Violated: a 'files' chain exceeds the limit (and never ends on an infinite heap); a selection adds a level, may leave the internal marker, and may raise."
  },
  {
   "property": "C52",
   "status": "partial",
   "theorems": [
    "Verif.Vdom.C52_keys_partial",
    "Verif.Vdom.C52_construct",
    "Verif.Vdom.C52_setitem",
    "Verif.Vdom.C52_keys_violated"
   ],
   "note": "Proved for item assignment and construction; violated through the inherited update, setdefault and |=."
  },
  {
   "property": "C53",
   "status": "partial",
   "theorems": [
    "Verif.Console.C53_name_idempotent",
    "Verif.Console.C53_name_kept",
    "Verif.Console.C53_words",
    "Verif.Console.C53_only_names",
    "Verif.Console.C53_attributes_partial",
    "Verif.Console.C53_elsewhere_partial",
    "Verif.Console.C53_reported",
    "Verif.Console.C53_second_run_partial",
    "Verif.Console.C53_style_violated",
    "Verif.Console.C53_keyword_violated",
    "Verif.Console.C53_repeated_violated",
    "Verif.Console.C53_others_violated"
   ],
   "note": "Renaming is idempotent, keeps clean names, maps snake case to camel case; the rewriting changes only names, converts every attribute and CSS name of every element (C53_attributes_partial: programs without another name that becomes style), leaves everything else (C53_elsewhere_partial), and reports correctly. Second run finds nothing except when another name becomes style. Violated: style_, reserved words, repeated arguments, calls that are no element."
  },
  {
   "property": "C54",
   "status": "proved",
   "theorems": [
    "Verif.Widgets.C54_round_trip",
    "Verif.Widgets.C54_image",
    "Verif.Widgets.C54_injective"
   ],
   "note": "Round trip, format and other attributes for every byte list; when the attributes have no src of their own (the statement's exception)."
  },
  {
   "property": "C55",
   "status": "partial",
   "theorems": [
    "Verif.Asgi.C55_head",
    "Verif.Asgi.C55_not_modified_iff",
    "Verif.Asgi.C55_revalidation_partial",
    "Verif.Asgi.C55_document",
    "Verif.Asgi.C55_length_partial",
    "Verif.Asgi.C55_length_violated",
    "Verif.Asgi.C55_precedence_violated",
    "Verif.Asgi.C55_override_violated"
   ],
   "note": "HEAD and 304 behaviour proved for all requests; length only for ASCII documents (the code counts characters); violations: non-ASCII length, validator precedence, overridden etag."
  },
  {
   "property": "C56",
   "status": "proved",
   "theorems": [
    "Verif.Pyscript.C56_workspaces",
    "Verif.Pyscript.C56_logged"
   ],
   "note": "For every set of globals, document and deletion order; uuids without underscores, as the server makes them."
  },
  {
   "property": "C57",
   "status": "partial",
   "theorems": [
    "Verif.Markup.C57_multiple_violated",
    "Verif.Markup.C57_handlers_violated",
    "Verif.Markup.C57_documented_partial",
    "Verif.Markup.C57_checked_violated",
    "Verif.Markup.C57_name_partial",
    "Verif.Markup.C57_each_partial",
    "Verif.Markup.C57_violated",
    "Verif.Markup.C57_document_violated"
   ],
   "note": "Proved for all lower-case names but class, for, checked, httpequiv (C57_each_partial: attribute by attribute, with the value), and from the component's side for all documented names but checked. Violated: class comes back as classname, event handlers are not written, multiple gets another text, checked becomes the initial state."
  },
  {
   "property": "C58",
   "status": "partial",
   "theorems": [
    "Verif.Asgi.C58_full_partial",
    "Verif.Asgi.C58_registered_partial",
    "Verif.Asgi.C58_alternatives_violated",
    "Verif.Asgi.C58_newline_violated",
    "Verif.Asgi.C58_lifespan",
    "Verif.Asgi.C58_lifespan_accepted"
   ],
   "note": "Proved for routes of ordinary characters over every registration history; violated for patterns with alternatives (anchors bind to the outer alternatives only) and for a trailing newline. Regular expressions other than literals and '.' and '|' are not modelled."
  },
  {
   "property": "C59",
   "status": "proved",
   "theorems": [
    "Verif.Widgets.C59_linked",
    "Verif.Widgets.C59_calls"
   ],
   "note": "All histories and numbers of inputs."
  },
  {
   "property": "C61",
   "status": "partial",
   "theorems": [
    "Verif.Pyscript.C61_document",
    "Verif.Pyscript.C61_run_partial",
    "Verif.Pyscript.C61_double_click_violated",
    "Verif.Pyscript.C61_ignored_violated"
   ],
   "note": "The document shows the model for every model; composed with C01 (partial as C01: runs without stray errors). Violated for the event name of double clicks, and for everything the builder ignores: preventDefault, stopPropagation, debounce and throttle of handlers, inline JavaScript, imported components and errors (C61_ignored_violated)."
  },
  {
   "property": "C62",
   "status": "partial",
   "theorems": [
    "Verif.Pyscript.C62_lines_partial",
    "Verif.Pyscript.C62_code_partial",
    "Verif.Pyscript.C62_string_violated",
    "Verif.Pyscript.C62_text_violated"
   ],
   "note": "Files keep their lines of code, without comments, docstrings, blank lines and trailing white space: proved for files in which every # outside docstrings starts a comment (none on the last line) and triple quotes only delimit docstrings on lines of their own. Violated for # in strings and texts in triple quotes."
  },
  {
   "property": "C60",
   "status": "partial",
   "theorems": [
    "Verif.Reactjs.Cache.C60_key",
    "Verif.Reactjs.Cache.C60_calls_partial",
    "Verif.Reactjs.Cache.C60_unnamed_partial",
    "Verif.Reactjs.Cache.C60_content_violated",
    "Verif.Reactjs.Cache.C60_fallback_violated"
   ],
   "note": "Cache keys are exact. Partial: calls of one name agree in contents and fallback. Violated: changed contents and fallbacks of later calls are ignored."
  },
  {
   "property": "C63",
   "status": "partial",
   "theorems": [
    "Verif.Reactjs.Exports.C63_found_partial",
    "Verif.Reactjs.Exports.C63_nested_partial",
    "Verif.Reactjs.Exports.C63_only_partial",
    "Verif.Reactjs.Exports.C63_destructuring_violated",
    "Verif.Reactjs.Exports.C63_comma_violated",
    "Verif.Reactjs.Exports.C63_lines_violated",
    "Verif.Reactjs.Exports.C63_kinds_violated",
    "Verif.Reactjs.Exports.C63_comment_violated",
    "Verif.Reactjs.Exports.C63_tab_violated"
   ],
   "note": "Partial: for modules of export statements (one on a line, indented or not, with or without semicolon) and lines of other code without the word export: every exported name is found, the references are exactly those of export *, and (if the word export does not occur within statements) nothing else is found. Violated: destructuring, commas in initial values, lists over several lines, var/async/generator declarations, comments and strings, tabs around 'as'."
  },
  {
   "property": "C64",
   "status": "partial",
   "theorems": [
    "Verif.Reactjs.Cache.C64_files_partial",
    "Verif.Reactjs.Cache.C64_extension_partial",
    "Verif.Reactjs.Cache.C64_escape_violated"
   ],
   "note": "Partial: names without empty, '.' and '..' parts; for these also the extension of the file. Violated: names with '..' leave the directory; names that differ in empty parts share a file."
  },
  {
   "property": "C65",
   "status": "proved",
   "theorems": [
    "Verif.Effects.Async.C65_shielded",
    "Verif.Effects.Async.C65_cancelled",
    "Verif.Effects.Async.C65_not_early"
   ],
   "note": "Model of use_async_effect (Effects/Model.lean), all schedules, shielded and not. A request is the task state running true."
  },
  {
   "property": "C66",
   "status": "partial",
   "theorems": [
    "Verif.Client.Convert.C66_shown",
    "Verif.Client.Convert.C66_complete",
    "Verif.Client.Convert.C66_once",
    "Verif.Client.Convert.C66_selection",
    "Verif.Client.Convert.C66_names_violated"
   ],
   "note": "Shows (Client/ConvertSpec.lean) relates a value to its data: nothing else, nothing missing, order, each name once. Fails for data attributes and form elements whose names are filtered (C66_names_violated: data-size, an element named ID)."
  },
  {
   "property": "C67",
   "status": "partial",
   "theorems": [
    "Verif.Markup.C67_attributes",
    "Verif.Markup.C67_key",
    "Verif.Markup.C67_style",
    "Verif.Markup.C67_input",
    "Verif.Markup.C67_textarea",
    "Verif.Markup.C67_children",
    "Verif.Markup.C67_select_partial",
    "Verif.Markup.C67_last_violated",
    "Verif.Markup.C67_links"
   ],
   "note": "C67_attributes: every attribute not touched by a transform is kept under React's name. C67_key, C67_style, C67_input, C67_textarea, C67_children, C67_links: the exceptions. C67_select_partial: initial values of selects. Violated: of several selected options without 'multiple' the first is taken, a browser takes the last (C67_last_violated)."
  },
  {
   "property": "C68",
   "status": "proved",
   "theorems": [
    "Verif.Layout.C68_fuel_irrelevant",
    "Verif.Layout.C68_render_yields_update",
    "Verif.Layout.C68_unmounted_skipped"
   ],
   "note": "Every displayed instance (and the root before its first render) renders with exactly one update, for every sufficient amount of fuel, provided components are not nested without end; fuel is irrelevant; rendering an unmounted or unknown instance changes nothing."
  },
  {
   "property": "C69",
   "status": "partial",
   "theorems": [
    "Verif.Startup.C69_keys",
    "Verif.Startup.C69_separate",
    "Verif.Startup.C69_applied_partial",
    "Verif.Startup.C69_refused",
    "Verif.Startup.C69_known",
    "Verif.Startup.C69_prefix_partial",
    "Verif.Startup.C69_half_violated",
    "Verif.Startup.C69_spelling_violated",
    "Verif.Startup.C69_child_violated",
    "Verif.Startup.C69_boolean",
    "Verif.Startup.C69_accepted_partial",
    "Verif.Startup.C69_timeout_violated"
   ],
   "note": "Settings: applied exactly or refused, for all settings naming options without parents, each once; all documented settings but one are accepted. Violated: a failing setting leaves earlier ones applied; PATH_PREFIX in another spelling is not checked; a child option is overridden by its parent's setting; tests_default_timeout, which ReactPyConfig declares, cannot be set."
  },
  {
   "property": "C70",
   "status": "partial",
   "theorems": [
    "Verif.Startup.C70_standalone_partial",
    "Verif.Startup.C70_middleware_partial",
    "Verif.Startup.C70_process_partial",
    "Verif.Startup.C70_two_prefixes_violated",
    "Verif.Startup.C70_query_violated",
    "Verif.Startup.C70_import_map_partial",
    "Verif.Startup.C70_root_prefix_violated"
   ],
   "note": "Standalone and middleware pages lead to their application, over all histories with one prefix per process; import map for ordinary prefixes. Violated: two prefixes in one process, prefixes with ? or #, import map of prefix /."
  },
  {
   "property": "C71",
   "status": "proved",
   "theorems": [
    "Verif.Location.C71_fields",
    "Verif.Location.C71_sync",
    "Verif.Location.C71_location"
   ],
   "note": "Fully proved: for every history of connections the server's location is the page's current path and query string."
  },
  {
   "property": "C72",
   "status": "partial",
   "theorems": [
    "Verif.Connection.C72_faithful",
    "Verif.Connection.C72_closed",
    "Verif.Connection.C72_after_end",
    "Verif.Connection.C72_input",
    "Verif.Connection.C72_bounded",
    "Verif.Connection.C72_progress_partial",
    "Verif.Connection.C72_delivered_partial",
    "Verif.Connection.C72_stuck_violated"
   ],
   "note": "Order, no loss, open/close, bound, end of connection. Violated: with a dead rendering task and a full queue the handler never notices the end of the connection."
  },
  {
   "property": "C73",
   "status": "partial",
   "theorems": [
    "Verif.Closing.C73_leaving_partial",
    "Verif.Closing.C73_waits_only_for_asked_partial",
    "Verif.Closing.C73_leaving_ends_partial",
    "Verif.Closing.C73_failed_render_violated",
    "Verif.Closing.C73_render_scheduled_violated",
    "Verif.Closing.C73_cancelled_effect_violated",
    "Verif.Closing.C73_swallowed_cancellation_violated",
    "Verif.Closing.C73_interrupted_render_violated",
    "Verif.Closing.C73_interrupted_unmount_violated",
    "Verif.Closing.C73_uninterrupted"
   ],
   "note": "Proved for orderly leaving (nothing in progress fails, nothing new is started, no effect cancelled by others): never raises, unmounts each component exactly once, waits only for tasks it asked to stop, ends once they end. A render that is not cut short leaves exactly the components of its tree registered (uninterrupted). Violated: failed render task, render scheduled while leaving, swallowed cancellation, cancelled effect, render in progress (children never unmounted)."
  },
  {
   "property": "C74",
   "status": "partial",
   "theorems": [
    "Verif.Testing.C74_listed",
    "Verif.Testing.C74_deleting_partial",
    "Verif.Testing.C74_deleting_sound",
    "Verif.Testing.C74_deleting_violated",
    "Verif.Testing.C74_restored",
    "Verif.Testing.C74_restored_inside",
    "Verif.Testing.C74_asserted_partial",
    "Verif.Testing.C74_nested_violated",
    "Verif.Testing.C74_swallowed_violated"
   ],
   "note": "Restoring of the logger proved for all nestings. Assertions proved exact for blocks not nested in others; list_logged_exceptions exact without deleting and for at most one match. Violated: deleting while iterating loses errors and deletes other records; nested assertions see earlier records; assert_reactpy_did_not_log swallows a failed inner assertion."
  },
  {
   "property": "C75",
   "status": "proved",
   "theorems": [
    "Verif.Testing.C75_until",
    "Verif.Testing.C75_ends"
   ],
   "note": "Exact characterisation of returning, timing out and going on, for all result and clock sequences."
  },
  {
   "property": "C76",
   "status": "partial",
   "theorems": [
    "Verif.Client.Elem.C76_props",
    "Verif.Client.Elem.C76_input_props",
    "Verif.Client.Elem.C76_imported_props",
    "Verif.Client.Elem.C76_interval",
    "Verif.Client.Elem.C76_texts_partial",
    "Verif.Client.Elem.C76_script",
    "Verif.Client.Elem.C76_places_partial",
    "Verif.Client.Elem.C76_imported_texts_partial",
    "Verif.Client.Elem.C76_foreign",
    "Verif.Client.Elem.C76_imported_error_violated",
    "Verif.Client.Elem.C76_imported_throttle_violated",
    "Verif.Client.Elem.C76_fallback_violated",
    "Verif.Client.Elem.C76_imported_input_violated",
    "Verif.Client.Elem.C76_inherited_violated",
    "Verif.Client.Elem.C76_sent_partial",
    "Verif.Client.Elem.C76_prevented_violated"
   ],
   "note": "Partial: texts and places for HTML and inside imported components without failures; properties exact; violated for fallbacks, errors and throttles in imported components, imported names of inputs, tags inherited from Object.prototype, prevented non-events."
  },
  {
   "property": "C77",
   "status": "partial",
   "theorems": [
    "Verif.Client.Imp.C77_newest_partial",
    "Verif.Client.Imp.C77_no_dead_root",
    "Verif.Client.Imp.C77_loaded",
    "Verif.Client.Imp.C77_comes_to_rest",
    "Verif.Client.Imp.C77_removed_partial",
    "Verif.Client.Imp.C77_twice_violated",
    "Verif.Client.Imp.C77_left_violated"
   ],
   "note": "Newest model shown and orderly removal for settled components, in all interleavings; coming to rest and no use of dead roots without conditions. Violated: double load, render after unmount, leak when removed during the second load."
  },
  {
   "property": "C78",
   "status": "partial",
   "theorems": [
    "Verif.Client.Child.C78_orderly_partial",
    "Verif.Client.Child.C78_newest_partial",
    "Verif.Client.Child.C78_shown_partial",
    "Verif.Client.Child.C78_moved_violated",
    "Verif.Client.Child.C78_meanwhile_violated",
    "Verif.Client.Child.C78_raises_violated"
   ],
   "note": "Proved for modules that do not raise while binding and elements that are not moved; violated for those."
  },
  {
   "property": "C79",
   "status": "partial",
   "theorems": [
    "Verif.Console.C79_meaning_partial",
    "Verif.Console.C79_moved_partial",
    "Verif.Console.C79_second_run_partial",
    "Verif.Console.C79_others_violated",
    "Verif.Console.C79_sorted_violated",
    "Verif.Console.C79_twice_violated"
   ],
   "note": "Proved for programs whose other calls are not touched by the command and that give each key once; refuted for other functions called inside rewritten elements, functions taking key, and keys given twice."
  },
  {
   "property": "C80",
   "status": "partial",
   "theorems": [
    "Verif.Console.Lines.C80_lines",
    "Verif.Console.Lines.C80_each_partial",
    "Verif.Console.Lines.C80_closest",
    "Verif.Console.Lines.C80_around_partial",
    "Verif.Console.Lines.C80_one_line_partial",
    "Verif.Console.Lines.C80_same_line_violated",
    "Verif.Console.Lines.C80_bytes_violated",
    "Verif.Console.Lines.C80_tabs_violated",
    "Verif.Console.Lines.C80_comment_violated"
   ],
   "note": "Which lines are replaced and by what is proved; that every changed call is rewritten and that the text around it stays is proved for calls that do not share lines, ASCII lines, indents of spaces and no comments, and refuted otherwise."
  },
  {
   "property": "C81",
   "status": "partial",
   "theorems": [
    "Verif.Pyscript.Exec.C81_program",
    "Verif.Pyscript.Exec.C81_annotation_violated",
    "Verif.Pyscript.Exec.C81_mention_violated",
    "Verif.Pyscript.Exec.C81_text_violated",
    "Verif.Pyscript.Exec.C81_element_partial",
    "Verif.Pyscript.Exec.C81_end_tag_violated",
    "Verif.Pyscript.Exec.C81_attribute_partial",
    "Verif.Pyscript.Exec.C81_config",
    "Verif.Pyscript.Exec.C81_packages_violated"
   ],
   "note": "C81_program and C81_config are complete. C81_element_partial needs code without an end tag (C81_end_tag_violated) and C81_attribute_partial a configuration without a single quote. Refuted: an annotated root is refused, a mention of the root is accepted, texts over several lines are changed, a configuration with packages drops ReactPy."
  },
  {
   "property": "C82",
   "status": "partial",
   "theorems": [
    "Verif.Pyscript.Wheel.C82_crash",
    "Verif.Pyscript.Wheel.C82_two_servers_violated",
    "Verif.Pyscript.Wheel.C82_gap_violated",
    "Verif.Pyscript.Wheel.C82_source",
    "Verif.Pyscript.Wheel.C82_installed",
    "Verif.Pyscript.Wheel.C82_again_partial",
    "Verif.Pyscript.Wheel.C82_dash_violated",
    "Verif.Pyscript.Wheel.C82_deleted_violated",
    "Verif.Pyscript.Wheel.C82_tag",
    "Verif.Pyscript.Wheel.C82_record"
   ],
   "note": "C82_crash, C82_source, C82_installed, C82_record and C82_tag are complete for one server. C82_again_partial needs a version without - (C82_dash_violated). Refuted: two servers starting at once can serve a broken wheel, there is a moment without a wheel, a deleted source file is not noticed."
  },
  {
   "property": "C83",
   "status": "partial",
   "theorems": [
    "Verif.Hooks.Stack.C83_own_stack",
    "Verif.Hooks.Stack.C83_body",
    "Verif.Hooks.Stack.C83_same",
    "Verif.Hooks.Stack.C83_outside",
    "Verif.Hooks.Stack.C83_never_broken",
    "Verif.Hooks.Stack.C83_one_at_a_time",
    "Verif.Hooks.Stack.C83_waits",
    "Verif.Hooks.Stack.C83_context",
    "Verif.Hooks.Stack.C83_background_violated"
   ],
   "note": "Whole property for every interleaving in which tasks started by a component's body do not call hooks outside of renders of their own. C83_background_violated: without that rule a hook call in such a task is answered from whatever component is being rendered at the moment, instead of being refused. The thread-local variant is not modelled (nothing installs it)."
  },
  {
   "property": "C84",
   "status": "partial",
   "theorems": [
    "Verif.Client.Dispatch.C84_delivery_partial",
    "Verif.Client.Dispatch.C84_in_force_partial",
    "Verif.Client.Dispatch.C84_ready_partial",
    "Verif.Client.Dispatch.C84_twice_violated",
    "Verif.Client.Dispatch.C84_prototype_violated",
    "Verif.Client.Dispatch.C84_throw_violated",
    "Verif.Client.Dispatch.C84_late_violated",
    "Verif.Client.Dispatch.C84_context_violated"
   ],
   "note": "Proved for histories in which no listener subscribes twice to one type and types are not names of Object.prototype (C84_delivery_partial, C84_in_force_partial, C84_ready_partial). The remaining parts are false of the code and refuted with witnesses, among them that the sendMessage and onMessage given to an imported module's bind function always throw (they are passed without their object)."
  },
  {
   "property": "C85",
   "status": "partial",
   "theorems": [
    "Verif.Client.Named.C85_found",
    "Verif.Client.Named.C85_missing",
    "Verif.Client.Named.C85_nested_partial",
    "Verif.Client.Named.C85_plain",
    "Verif.Client.Named.C85_shadow_violated",
    "Verif.Client.Named.C85_inherited_violated"
   ],
   "note": "C85_found and C85_missing hold for all names; C85_nested_partial excludes nested names that are attributes of every constructor (C85_shadow_violated). Inherited properties are taken for components (C85_inherited_violated)."
  },
  {
   "property": "C86",
   "status": "partial",
   "theorems": [
    "Verif.Pyscript.Page.C86_server_page",
    "Verif.Pyscript.Page.C86_own_setup_partial",
    "Verif.Pyscript.Page.C86_browser_page_partial",
    "Verif.Pyscript.Page.C86_no_files",
    "Verif.Pyscript.Page.C86_stays",
    "Verif.Pyscript.Page.C86_shared_head_violated",
    "Verif.Pyscript.Page.C86_end_tag_violated",
    "Verif.Pyscript.Page.C86_component",
    "Verif.Pyscript.Page.C86_component_no_files",
    "Verif.Pyscript.Page.C86_component_restarts_violated"
   ],
   "note": "Exact content of every first page for every history (the set-ups of all applications that share the head), the page of an application with its own head, browser-rendered pages whose head does not mention `</head>`, kept pages, refusal without files, and the runs of a page component. Violated: a head given to two applications gets both set-ups; `</head>` in a script of the head; a page component restarts whenever its parent is rendered again."
  },
  {
   "property": "C87",
   "status": "partial",
   "theorems": [
    "Verif.Handlers.C87_called",
    "Verif.Handlers.C87_called_once_partial",
    "Verif.Handlers.C87_decorated_coroutine_violated",
    "Verif.Handlers.C87_made",
    "Verif.Handlers.C87_builtin_violated",
    "Verif.Handlers.C87_options_partial",
    "Verif.Handlers.C87_attribute_partial",
    "Verif.Handlers.C87_partial_violated",
    "Verif.Handlers.C87_decorated_partial_violated"
   ],
   "note": "Exact: what an event runs for every callable, and when a handler can be made. Options for functions in any number of decorators (also around a partial that binds nothing). Violated: coroutine functions in ordinary decorators never run; callables without byte code raise AttributeError; partials that bind a positional argument, or of decorated functions, lose the options of the source."
  },
  {
   "property": "C88",
   "status": "partial",
   "theorems": [
    "Verif.Client.Script.C88_page",
    "Verif.Client.Script.C88_runs",
    "Verif.Client.Script.C88_at_most",
    "Verif.Client.Script.C88_inline",
    "Verif.Client.Script.C88_content_partial",
    "Verif.Client.Script.C88_same_code_violated",
    "Verif.Client.Script.C88_code_and_src_violated",
    "Verif.Client.Script.C88_attribute_violated",
    "Verif.Client.Script.C88_false_violated"
   ],
   "note": "Proved for every sequence of renders and effects. Partial where the page is compared with what html.script was given: two sibling scripts with the same code make the component fail (duplicate keys), a src equal to the code before it is never loaded, attributes that change without the key are ignored, and False and None become the texts false and null."
  },
  {
   "property": "C89",
   "status": "partial",
   "theorems": [
    "Verif.Vdom.Tags.C89_names",
    "Verif.Vdom.Tags.C89_constructor",
    "Verif.Vdom.Tags.C89_same",
    "Verif.Vdom.Tags.C89_children",
    "Verif.Vdom.Tags.C89_svg_children_partial",
    "Verif.Vdom.Tags.C89_svg_content_violated",
    "Verif.Vdom.Tags.C89_underscore_violated",
    "Verif.Vdom.Tags.C89_svg_call"
   ],
   "note": "Proved for html; partial for html.svg, whose constructors for text, tspan, title, linearGradient, filter and others refuse every child, and for element names that contain underscores, which cannot be made."
  },
  {
   "property": "C90",
   "status": "partial",
   "theorems": [
    "Verif.Effects.Parallel.C90_started",
    "Verif.Effects.Parallel.C90_stopped_partial",
    "Verif.Effects.Parallel.C90_awaited",
    "Verif.Effects.Parallel.C90_schedule",
    "Verif.Effects.Parallel.C90_quiet",
    "Verif.Effects.Parallel.C90_removed_violated",
    "Verif.Effects.Parallel.C90_failed_violated",
    "Verif.Effects.Parallel.C90_early_violated",
    "Verif.Effects.Parallel.C90_kept_violated"
   ],
   "note": "Proved: every effect is started exactly once and in order, in every schedule, bodies that fail included, and a removal tells all started effects to stop and waits for them. Violated: a component that is removed while its own render is in progress starts effects that are never told to stop; an overlapping update may start effects of an update that is not complete; effects that were replaced are kept until the removal; the effects of components below one whose body fails are not told to stop."
  },
  {
   "property": "C91",
   "status": "partial",
   "theorems": [
    "Verif.Hooks.Infer.C91_memo_partial",
    "Verif.Hooks.Infer.C91_called",
    "Verif.Hooks.Infer.C91_other",
    "Verif.Hooks.Infer.C91_given",
    "Verif.Hooks.Infer.C91_callback_partial",
    "Verif.Hooks.Infer.C91_callback_same",
    "Verif.Hooks.Infer.C91_effect",
    "Verif.Hooks.Infer.C91_default_violated",
    "Verif.Hooks.Infer.C91_function_violated",
    "Verif.Hooks.Infer.C91_assigned_later_violated",
    "Verif.Hooks.Infer.C91_local_function_violated",
    "Verif.Hooks.Infer.C91_unassigned_violated",
    "Verif.Hooks.Infer.C91_decorated_violated"
   ],
   "note": "Proved for components that pass the same function of their source in every render, whose result depends on its local variables only, which are assigned before the hook is called and are no functions of the component; when the function is called, and when effects are run, is exact. Violated (each with a witness) without these conditions."
  },
  {
   "property": "C92",
   "status": "partial",
   "theorems": [
    "Verif.Vdom.Warn.C92_reported",
    "Verif.Vdom.Warn.C92_debug",
    "Verif.Vdom.Warn.C92_none_violated",
    "Verif.Vdom.Warn.C92_generator_violated",
    "Verif.Vdom.Warn.C92_located_partial",
    "Verif.Vdom.Warn.C92_root_violated",
    "Verif.Vdom.Warn.C92_import_violated"
   ],
   "note": "What is reported is exact for sequences; the line is proved for functions in submodules of ReactPy. Violated: an element with key None is not reported; children from generators are not; the module reactpy itself counts as the application; during imports between modules of ReactPy the importing module is named."
  },
  {
   "property": "C93",
   "status": "partial",
   "theorems": [
    "Verif.Reactjs.Npm.C93_file",
    "Verif.Reactjs.Npm.C93_options",
    "Verif.Reactjs.Npm.C93_elsewhere",
    "Verif.Reactjs.Npm.C93_distinct",
    "Verif.Reactjs.Npm.C93_refused",
    "Verif.Reactjs.Npm.C93_provided",
    "Verif.Reactjs.Npm.C93_react",
    "Verif.Reactjs.Npm.C93_preact",
    "Verif.Reactjs.Npm.C93_local",
    "Verif.Reactjs.Npm.C93_option_violated"
   ],
   "note": "Violated: a version with an option, which component_from_npm supports, makes all names of import_reactjs of one package stand for the same file. The JSON of the map is represented by its entries."
  },
  {
   "property": "C94",
   "status": "proved",
   "theorems": [
    "Verif.Component.C94_fits",
    "Verif.Component.C94_called",
    "Verif.Component.C94_refused",
    "Verif.Component.C94_reserved"
   ],
   "note": "Binding arguments is Python's; the model follows inspect.Signature.bind."
  },
  {
   "property": "C95",
   "status": "partial",
   "theorems": [
    "Verif.Component.C95_exact_partial",
    "Verif.Component.C95_hidden",
    "Verif.Component.C95_described",
    "Verif.Component.C95_argument_violated",
    "Verif.Component.C95_name_violated",
    "Verif.Component.C95_debug_violated"
   ],
   "note": "Violated: an argument whose repr raises, a callable without __name__, and in debug mode an error whose text cannot be made turn the failure of one component into that of its parent, or of Layout.render(). Elements between components are left out here (see C31)."
  },
  {
   "property": "C96",
   "status": "partial",
   "theorems": [
    "Verif.Handlers.EventData.C96_attributes_partial",
    "Verif.Handlers.EventData.C96_items",
    "Verif.Handlers.EventData.C96_arguments",
    "Verif.Handlers.EventData.C96_assigned",
    "Verif.Handlers.EventData.C96_method_violated",
    "Verif.Handlers.EventData.C96_list_violated"
   ],
   "note": "Exact for paths of names that are no methods of dict or Event. Violated for every name of a method (event.dataTransfer.items is a method) and behind every list (event.target.files[0].name raises)."
  },
  {
   "property": "C97",
   "status": "partial",
   "theorems": [
    "Verif.Session.C97_keys_partial",
    "Verif.Session.C97_moved_violated",
    "Verif.Session.C97_session_violated",
    "Verif.Session.C97_reopened_violated",
    "Verif.Session.C97_once",
    "Verif.Session.C97_not_earlier",
    "Verif.Session.C97_same_session_partial",
    "Verif.Session.C97_shown",
    "Verif.Session.C97_session_partial"
   ],
   "note": "Proved: each event is handed over once, in order, never to an earlier session; to the session of the element if the user acts while connected to it; and the handler run is that of the element with the same keys and event in the layout that handles it, never another's. Violated: events made offline, or before the first update of a new session, go to the new session, which may run another element's handler; so does an event of an element without key that has moved."
  },
  {
   "property": "C98",
   "status": "partial",
   "theorems": [
    "Verif.Whole.C98_parallel_partial",
    "Verif.Whole.C98_content_partial",
    "Verif.Whole.C98_page_partial",
    "Verif.Whole.C98_error_violated"
   ],
   "note": "End to end, for HTML elements other than scripts, as long as the root component has not failed and no instance is stray (which needs an earlier failure): serial rendering at every moment, and parallel rendering (the default, C98_parallel_partial) when all updates were handed out, under the conditions of C112. Violated after a failure of the root component: the page shows its error for ever (Object.assign keeps the field)."
  },
  {
   "property": "C99",
   "status": "proved",
   "theorems": [
    "Verif.Markup.C99_without",
    "Verif.Markup.C99_calls",
    "Verif.Markup.C99_raises",
    "Verif.Markup.C99_maps"
   ],
   "note": "Proved for transforms that return an element, text, None, a value or a component (a list is left out). What the first transform of an element gets is described for all tags but select, textarea and script, whose own transforms read the children."
  },
  {
   "property": "C100",
   "status": "partial",
   "theorems": [
    "Verif.Console.C100_line_ends_read",
    "Verif.Console.C100_others",
    "Verif.Console.C100_kinds",
    "Verif.Console.C100_done_partial",
    "Verif.Console.C100_failed_partial",
    "Verif.Console.C100_second_run_partial",
    "Verif.Console.C100_emptied_violated",
    "Verif.Console.C100_encoding_violated",
    "Verif.Console.C100_line_ends_violated",
    "Verif.Console.C100_directory_violated"
   ],
   "note": "Proved for any rewriting function and any order of listing. Violated: the files are read as UTF-8 but written in the encoding of the locale, so that a file may be emptied (C100_emptied_violated) or become unreadable (C100_encoding_violated); all line ends become those of the system (C100_line_ends_violated); a directory named x.py makes the command fail (C100_directory_violated)."
  },
  {
   "property": "C101",
   "status": "partial",
   "theorems": [
    "Verif.Hooks.Infer.C101_functions_partial",
    "Verif.Hooks.Infer.C101_values_partial",
    "Verif.Hooks.Infer.C101_off",
    "Verif.Hooks.Infer.C101_mutated_violated",
    "Verif.Hooks.Infer.C101_ref_violated"
   ],
   "note": "Proved for values, and for functions of their local variables, where values taken for equal are the same. Violated: a list that is changed in place (C101_mutated_violated) and a function that reads a Ref (C101_ref_violated) are not logged again."
  },
  {
   "property": "C102",
   "status": "partial",
   "theorems": [
    "Verif.Testing.C102_stopped_partial",
    "Verif.Testing.C102_nested_partial",
    "Verif.Testing.C102_open",
    "Verif.Testing.C102_unnoticed_violated",
    "Verif.Testing.C102_earlier_violated",
    "Verif.Testing.C102_start_violated"
   ],
   "note": "Stopping and restoring are proved where servers start, for fixtures outside other blocks, and anywhere for code that logs no errors. Violated: an error logged inside a fixture is never reported, since the records are dropped before they are looked at (C102_unnoticed_violated); inside a capturing block an error logged before the fixture makes leaving raise, with the server left running (C102_earlier_violated); a server that does not start leaves the captor and the level DEBUG (C102_start_violated)."
  },
  {
   "property": "C103",
   "status": "partial",
   "theorems": [
    "Verif.Testing.C103_updated_partial",
    "Verif.Testing.C103_rendered_partial",
    "Verif.Testing.C103_told",
    "Verif.Testing.C103_scheduled",
    "Verif.Testing.C103_on_render",
    "Verif.Testing.C103_early_violated",
    "Verif.Testing.C103_same_code_violated"
   ],
   "note": "Updating is proved for views whose effect ran before the next swap, and constructors that strictly_equal tells apart when they differ; the rest in full. Violated: a swap between the first render and the effect is missed (C103_early_violated); two components of the same name defined inside functions are taken for equal (C103_same_code_violated)."
  },
  {
   "property": "C104",
   "status": "partial",
   "theorems": [
    "Verif.Sched.Switch.C104_kept",
    "Verif.Sched.Switch.C104_unchanged_partial",
    "Verif.Sched.Switch.C104_back",
    "Verif.Sched.Switch.C104_stuck_violated",
    "Verif.Sched.Switch.C104_root"
   ],
   "note": "No change is forgotten (C104_kept), and all is handed out if the option is not changed (C104_unchanged_partial) or when it is turned off and on again (C104_back). Violated: turned off while render() waits, changes are not handed out for as long as it stays off (C104_stuck_violated)."
  },
  {
   "property": "C105",
   "status": "partial",
   "theorems": [
    "Verif.Testing.C105_level_partial",
    "Verif.Testing.C105_captured_partial",
    "Verif.Testing.C105_assigned",
    "Verif.Testing.C105_after_violated",
    "Verif.Testing.C105_missed_violated"
   ],
   "note": "Proved for code that does not assign debug mode inside capturing blocks. Violated by such assignments: the level after the block is the one from before it (C105_after_violated), and turning debug mode off makes the block miss messages (C105_missed_violated)."
  },
  {
   "property": "C106",
   "status": "partial",
   "theorems": [
    "Verif.Sched.Heap.C106_calm_partial",
    "Verif.Sched.Heap.C106_detached_violated",
    "Verif.Sched.Heap.C106_key_error_violated"
   ],
   "note": "Proved if tasks of components above or below each other do not overlap and no setter is called between a render coming to a component and running its body (C106_calm_partial). Violated otherwise: RuntimeError out of render() (C106_detached_violated), KeyError in place of a component (C106_key_error_violated); in both executions each task goes on until it has to wait."
  },
  {
   "property": "C107",
   "status": "partial",
   "theorems": [
    "Verif.Sched.Heap.C107_kept_partial",
    "Verif.Sched.Heap.C107_lost_violated"
   ],
   "note": "Proved for calm executions (C107_kept_partial, see C106). Violated otherwise: a render that starts from a state left by a cancelled render makes a new instance of a child that is mounted (C107_lost_violated)."
  },
  {
   "property": "C108",
   "status": "partial",
   "theorems": [
    "Verif.Sched.Heap.C108_gone_partial",
    "Verif.Sched.Heap.C108_back_violated"
   ],
   "note": "Proved for calm executions (C108_gone_partial, see C106). Violated otherwise (C108_back_violated)."
  },
  {
   "property": "C109",
   "status": "proved",
   "theorems": [
    "Verif.Sched.Heap.C109_exclusive",
    "Verif.Sched.Heap.C109_no_deadlock"
   ],
   "note": "For every execution, calm or not (C109_exclusive, C109_no_deadlock). Bodies do not raise in this model; a body that raises gives the semaphore back in the same way (layout.py 349-350)."
  },
  {
   "property": "C110",
   "status": "proved",
   "theorems": [
    "Verif.Location.C110_connection",
    "Verif.Location.C110_location",
    "Verif.Location.C110_none"
   ],
   "note": "Stated for the last render of every displayed component; end to end from the page's location in the browser (C110_location)."
  },
  {
   "property": "C111",
   "status": "partial",
   "theorems": [
    "Verif.Testing.Display.C111_closes_partial",
    "Verif.Testing.Display.C111_show",
    "Verif.Testing.Display.C111_enter_violated",
    "Verif.Testing.Display.C111_again_violated",
    "Verif.Testing.Display.C111_headless_violated",
    "Verif.Testing.Display.C111_shared_violated",
    "Verif.Testing.Display.C111_mount",
    "Verif.Testing.Display.C111_given"
   ],
   "note": "Proved for blocks whose entering succeeds. Violated when entering fails (what was opened stays open), when a fixture is used a second time, for the argument headless, which is never read, and for two fixtures at the same time, which share what is mounted."
  },
  {
   "property": "C112",
   "status": "partial",
   "theorems": [
    "Verif.Parallel.C112_serial_partial",
    "Verif.Parallel.C112_current",
    "Verif.Parallel.C112_owed_partial",
    "Verif.Parallel.C112_owed_meaning",
    "Verif.Parallel.C112_view_partial",
    "Verif.Parallel.C112_routing_partial",
    "Verif.Parallel.C112_disordered_violated",
    "Verif.Parallel.C112_lost_violated"
   ],
   "note": "Proved for executions in which no render task starts inside another (a render gives way only while it waits for effects of components that it unmounts); overlapping renders are in C12\u2013C14 and C106\u2013C109. Violated when an update overtakes an earlier one that concerns it, and when a component is removed while a task for it waits."
  },
  {
   "property": "C113",
   "status": "partial",
   "theorems": [
    "Verif.Whole.C113_serial_partial",
    "Verif.Whole.C113_serial_event_partial",
    "Verif.Whole.C113_serial_settles",
    "Verif.Whole.C113_error_violated",
    "Verif.Whole.C113_stray_violated",
    "Verif.Whole.C113_view_partial",
    "Verif.Whole.C113_body",
    "Verif.Whole.C113_event_partial",
    "Verif.Whole.C113_settles",
    "Verif.Whole.C113_disordered_violated"
   ],
   "note": "Parallel rendering: proved for all histories in which renders do not overlap and nothing is lost or disordered (see C112); setters are called by handlers, by the bodies of components that are being rendered, and by other code between renders and during them. Violated when an update overtakes an earlier one of the same component (C113_disordered_violated). Serial rendering (C113_serial_\u2026): proved for all histories, whatever order the queue has. Components may fail, by an exception or by output that cannot be displayed, and recover; but the root must not have failed (C113_error_violated), and no component that a failed render left behind may be rendered (C113_stray_violated). The page is compared with a declarative semantics of the components under the present state and contexts. C113_event_partial, C113_serial_event_partial, C113_settles and C113_serial_settles are for applications in which no setters are called during renders; the latter two: when no component contains itself without end, the work that is left runs out, so the page at rest is reached. Missing: overlapping renders, other hooks than use_state and use_context."
  },
  {
   "property": "C114",
   "status": "partial",
   "theorems": [
    "Verif.Client.Inline.C114_same_partial",
    "Verif.Client.Inline.C114_function",
    "Verif.Client.Inline.C114_function_name",
    "Verif.Client.Inline.C114_return_violated",
    "Verif.Client.Inline.C114_names_violated",
    "Verif.Client.Inline.C114_element_violated",
    "Verif.Client.Inline.C114_new_violated",
    "Verif.Client.Inline.C114_called_violated"
   ],
   "note": "Partial: code without return, whose value is no function, whose names are neither used by ReactPy's own code nor properties of the element or the document, and which assigns only to existing variables (C114_same_partial). Functions are called with all arguments: in full (C114_function, C114_function_name). Violated in each of the excluded cases: return is a syntax error, names of the client's source hide those of the page, properties of the element are not in scope, new variables cannot be made (strict mode), a value that happens to be a function is called."
  },
  {
   "property": "C115",
   "status": "partial",
   "theorems": [
    "Verif.Reactjs.Served.C115_served_partial",
    "Verif.Reactjs.Served.C115_inside",
    "Verif.Reactjs.Served.C115_directory_violated",
    "Verif.Reactjs.Served.C115_names_violated",
    "Verif.Reactjs.Served.C115_prefix_violated"
   ],
   "note": "C115_served_partial: whatever the history, the page gets the content of the module, if the directory is not changed after the application is made and the prefix and the source are plain. C115_inside: for every history and every path asked for, a reply is a file inside the modules directory. Violations: a component made before an application with its own web_modules_dir is not found (and the cache keeps it so); names with #, ?, % or backslash; prefixes such as /a//. The URL standard and the file server (servestatic) are written down from their documentation, as they are not code of /repo."
  },
  {
   "property": "C116",
   "status": "partial",
   "theorems": [
    "Verif.Handlers.Equal.C116_equal",
    "Verif.Handlers.Equal.C116_handlers",
    "Verif.Handlers.Equal.C116_exact",
    "Verif.Handlers.Equal.C116_function_violated"
   ],
   "note": "C116_equal, C116_handlers and C116_exact are complete. Violated: to_event_handler_function makes a new function each time, so handlers of ordinary functions, and of any function given as an attribute, are never equal, whatever they are made of (C116_function_violated)."
  },
  {
   "property": "C117",
   "status": "partial",
   "theorems": [
    "Verif.Testing.Catcher.C117_called",
    "Verif.Testing.Catcher.C117_latest",
    "Verif.Testing.Catcher.C117_index",
    "Verif.Testing.Catcher.C117_positional_violated"
   ],
   "note": "Which calls are caught, what is then called, and what the catcher holds: exact for all histories. Violated: a component that is given the indexing argument by position fails with KeyError once it is decorated (C117_positional_violated)."
  },
  {
   "property": "C118",
   "status": "partial",
   "theorems": [
    "Verif.Pyscript.C118_update",
    "Verif.Pyscript.C118_looks_partial",
    "Verif.Pyscript.C118_listeners_partial",
    "Verif.Pyscript.C118_event",
    "Verif.Pyscript.C118_added_violated",
    "Verif.Pyscript.C118_initial_violated",
    "Verif.Pyscript.C118_row_violated"
   ],
   "note": "The look of the page is proved for all histories and initial contents; for the listeners an exact criterion per update (C118_update) and the histories that meet it. Violated: morphdom keeps elements with the listeners they have, so added handlers are not heard (C118_added_violated), a row that takes the place of a removed one calls the removed one's handler (C118_row_violated), and initial content of the same tag makes elements deaf from the start (C118_initial_violated). Pages with `id` attributes, which morphdom takes for keys, are not modelled."
  },
  {
   "property": "C119",
   "status": "partial",
   "theorems": [
    "Verif.Option.Reentrant.C119_told_partial",
    "Verif.Option.Reentrant.C119_violated",
    "Verif.Option.Reentrant.C119_unset_violated"
   ],
   "note": "Proved for every subscriber before which none that touches the option is registered. Violated for those after one that corrects the value: told last the value that was replaced (C119_violated), or the same value twice by unset (C119_unset_violated)."
  },
  {
   "property": "C120",
   "status": "partial",
   "theorems": [
    "Verif.Hooks.Overlap.C120_partial",
    "Verif.Hooks.Overlap.C120_asked",
    "Verif.Hooks.Overlap.C120_values",
    "Verif.Hooks.Overlap.C120_nested_violated",
    "Verif.Hooks.Overlap.C120_threads_violated"
   ],
   "note": "Proved when no call with an updater function overlaps another call of the same setter (values may be set at the same time: C120_values), and that renders are asked for in every execution. Violated by updater functions that call the setter (C120_nested_violated) and by threads that give updater functions at the same time (C120_threads_violated): updates are lost."
  },
  {
   "property": "C121",
   "status": "partial",
   "theorems": [
    "Verif.Markup.C121_clicks",
    "Verif.Markup.C121_stays_partial",
    "Verif.Markup.C121_onclick_violated"
   ],
   "note": "C121_clicks says exactly what each click does. With interception all links without an onclick attribute stay on the page; a link with one is followed after its JavaScript has run, since inline JavaScript takes the place of the handler (C121_onclick_violated)."
  },
  {
   "property": "C122",
   "status": "partial",
   "theorems": [
    "Verif.Wire.C122_partial",
    "Verif.Wire.C122_integers_partial",
    "Verif.Wire.C122_nearest",
    "Verif.Wire.C122_checked_partial",
    "Verif.Wire.C122_order",
    "Verif.Wire.C122_large_violated",
    "Verif.Wire.C122_special_violated",
    "Verif.Wire.C122_checked_violated",
    "Verif.Wire.C122_contained_violated"
   ],
   "note": "C122_partial says exactly which values arrive as given. Violated by integers beyond 53 bits (rounded), not-a-number (null), and by the check, which accepts what cannot be sent (integer keys, 65-bit integers, lone surrogates) and refuses dates, which can; one such attribute ends the view of all components. json.dumps, orjson and JSON.parse are modelled from their documentation."
  },
  {
   "property": "C123",
   "status": "partial",
   "theorems": [
    "Verif.Markup.C123_documented_partial",
    "Verif.Markup.C123_only",
    "Verif.Markup.C123_handlers",
    "Verif.Markup.C123_handlers_violated",
    "Verif.Markup.C123_checked_violated"
   ],
   "note": "Proved for all documented names but checked. Violated by ondblclick, onmouseover, ondragleave and 11 more handlers of HTML, which are sent as plain attributes, and by checked, which no attribute of HTML becomes."
  },
  {
   "property": "C124",
   "status": "partial",
   "theorems": [
    "Verif.Startup.Text.C124_import_map",
    "Verif.Startup.Text.C124_page_map_partial",
    "Verif.Startup.Text.C124_page_partial",
    "Verif.Startup.Text.C124_arguments",
    "Verif.Startup.Text.C124_error",
    "Verif.Startup.Text.C124_class_exact",
    "Verif.Startup.Text.C124_class_violated",
    "Verif.Startup.Text.C124_path_violated"
   ],
   "note": "Proved for classes without quotes and ampersands and for paths that can be put between quotes; exact for the class. Violated otherwise: nothing is escaped."
  }
 ]
}