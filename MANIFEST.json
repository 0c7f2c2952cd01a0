{
 "claims": [
  {
   "property": "C01",
   "status": "proved",
   "theorems": [
    "Dyon.Link.C01_links_are_lists",
    "Dyon.C01_functions"
   ],
   "note": "All operation histories on any number of handles over the shared, reference-counted representation; specification is plain lists."
  },
  {
   "property": "C02",
   "status": "proved",
   "theorems": [
    "Dyon.Link.C02_other_links_unchanged",
    "Dyon.Link.C02_reference_counts_exact"
   ],
   "note": "Copy-on-write of shared blocks modelled explicitly (heap with reference counts). For the references to the strings inside blocks see C98."
  },
  {
   "property": "C03",
   "status": "proved",
   "theorems": [
    "Dyon.Link.C03_block_read_after_write",
    "Dyon.Link.C03_block_bounds",
    "Dyon.Link.C03_push_values"
   ],
   "note": "Bit-level packing of 124 two-bit kinds in four 64-bit words, for every block, value and position."
  },
  {
   "property": "C04",
   "status": "partial",
   "theorems": [
    "Dyon.Ty.C04_refl",
    "Dyon.Ty.C04_unreachable",
    "Dyon.Ty.C04_any",
    "Dyon.Ty.C04_void",
    "Dyon.Ty.C04_adHoc_names",
    "Dyon.Ty.C04_adHoc_inner_partial",
    "Dyon.Ty.C04_adHoc_secret_fails",
    "Dyon.Ty.C04_secret_direction",
    "Dyon.Ty.C04_symm"
   ],
   "note": "All laws proved for every type, except that an ad-hoc type goes with its inner type both ways: the code violates this for inner types beginning with `sec[..]` (C04_adHoc_secret_fails is the witness), so that law carries the hypothesis that the inner type is not a secret."
  },
  {
   "property": "C05",
   "status": "partial",
   "theorems": [
    "Dyon.Ty.C05_sound_no_secret_partial",
    "Dyon.Ty.C05_sound_no_adHoc_partial",
    "Dyon.Ty.C05_secret_unsound",
    "Dyon.Ty.C05_closure_partial",
    "Dyon.Ty.C05_closure_unsound"
   ],
   "note": "Soundness is proved for types without secrets and for types without ad-hoc names. The full statement is false of the code: a plain value passes as a secret below an ad-hoc type (C05_secret_unsound) and closure arguments are compared covariantly (C05_closure_unsound)."
  },
  {
   "property": "C06",
   "status": "proved",
   "theorems": [
    "Dyon.C06_found_iff",
    "Dyon.C06_mismatch_iff",
    "Dyon.C06_bindings_kept",
    "Dyon.C06_first_compatible",
    "Dyon.C06_delay_reason",
    "Dyon.C06_unknown_delays",
    "Dyon.C06_type_variable",
    "Dyon.C06_bound_name_used",
    "Dyon.C06_unbound_variable_erases",
    "Dyon.Check.C06_declared",
    "Dyon.Check.C06_early"
   ],
   "note": "refine::prelude for every list of signatures and arguments. C06_unbound_variable_erases records a bug: an unbound type variable erases other ad-hoc names of the return type. refine::declaration, modelled over the syntax nodes of a file, does the same for all signatures that are written there (C06_declared)."
  },
  {
   "property": "C07",
   "status": "proved",
   "theorems": [
    "Dyon.Lt.C07_greater",
    "Dyon.Lt.C07_less",
    "Dyon.Lt.C07_equal",
    "Dyon.Lt.C07_antisymm",
    "Dyon.Lt.C07_refl",
    "Dyon.Lt.C07_local_shortest",
    "Dyon.Lt.C07_transitive",
    "Dyon.Lt.C07_not_transitive_in_general"
   ],
   "note": "Comparison characterised against an inductive order; transitivity on the lifetimes computed for a signature (on arbitrary lists it fails, C07_not_transitive_in_general)."
  },
  {
   "property": "C08",
   "status": "partial",
   "theorems": [
    "Dyon.Lt.C08_accept_iff",
    "Dyon.Lt.C08_reject_partial",
    "Dyon.Lt.C08_crash_iff"
   ],
   "note": "Decision characterised completely. The code violates 'never crashes': storing the item `return` in an argument or in the return value panics (C08_crash_iff)."
  },
  {
   "property": "C09",
   "status": "partial",
   "theorems": [
    "Dyon.Lt.C09_check_total",
    "Dyon.Lt.C09_accept_iff",
    "Dyon.Lt.C09_resolves",
    "Dyon.Lt.C09_accepted_resolves_partial",
    "Dyon.Lt.C09_endless"
   ],
   "note": "The full claim is false of the code: the cycle search stops at the first argument annotated 'return, so `fn f(a: 'return, b: 'c, c: 'b)` is accepted and then loops forever (C09_endless)."
  },
  {
   "property": "C10",
   "status": "proved",
   "theorems": [
    "Dyon.Lt.C10_check_iff"
   ],
   "note": "Exact characterisation for every stack content and annotation list."
  },
  {
   "property": "C11",
   "status": "partial",
   "theorems": [
    "Dyon.C11_array",
    "Dyon.C11_object",
    "Dyon.C11_symm",
    "Dyon.C11_trans",
    "Dyon.C11_not_equal",
    "Dyon.C11_refl_iff",
    "Dyon.C11_reference_elements"
   ],
   "note": "Symmetry, transitivity and structural characterisation for all well-formed values; reflexivity fails exactly on values containing NaN or references (C11_refl_iff), and `[x] == [x]` is false when the element is a reference (C11_reference_elements)."
  },
  {
   "property": "C12",
   "status": "partial",
   "theorems": [
    "Dyon.C12_numbers",
    "Dyon.C12_exact_value",
    "Dyon.C12_infinities",
    "Dyon.C12_strings",
    "Dyon.C12_swap_partial",
    "Dyon.C12_nan",
    "Dyon.C12_nan_fails",
    "Dyon.C12_transitive"
   ],
   "note": "Comparison of all numbers and strings against the exact order. The NaN clause is false of the code: `>` and `>=` are the negations of `<=` and `<`, so they are true on NaN (C12_nan)."
  },
  {
   "property": "C13",
   "status": "proved",
   "theorems": [
    "Dyon.C13_bool",
    "Dyon.C13_number_secret",
    "Dyon.C13_concat",
    "Dyon.C13_concat_assoc",
    "Dyon.C13_concat_neutral",
    "Dyon.C13_kinds",
    "Dyon.C13_vec4",
    "Dyon.C13_neg_neg",
    "Dyon.C13_not_not",
    "Dyon.C13_mat4",
    "Dyon.C13_negative",
    "Dyon.C13_dot",
    "Dyon.C13_cross"
   ],
   "note": "Operators on all kinds of operands; rounded float arithmetic is a parameter."
  },
  {
   "property": "C14",
   "status": "partial",
   "theorems": [
    "Dyon.C14_resolves",
    "Dyon.C14_complete",
    "Dyon.C14_unique",
    "Dyon.C14_terminates",
    "Dyon.C14_self_contained",
    "Dyon.C14_stable",
    "Dyon.C14_sealed_history",
    "Dyon.C14_cycle",
    "Dyon.C14_options_not_entered"
   ],
   "note": "Deep clone resolves every reference below arrays and objects. Options and results are not entered by the code (C14_options_not_entered); C14_sealed_history shows the library never puts references there. Termination needs acyclic references: `push_ref(mut a, a)` makes a cycle and clone never ends (C14_cycle)."
  },
  {
   "property": "C15",
   "status": "partial",
   "theorems": [
    "Dyon.C15_push_ref",
    "Dyon.C15_push",
    "Dyon.C15_insert_ref",
    "Dyon.C15_insert",
    "Dyon.C15_insert_out_of_bounds",
    "Dyon.C15_pop",
    "Dyon.C15_pop_empty",
    "Dyon.C15_remove",
    "Dyon.C15_remove_out_of_bounds",
    "Dyon.C15_reverse",
    "Dyon.C15_clear",
    "Dyon.C15_swap_partial",
    "Dyon.C15_swap_panics",
    "Dyon.C15_len",
    "Dyon.C15_negative_index",
    "Dyon.C15_integer_index",
    "Dyon.C15_not_an_array",
    "Dyon.C15_frame"
   ],
   "note": "Each function refines the list operation and changes nothing else (C15_frame, over all library functions modelled). Violations found: `swap` out of bounds panics (C15_swap_panics); a negative or NaN index means 0 (C15_negative_index)."
  },
  {
   "property": "C16",
   "status": "partial",
   "theorems": [
    "Dyon.C16_min_partial",
    "Dyon.C16_max_partial",
    "Dyon.C16_not_an_array",
    "Dyon.C16_skips"
   ],
   "note": "Full characterisation on the numbers of an array; the code silently skips elements that are not numbers (C16_skips)."
  },
  {
   "property": "C17",
   "status": "proved",
   "theorems": [
    "Dyon.C17_why",
    "Dyon.C17_where",
    "Dyon.C17_explain_why",
    "Dyon.C17_explain_where",
    "Dyon.C17_nested_why",
    "Dyon.C17_nested_where"
   ],
   "note": "Recording by loops is C19_any_true, C19_all_false, C21_any_true and FirstBest in C18_end; reading back is proved for every nesting depth."
  },
  {
   "property": "C18",
   "status": "partial",
   "theorems": [
    "Dyon.C18_end",
    "Dyon.C18_break",
    "Dyon.C18_return",
    "Dyon.C18_body_fails",
    "Dyon.C18_no_value",
    "Dyon.C18_indices",
    "Dyon.C18_empty",
    "Dyon.C18_link",
    "Dyon.C18_link_leaves"
   ],
   "note": "All accumulator kinds; `link` loops with loops inside that end normally. Indices are exactly the integers of the range below 2^53; the counter is assumed not to be reassigned by the body, as the code allows that."
  },
  {
   "property": "C19",
   "status": "proved",
   "theorems": [
    "Dyon.C19_any_true",
    "Dyon.C19_all_false",
    "Dyon.C18_end",
    "Dyon.C21_any_true",
    "Dyon.C21_all_false"
   ],
   "note": "First witness of any/all; min and max through FirstBest in C18_end; NaN handled."
  },
  {
   "property": "C20",
   "status": "proved",
   "theorems": [
    "Dyon.C20_break",
    "Dyon.C20_continue",
    "Dyon.C20_loop_catches",
    "Dyon.C20_call",
    "Dyon.C20_break_passes",
    "Dyon.C20_continue_passes",
    "Dyon.C18_break"
   ],
   "note": "Every expression of the language, every nesting: a jump out of an expression is written in it outside of any loop it targets; a loop never lets its own label out; no jump leaves a call."
  },
  {
   "property": "C21",
   "status": "partial",
   "theorems": [
    "Dyon.C21_end",
    "Dyon.C21_empty",
    "Dyon.C21_break",
    "Dyon.C21_return",
    "Dyon.C21_body_fails",
    "Dyon.C21_any_true",
    "Dyon.C21_all_false",
    "Dyon.C21_in_order",
    "Dyon.C21_empty_no_value",
    "Dyon.C21_link",
    "Dyon.C21_link_leaves"
   ],
   "note": "Arrivals from other threads are an arbitrary function of time. Finding: accumulators over an empty channel have no value (C21_empty_no_value)."
  },
  {
   "property": "C22",
   "status": "proved",
   "theorems": [
    "Dyon.C22_notify",
    "Dyon.C22_not_observed",
    "Dyon.C22_subscribe",
    "Dyon.C22_call",
    "Dyon.C22_call_not_observed"
   ],
   "note": "Channels may be closed at any time; calls of loaded functions. The message of a function with current objects also contains these (finding, in C22_call)."
  },
  {
   "property": "C23",
   "status": "partial",
   "theorems": [
    "Dyon.C23_block",
    "Dyon.C23_call",
    "Dyon.C23_callClosure",
    "Dyon.C23_countingLoop",
    "Dyon.C23_channelLoop",
    "Dyon.C23_value",
    "Dyon.C23_nothing_taken",
    "Dyon.C23_for_partial",
    "Dyon.C23_call_from_outside",
    "Dyon.C23_run",
    "Dyon.C23_for_leaks_current",
    "Dyon.C23_vec4_takes_variables",
    "Dyon.Plain.C23_text_partial"
   ],
   "note": "C23_text_partial: from the text, for every accepted plain program (Front/Plain.lean). For every program and state. Violations found: `for (~ x := ..; ..)` leaks the current object (C23_for_leaks_current); a vec4 literal with an argument without value pops the caller's variables (C23_vec4_takes_variables)."
  },
  {
   "property": "C24",
   "status": "partial",
   "theorems": [
    "Dyon.C24_run_partial",
    "Dyon.C24_session_partial",
    "Dyon.C24_thread_partial",
    "Dyon.C24_closure_statement",
    "Dyon.C24_return_in_argument",
    "Dyon.C24_argument_current",
    "Dyon.Plain.C24_text_partial"
   ],
   "note": "For every program whose variables are in scope (specification Expr.Scoped), every run, every sequence of calls from the host and every started thread, with any fuel: reading variables at the slots get_locals computes gives the same results, errors and states as searching the locals of the running call by name. Outside the specification the property is false of the code: a closure as a statement shifts the slots after it (C24_closure_statement), `return` in an argument of a closure call is taken for the result of the closure (C24_return_in_argument), a current object named like a parameter (C24_argument_current)."
  },
  {
   "property": "C25",
   "status": "proved",
   "theorems": [
    "Dyon.C25_ok",
    "Dyon.C25_err",
    "Dyon.C25_flow",
    "Dyon.C25_never_fails",
    "Dyon.C25_only_failure",
    "Dyon.C25_dangling"
   ],
   "note": "Every expression, state and fuel. C25_dangling: unwrap(try x) returns a reference to a variable that may be gone."
  },
  {
   "property": "C26",
   "status": "partial",
   "theorems": [
    "Dyon.C26_unwraps",
    "Dyon.C26_returns_error",
    "Dyon.C26_requires_return",
    "Dyon.C26_other",
    "Dyon.C26_after_assigned_return",
    "Dyon.C26_property_changed"
   ],
   "note": "Violations found: after `return = ..` the operator reports that the function has no return type (C26_after_assigned_return); `a.x?` overwrites the stored property (C26_property_changed)."
  },
  {
   "property": "C27",
   "status": "proved",
   "theorems": [
    "Dyon.C27_and_false",
    "Dyon.C27_or_true",
    "Dyon.C27_and_true",
    "Dyon.C27_or_false",
    "Dyon.C27_first_fails",
    "Dyon.C27_second_fails"
   ],
   "note": "Short-circuit operators are calls with lazy invariants; proved at that level for all operands."
  },
  {
   "property": "C28",
   "status": "partial",
   "theorems": [
    "Dyon.C28_external_first_partial",
    "Dyon.C28_lazy_value",
    "Dyon.C28_loaded_leaves_slot",
    "Dyon.C28_loaded_shifts_variables",
    "Dyon.C28_external_second"
   ],
   "note": "Violations found: an early lazy return in a loaded function leaves its return slot on the stack and shifts the caller's variables; a lazy second parameter of an external function leaves the first argument."
  },
  {
   "property": "C29",
   "status": "partial",
   "theorems": [
    "Dyon.C29_value",
    "Dyon.C29_assigned",
    "Dyon.C29_void",
    "Dyon.C29_missing",
    "Dyon.C29_superfluous",
    "Dyon.C29_body_fails",
    "Dyon.C29_slots",
    "Dyon.C29_args_kept",
    "Dyon.C29_args_stay_partial",
    "Dyon.C29_param_value_partial",
    "Dyon.C29_param",
    "Dyon.C29_closure_value",
    "Dyon.C29_closure_void",
    "Dyon.C29_closure_param"
   ],
   "note": "Arguments with side effects (C29_args_stay_partial, C29_param_value_partial): under the hypothesis that after each argument no variable leads to a slot that was free before the call; that accepted programs never get there is not proved (the lifetime checker lets some such references through, C52, C57). C29_args_kept: without that hypothesis for arguments without side effects."
  },
  {
   "property": "C30",
   "status": "partial",
   "theorems": [
    "Dyon.C30_created",
    "Dyon.C30_captured",
    "Dyon.C30_snapshot_partial",
    "Dyon.C30_levels",
    "Dyon.C30_no_grabs",
    "Dyon.C30_kept",
    "Dyon.C30_call",
    "Dyon.Demo.C30_if_order",
    "Dyon.Demo.C30_try_captured_by_reference"
   ],
   "note": "For every body, state and history of later evaluations. C30_snapshot_partial (captured values read the same for ever) needs values without references inside options, results and secrets; the hypothesis is necessary, because `try x` makes a result holding a reference and grab does not look into results (C30_try_captured_by_reference). The grabs of an `if` are evaluated conditions first (C30_if_order)."
  },
  {
   "property": "C31",
   "status": "partial",
   "theorems": [
    "Dyon.C31_write",
    "Dyon.C31_read_partial",
    "Dyon.C31_assign_partial",
    "Dyon.C31_insert_partial",
    "Dyon.C31_replace_partial",
    "Dyon.C31_missing_partial",
    "Dyon.C31_assign_missing_partial",
    "Dyon.C31_indices_then_computed",
    "Dyon.C31_indices_panic",
    "Dyon.C31_negative_index",
    "Dyon.C31_reference_replaced"
   ],
   "note": "For all programs, states and items of any depth with static or computed properties: an assignment operator gives exactly the addressed place the new value; := inserts or replaces the key; missing keys and indices are errors. A computed property that is an array of indices is covered if nothing is computed behind it and the references that are met lead to variables below it; otherwise the property is false of the code: a computed property behind it reads the wrong value (C31_indices_then_computed), and a reference to a variable declared later crashes the program (C31_indices_panic: `i := [0, 0]; x := [5]; a := [x]; a[i]`). A negative index reads the first element (C31_negative_index). Not covered: items with `?`, which overwrite the stored option (C26_property_changed)."
  },
  {
   "property": "C32",
   "status": "partial",
   "theorems": [
    "Dyon.Mod.C32_plain",
    "Dyon.Mod.C32_alias_partial",
    "Dyon.Mod.C32_arity",
    "Dyon.Mod.C32_signature",
    "Dyon.Mod.C32_signature_crash",
    "Dyon.Mod.C32_renamed_mut",
    "Dyon.Mod.C32_alias_lazy",
    "Dyon.Mod.C32_alias_arity",
    "Dyon.Mod.C32_go_alias"
   ],
   "note": "Every module and file. Violations found: a renamed import of a host function with a mutable argument is accepted by the checker and not linked; an aliased call of a lazy host function is not lazy; the number of arguments of aliased calls is not checked; `go` ignores the alias."
  },
  {
   "property": "C33",
   "status": "partial",
   "theorems": [
    "Dyon.Mod.C33_stable",
    "Dyon.Mod.C33_import",
    "Dyon.Mod.C33_importTransitive",
    "Dyon.Mod.C33_import_host",
    "Dyon.Mod.C33_calls",
    "Dyon.Mod.C33_go"
   ],
   "note": "Every history of loads and imports over any number of modules, to every depth of calls. Violation found: `go` looks its function up by name in the running module, so it can start another function after an import (C33_go)."
  },
  {
   "property": "C34",
   "status": "partial",
   "theorems": [
    "Dyon.Data.C34_round_trip_partial",
    "Dyon.Data.C34_result",
    "Dyon.Data.C34_matrix",
    "Dyon.Data.C34_matrix_text",
    "Dyon.Data.C34_empty_key"
   ],
   "note": "Every value without NaN or infinity and with non-empty keys, including references; zeros in the last two components of a vector are the same up to their sign. Violations found: an empty key is written in a form that does not load (C34_empty_key); results and matrices do not load. The text of single strings and numbers is external (LawfulText)."
  },
  {
   "property": "C35",
   "status": "proved",
   "theorems": [
    "Dyon.Data.C35_terminates",
    "Dyon.Data.C35_fuel",
    "Dyon.Data.C35_opt_w",
    "Dyon.Data.C35_skips_unique",
    "Dyon.Data.C35_comment"
   ],
   "note": "Every text; comments nested to every depth."
  },
  {
   "property": "C36",
   "status": "partial",
   "theorems": [
    "Dyon.Data.C36_top_level_partial",
    "Dyon.Data.C36_not_in_array"
   ],
   "note": "False of the code: the text of the colour is not consumed, so no array with a colour loads (C36_not_in_array). Proved: a text that starts with a colour loads as that colour."
  },
  {
   "property": "C37",
   "status": "proved",
   "theorems": [
    "Dyon.Text.C37_ink",
    "Dyon.Text.C37_strings_partial",
    "Dyon.Text.C37_line_comment_partial",
    "Dyon.Text.C37_escape",
    "Dyon.Text.C37_joins",
    "Dyon.Text.C37_comment_takes_string"
   ],
   "note": "Every text and tab setting: the characters that are not blank are unchanged, in order; without backslashes the contents of strings are unchanged; the first line comment of a text keeps its blanks, if no strings come before it and no quote is in it (C37_line_comment_partial; for block comments nothing beyond C37_ink is proved). Findings: after an escape sequence blanks in later strings are dropped (C37_escape); separate words may be joined (C37_joins); a string after a line comment is put into the comment (C37_comment_takes_string)."
  },
  {
   "property": "C38",
   "status": "proved",
   "theorems": [
    "Dyon.Syn.C38_executed",
    "Dyon.Syn.C38_checked",
    "Dyon.Syn.C38_same_functions"
   ],
   "note": "Chains of every length, nested to every depth, for every arena of checker nodes that forms trees. The conversion of unary operators and Node::simplify (which drops wrapper nodes with one child) are not modelled."
  },
  {
   "property": "C39",
   "status": "partial",
   "theorems": [
    "Dyon.Syn.C39_round_trip_partial",
    "Dyon.Syn.C39_injective_partial",
    "Dyon.Syn.C39_arith_partial",
    "Dyon.Syn.C39_statement_partial",
    "Dyon.Syn.C39_statement_injective_partial",
    "Dyon.Syn.C39_loop_word",
    "Dyon.Syn.C39_return_compared",
    "Dyon.Syn.C39_neg_of_sum",
    "Dyon.Syn.C39_pow_of_neg",
    "Dyon.Syn.C39_mul_of_neg",
    "Dyon.Syn.C39_not_of_and",
    "Dyon.Syn.C39_chain_of_comparisons",
    "Dyon.Syn.C39_sum_compared",
    "Dyon.Syn.C39_array_first",
    "Dyon.Syn.C39_try_of_sum",
    "Dyon.Syn.C39_array_fill",
    "Dyon.Syn.C39_item_try",
    "Dyon.Syn.C39_labels",
    "Dyon.Syn.C39_closure_currents",
    "Dyon.Syn.C39_empty_block",
    "Dyon.Syn.C39_zero_vector"
   ],
   "note": "For all expressions built from constants, variables with ids, calls, closure calls, arrays, vectors, grab, try, ?, norm and operators whose operands satisfy the stated level conditions, the printed tokens parse back to the expression without link information. C39_statement_partial: the same for statements built from these: assignments, objects, blocks, if with any branches, counting, channel and C-style loops, loop, return, break and continue, nested in any way. The full property is false of the code: the other theorems give different expressions with the same text (negated sums, powers of negations, negated conjunctions, chained comparisons, array fills, labels, current objects, ...), and `return (a, b) == c` is read as a call of a function named return (C39_return_compared). Statements inside of arguments and operators, links, closures and the cutting of characters into tokens are not covered."
  },
  {
   "property": "C40",
   "status": "partial",
   "theorems": [
    "Dyon.Syn.C40_unloop_partial",
    "Dyon.Syn.C40_value",
    "Dyon.Syn.C40_channel_loop",
    "Dyon.Syn.C40_range",
    "Dyon.Syn.C40_property",
    "Dyon.Syn.C40_assigned",
    "Dyon.Syn.C40_closure",
    "Dyon.Syn.C40_call_closure"
   ],
   "note": "C40_unloop_partial: for bodies that do not redeclare or assign the variable and do not use it in closures, the component expressions are the body with the variable replaced by 0, 1, 2, 3 (substitution specified separately). C40_value: for formulas (constants, variables, properties, indices, operators) evaluating the rewritten expression gives the vector of the values the body has with the variable declared, and leaves the state as it was. The other theorems are concrete cases outside the fragment where the rewriting is wrong. Missing: bodies with calls, blocks and loops for the value theorem."
  },
  {
   "property": "C41",
   "status": "partial",
   "theorems": [
    "Dyon.Syn.C41_sound",
    "Dyon.Syn.C41_first_partial",
    "Dyon.Syn.C41_loop",
    "Dyon.Syn.C41_loops",
    "Dyon.Syn.C41_declared_inside",
    "Dyon.Syn.C41_nested_index",
    "Dyon.Syn.C41_own_variable",
    "Dyon.Syn.C41_for_shadows",
    "Dyon.Syn.C41_loop_name_leaks",
    "Dyon.Syn.C41_computed_index",
    "Dyon.Syn.C41_channel_body"
   ],
   "note": "C41_sound holds for every body; C41_first_partial gives the first list in evaluation order for bodies that do not declare their index variables. False of the code in general: lists declared inside the loop are accepted (C41_declared_inside, C41_nested_index, C41_own_variable), a `for` loop declaring the same name is not recognised (C41_for_shadows), and valid lists are missed (C41_loop_name_leaks, C41_computed_index, C41_channel_body)."
  },
  {
   "property": "C42",
   "status": "partial",
   "theorems": [
    "Dyon.C42_eval",
    "Dyon.C42_grab",
    "Dyon.C42_duplicate_key"
   ],
   "note": "Every expression with distinct object keys, every state. Violation found: with a key that occurs twice the folded object has the last value, the evaluated one is an error (C42_duplicate_key)."
  },
  {
   "property": "C43",
   "status": "partial",
   "theorems": [
    "Dyon.C43_round_trip",
    "Dyon.C43_push_pop",
    "Dyon.C43_push_pop_all",
    "Dyon.C43_wrong_kind",
    "Dyon.C43_short_array",
    "Dyon.C43_long_array",
    "Dyon.C43_large_usize",
    "Dyon.C43_obj_field",
    "Dyon.C43_obj_field_ref",
    "Dyon.C43_vec4_f32",
    "Dyon.C43_vec4_f64"
   ],
   "note": "Every host type built from the ones listed. Violations found: popping a fixed array or tuple from a shorter array panics instead of failing (C43_short_array), extra elements are dropped (C43_long_array), integers above 2^53 change (C43_large_usize), obj_field does not follow references (C43_obj_field_ref)."
  },
  {
   "property": "C44",
   "status": "proved",
   "theorems": [
    "Dyon.C44_start",
    "Dyon.C44_no_references",
    "Dyon.C44_param",
    "Dyon.C44_result",
    "Dyon.C44_void_gives_argument",
    "Dyon.C44_void_crashes"
   ],
   "note": "Findings: a thread whose function has no value gives its first argument to join, or crashes without arguments."
  },
  {
   "property": "C45",
   "status": "proved",
   "theorems": [
    "Dyon.Thr.C45_at_most_once",
    "Dyon.Thr.C45_no_handle_left",
    "Dyon.Thr.C45_join_variable",
    "Dyon.Thr.C45_join_value",
    "Dyon.Thr.C45_refused_join_drops",
    "Dyon.Thr.C45_overwrites"
   ],
   "note": "Handles are modelled as the physical copies of the Arc; histories are arbitrary interleavings. Findings: a refused join drops the handle of its variable; joining a variable that is no thread overwrites it."
  },
  {
   "property": "C46",
   "status": "proved",
   "theorems": [
    "Dyon.C46_round_trip",
    "Dyon.C46_none",
    "Dyon.C46_unwrap_error",
    "Dyon.C46_other_kinds"
   ],
   "note": "All values and stacks; the printer used in the error text is a parameter."
  },
  {
   "property": "C47",
   "status": "partial",
   "theorems": [
    "Dyon.C47_entries",
    "Dyon.C47_literal",
    "Dyon.C47_vector_literal",
    "Dyon.C47_components",
    "Dyon.C47_rows",
    "Dyon.C47_columns",
    "Dyon.C47_s",
    "Dyon.C47_rv",
    "Dyon.C47_cv",
    "Dyon.C47_wrong_kind",
    "Dyon.C47_swizzle",
    "Dyon.C47_mov",
    "Dyon.C47_scale",
    "Dyon.C47_ortho",
    "Dyon.C47_mvp"
   ],
   "note": "Violations found: `cv` returns the whole matrix (C47_cv); `s`, `rv`, `cv` panic on arguments of another kind (C47_wrong_kind)."
  },
  {
   "property": "C48",
   "status": "proved",
   "theorems": [
    "Dyon.C48_current",
    "Dyon.C48_missing",
    "Dyon.C48_host"
   ],
   "note": "Closures use the same pushCurrents."
  },
  {
   "property": "C49",
   "status": "proved",
   "theorems": [
    "Dyon.Mod.C49_names",
    "Dyon.Mod.C49_duplicates",
    "Dyon.Mod.C49_call",
    "Dyon.Mod.C49_named"
   ],
   "note": "Every list of declarations. Functions without mutable parameters are not told apart by the number of parameters."
  },
  {
   "property": "C50",
   "status": "proved",
   "theorems": [
    "Dyon.Mod.C50_listing",
    "Dyon.Mod.C50_names",
    "Dyon.Mod.C50_found",
    "Dyon.Mod.C50_of_module",
    "Dyon.Mod.C50_argument",
    "Dyon.Mod.C50_made",
    "Dyon.Mod.C50_types",
    "Dyon.Mod.C50_secret"
   ],
   "note": "`functions()` and `functions(module)`. Every module whose types have a description; a secret of another type crashes the listing (C50_secret)."
  },
  {
   "property": "C51",
   "status": "proved",
   "theorems": [
    "Dyon.Text.C51_json",
    "Dyon.Text.C51_crash"
   ],
   "note": "Every well-nested meta data tree, any depth. Data whose end comes before its start crashes the export (C51_crash)."
  },
  {
   "property": "C52",
   "status": "partial",
   "theorems": [
    "Dyon.Lt.C52_one_of_the_parts_partial",
    "Dyon.Lt.C52_locals",
    "Dyon.Lt.C52_keeps_longest_part"
   ],
   "note": "False of the code: Node::lifetime keeps the longest lifetime among the parts (C52_keeps_longest_part, C52_locals). Proved: the result is the lifetime of one of the parts."
  },
  {
   "property": "C53",
   "status": "partial",
   "theorems": [
    "Dyon.Lt.C53_outlives_sound_partial",
    "Dyon.Lt.C53_siblings_unsound"
   ],
   "note": "Sound when one argument's chain is part of the other's. False for siblings, which the code orders by chain length (C53_siblings_unsound)."
  },
  {
   "property": "C54",
   "status": "partial",
   "theorems": [
    "Dyon.Mod.C54_failed_load_partial",
    "Dyon.Mod.C54_refused_file_is_loaded"
   ],
   "note": "False of the code: the functions of a file that the checker refuses stay in the module (C54_refused_file_is_loaded). Proved: what was there before is kept and behaves as before."
  },
  {
   "property": "C55",
   "status": "partial",
   "theorems": [
    "Dyon.Check.C55_accepted",
    "Dyon.Check.C55_unique",
    "Dyon.Check.C55_complete",
    "Dyon.Check.C55_no_grab",
    "Dyon.Check.Demo.C55_grab_loop",
    "Dyon.Check.Demo.C55_grab_loop_panics"
   ],
   "note": "For every tree of nodes of the checker. C55_accepted: every use in an accepted file is linked to a declaration it means (specification Spec.Means); C55_unique: it means one only; C55_complete: files where every use means a declaration are accepted; C55_no_grab: without grab the declaration is in the same function or closure. The full property is false of the code: a grabbed variable is linked to a loop inside of the closure (C55_grab_loop), and the program panics at run time (C55_grab_loop_panics)."
  },
  {
   "property": "C56",
   "status": "partial",
   "theorems": [
    "Dyon.Check.C56_assign",
    "Dyon.Check.C56_call",
    "Dyon.Check.C56_rejects",
    "Dyon.Check.Demo.C56_insert_accepted",
    "Dyon.Check.Demo.C56_insert_changes"
   ],
   "note": "For every tree of nodes of the checker: accepted files do not assign to arguments without mut and do not pass them as mut arguments, and only such files are refused. The full property is false of the code: `a.x := ..` inserts into the object of an argument without mut and is accepted (C56_insert_accepted); the object of the caller changes (C56_insert_changes)."
  },
  {
   "property": "C57",
   "status": "partial",
   "theorems": [
    "Dyon.Check.C57_declare_partial",
    "Dyon.Check.C57_set_partial",
    "Dyon.Check.C57_property_partial",
    "Dyon.Check.C57_return_partial",
    "Dyon.Check.C57_return_some",
    "Dyon.Check.C57_math_partial",
    "Dyon.Check.C57_block_partial",
    "Dyon.Check.C57_param_partial",
    "Dyon.Check.C57_go",
    "Dyon.Check.C57_void",
    "Dyon.Check.C57_call_args_partial",
    "Dyon.Check.C57_go_host",
    "Dyon.Check.C57_host_param_partial",
    "Dyon.Check.C57_host_call",
    "Dyon.Check.C57_host_call_lives",
    "Dyon.Check.Demo.C57_longest_part",
    "Dyon.Check.Demo.C57_return_longest_part",
    "Dyon.Check.Demo.C57_property_of_argument",
    "Dyon.Check.Demo.C57_swizzle",
    "Dyon.Check.Demo.C57_longest_part_runs",
    "Dyon.Check.Demo.C57_property_of_argument_runs"
   ],
   "note": "For every arena of checker nodes and every nesting of compound expressions and calls: if a value refers to one variable, accepted files store it only in variables that do not outlive it, return it only with an annotation that leads to `return`, do not leave it at the end of its block, pass it only where the lifetime order of the parameters holds, and do not pass references to `go`. The full property is false of the code: only the longest-living part of a compound value is compared (C57_longest_part, C57_return_longest_part; the program runs into a dangling reference, C57_longest_part_runs), `a.x := [b]` for an argument a is compared as a local (C57_property_of_argument), a swizzle argument shifts the positions and panics the checker (C57_swizzle)."
  },
  {
   "property": "C58",
   "status": "partial",
   "theorems": [
    "Dyon.C58_value_partial",
    "Dyon.C58_equal",
    "Dyon.C58_defined",
    "Dyon.C58_link",
    "Dyon.C58_set",
    "Dyon.C58_statement_partial",
    "Dyon.C58_secret_differs",
    "Dyon.C58_bool_panics",
    "Dyon.C58_matrix_number"
   ],
   "note": "For every operator and all values: where the operator and the compound assignment are both defined the results are equal up to the secret, and equal if there are no secrets; C58_statement_partial: the statements `x op= e` and `x = x op e` leave the same state for the types in Compound. The full property is false of the code: the secret is taken from the other operand (C58_secret_differs), booleans panic (C58_bool_panics), matrix and number is an error (C58_matrix_number). `s += s` is undefined behaviour and excluded."
  },
  {
   "property": "C59",
   "status": "partial",
   "theorems": [
    "Dyon.Check.C59_resolved_partial",
    "Dyon.Check.C59_others",
    "Dyon.Check.C59_distinct",
    "Dyon.Check.C59_complete",
    "Dyon.Check.Demo.C59_alias_arity",
    "Dyon.Check.Demo.aliased_extra_argument_panics"
   ],
   "note": "For every tree of nodes of the checker and every module. The full property is false of the code: the number of arguments of a call through an alias is not checked (C59_alias_arity), and the type checker then reads outside of the list of parameters (aliased_extra_argument_panics)."
  },
  {
   "property": "C60",
   "status": "partial",
   "theorems": [
    "Dyon.Check.C60_argument",
    "Dyon.Check.Demo.wrong_argument_rejected",
    "Dyon.Check.Demo.property_argument_accepted",
    "Dyon.Check.Demo.closure_argument_accepted"
   ],
   "note": "For every tree of nodes, every module and every number of rounds, also for arguments given by a swizzle: arguments of calls whose type is known at the end. The code never knows the type of `a.x` (property_argument_accepted) and does not compare the arguments of closure calls (closure_argument_accepted); nothing is claimed for those."
  },
  {
   "property": "C61",
   "status": "partial",
   "theorems": [
    "Dyon.Check.C61_return",
    "Dyon.Check.C61_some_return_partial",
    "Dyon.Check.Demo.wrong_return_rejected",
    "Dyon.Check.Demo.no_return_rejected",
    "Dyon.Check.Demo.missing_return_accepted"
   ],
   "note": "C61_return holds for every tree of nodes. That a result is returned on every path is false of the code: one `return` somewhere is enough (missing_return_accepted)."
  },
  {
   "property": "C62",
   "status": "proved",
   "theorems": [
    "Dyon.Check.C62_if"
   ],
   "note": "For every tree of nodes; the type of the if is that of its first branch (C64_takes)."
  },
  {
   "property": "C63",
   "status": "proved",
   "theorems": [
    "Dyon.Check.C63_unused"
   ],
   "note": "For every tree of nodes."
  },
  {
   "property": "C64",
   "status": "partial",
   "theorems": [
    "Dyon.Check.C64_takes",
    "Dyon.Check.C64_parameter",
    "Dyon.Check.C64_counter",
    "Dyon.Check.C64_host",
    "Dyon.Check.C64_call",
    "Dyon.Check.C64_local",
    "Dyon.Check.C64_go",
    "Dyon.Check.C64_sift",
    "Dyon.Check.C64_refined",
    "Dyon.Check.C64_host_refined",
    "Dyon.Check.C64_overload",
    "Dyon.Check.Demo.reassign_accepted"
   ],
   "note": "For every tree of nodes and every number of rounds. C64_local: if the type of the initial value changes during the propagation to one that does not go with the earlier one, the variable keeps the earlier one. Assignments of another type later are not refused (reassign_accepted). Calls with extra signatures have the type that C06 finds (C64_refined, C64_host_refined, C64_overload) when the arguments are values, parameters, calls without extra signatures or expressions around these; missing for other arguments, whose types can change while the checker runs."
  },
  {
   "property": "C65",
   "status": "proved",
   "theorems": [
    "Dyon.Check.C65_extra",
    "Dyon.Check.C65_accepted"
   ],
   "note": "For every function whose parameters come first among its children, which is how the grammar stores them."
  },
  {
   "property": "C66",
   "status": "partial",
   "theorems": [
    "Dyon.Check.C66_accepted_iff",
    "Dyon.Check.C66_others",
    "Dyon.Check.C66_host_fails",
    "Dyon.Check.Demo.C66_host_accepted"
   ],
   "note": "Acceptance is an equivalence, for every tree of nodes and every module. That an accepted `in` works when it is executed is false of the code: `in` with a function of the host is accepted (C66_host_accepted) and is an error in every state (C66_host_fails). For functions of the file or of imported modules see C22_subscribe."
  },
  {
   "property": "C67",
   "status": "proved",
   "theorems": [
    "Dyon.Data.C67_load_iff",
    "Dyon.Data.C67_unambiguous",
    "Dyon.Data.C67_last_entry",
    "Dyon.Data.C67_keys_once"
   ],
   "note": "For every text. Single string and number tokens, colours and Unicode classes are external (Lex, LawfulText). That the text of a colour is not skipped (C36) is part of the grammar."
  },
  {
   "property": "C68",
   "status": "partial",
   "theorems": [
    "Dyon.Front.C68_expression",
    "Dyon.Front.C68_functions",
    "Dyon.Front.C68_no_panic",
    "Dyon.Front.C68_total",
    "Dyon.Front.C68_paren",
    "Dyon.Front.C68_mut_names",
    "Dyon.Front.C68_words_dropped",
    "Dyon.Front.C76_file",
    "Dyon.Front.C68_go_alias"
   ],
   "note": "For every grouped text (type FnSrc, read off the rules of assets/syntax.txt) the conversion of the reports of the grammar is the program given by the specification Spec.fn. C76_file: the same for whole files with namespace and imports. Outside of the model: that piston_meta groups a text in this way and reports these nodes (trusted, see DESIGN.md). The full property is false of the code for calls of closures with words: the words are dropped if the last property is not a name (C68_words_dropped); and for `go al::f(..)`, whose alias is dropped (C68_go_alias)."
  },
  {
   "property": "C69",
   "status": "partial",
   "theorems": [
    "Dyon.Plain.C69_variables_exist_partial",
    "Dyon.Plain.C69_session_partial",
    "Dyon.Plain.RunDemo.C69_own_count_stops",
    "Dyon.Plain.RunDemo.C69_no_result_stops",
    "Dyon.Plain.RunDemo.C69_grab_loop_stops",
    "Dyon.Plain.RunDemo.C69_list_inside_stops",
    "Dyon.Check.C69_scopes_partial",
    "Dyon.Check.C69_stored_partial",
    "Dyon.Check.TextDemo.C69_own_range_accepted",
    "Dyon.Check.TextDemo.C69_own_count_accepted",
    "Dyon.Check.TextDemo.C69_own_range_panics",
    "Dyon.Check.TextDemo.C69_call_declares",
    "Dyon.Check.TextDemo.C69_high_grab",
    "Dyon.Check.TextDemo.C69_mut_closure_panics",
    "Dyon.Check.TextDemo.C69_low_grab"
   ],
   "note": "For every grouped text of functions (FnSrc) of which the checker can make nodes, and every order in which the nodes may be stored: accepted exactly if the text respects the scopes written down in Check/Text.lean. C69_variables_exist_partial, C69_session_partial: a program of any number of modules, each made of any functions of the host, files with namespaces and imports, and other modules (Front/Load.lean), whose files the checker accepts, and which is plain (Front/Plain.lean), never gets to a variable that is not there, in every run and every sequence of calls by the host; from the text through conversion, lookup of callees and slots to the run. In general this is false of the code: the loop variable counts as declared in the range of its own loop (C69_own_range_accepted, C69_own_count_accepted; running it panics, C69_own_range_panics), the name of a called function on the left of := counts as a variable (C69_call_declares), an argument may be grabbed with too high a level (C69_high_grab), a closure may grab the variable of its own loop (C69_grab_loop_stops), `return` may be read in a function without result (C69_no_result_stops). a loop without a range may be one over a list that is declared inside of it (C69_list_inside_stops). Loops with an inferred range from outside (`for i { a[i] }`) are plain. Missing: programs that are not plain for other reasons, such as conditions on arguments and declarations inside expressions, a characterisation of the texts of which no nodes can be made (examples: C69_mut_closure_panics, C69_low_grab)."
  },
  {
   "property": "C70",
   "status": "partial",
   "theorems": [
    "Dyon.Check.C70_ends_partial",
    "Dyon.Check.C70_text_partial",
    "Dyon.Check.EndDemo.C70_endless"
   ],
   "note": "For every file of functions, in every order in which nodes may be stored, and every set of host functions: the propagation of types ends if no left side of an assignment is followed by `?`. The full property is false of the code: on `fn foo(x) -> any { true }  (f64) -> opt  fn main(a: f64) { (x)? := foo(a) }`, which every earlier check accepts, the rounds come back to the same state every three rounds (C70_endless), so that loading does not return. Missing: the left sides with `?` on which it ends."
  },
  {
   "property": "C71",
   "status": "partial",
   "theorems": [
    "Dyon.C71_call_ret",
    "Dyon.C71_call",
    "Dyon.C71_refused",
    "Dyon.C71_other_kinds",
    "Dyon.C71_locked",
    "Dyon.C71_from_host",
    "Dyon.C71_contract",
    "Dyon.C71_run",
    "Dyon.Demo.C71_deadlock"
   ],
   "note": "For every program, state and nesting. C71_call_ret, C71_call: the same result and state as the call written in that module; C71_refused: errors; C71_contract, C71_run: host functions with these calls keep the contract of host functions, so the theorems about runs (C23, C24, ..) hold for programs that use them. The last sentence of the property is false of the code: the value of the module is locked during the call, and a call through the same value inside of it waits for ever (C71_locked; a program that does so, C71_deadlock). Called by the host while no Dyon function runs, both functions crash (C71_from_host)."
  },
  {
   "property": "C72",
   "status": "proved",
   "theorems": [
    "Dyon.C72_trim",
    "Dyon.C72_parse_number",
    "Dyon.C72_chars",
    "Dyon.C72_keys",
    "Dyon.C72_typeof",
    "Dyon.C72_is_nan",
    "Dyon.C72_other_kinds",
    "Dyon.C72_color"
   ],
   "note": "For every stack, value and text. Which characters are white space, reading a number from a text and the arithmetic of one colour component (with the law that it gives at most 255) are parameters."
  },
  {
   "property": "C73",
   "status": "partial",
   "theorems": [
    "Dyon.C73_args",
    "Dyon.C73_args_all",
    "Dyon.C73_param",
    "Dyon.C73_run_ret",
    "Dyon.C73_value",
    "Dyon.C73_wrong_kind",
    "Dyon.C73_vec4",
    "Dyon.C73_run",
    "Dyon.C73_no_result",
    "Dyon.C73_fails",
    "Dyon.C73_again",
    "Dyon.C73_unknown",
    "Dyon.C73_run_host_function",
    "Dyon.C73_missing_crashes",
    "Dyon.Demo.C73_few_arguments",
    "Dyon.Demo.C73_returned_argument",
    "Dyon.Demo.C73_run_again",
    "Dyon.Demo.C73_run_again_crash",
    "Dyon.Demo.C73_stale_current"
   ],
   "note": "For every program, state and host type; the called function has no current objects and no listeners (for current objects see C29, for listeners C66). Violations found: the number of arguments is not checked, and missing arguments shift the parameters (C73_few_arguments); a function that returns its argument crashes the host (C73_returned_argument); so does one that gives no result although it should (C73_missing_crashes); `run` does not find functions of the host (C73_run_host_function); after a failed `run` the next `run` runs another function or crashes (C73_run_again, C73_run_again_crash); current objects of a failed call are found by later calls (C73_stale_current)."
  },
  {
   "property": "C74",
   "status": "partial",
   "theorems": [
    "Dyon.C74_call",
    "Dyon.C74_call_void",
    "Dyon.C74_bad_value",
    "Dyon.C74_wrong_kind",
    "Dyon.C74_wrong_object",
    "Dyon.C74_same_object",
    "Dyon.C74_keeps",
    "Dyon.C74_struct",
    "Dyon.C74_struct_fields",
    "Dyon.C74_struct_of_object",
    "Dyon.C74_struct_missing",
    "Dyon.C74_struct_wrong"
   ],
   "note": "For every list of parameters and every struct with any conversions of its fields; values are those the conversions keep (C43). Locks held by other threads and poisoned locks are left out. The last sentence is false of the code: the locks on the objects of the host are kept until the function ends, so a call with the same object for two parameters waits for ever (C74_same_object). Fields that hold references are not looked up (C43_obj_field_ref)."
  },
  {
   "property": "C75",
   "status": "partial",
   "theorems": [
    "Dyon.Mod.C75_module",
    "Dyon.Mod.C75_load",
    "Dyon.Mod.C75_like_host",
    "Dyon.Mod.C75_refused",
    "Dyon.Mod.C75_bad_import",
    "Dyon.Mod.C75_flag_crash"
   ],
   "note": "For every history of modules and every text; reading files, the grammar, the conversion and the checker are parameters here (see C68, C69). C75_like_host: the new module is one a host could have made, so C32, C33, C50, C54 hold of it. The last clause is false of the code: a flag `tr` or `usetr` that is not a boolean crashes the program (C75_flag_crash; the checker lets values of unknown type through)."
  },
  {
   "property": "C76",
   "status": "proved",
   "theorems": [
    "Dyon.Mod.C76_imported",
    "Dyon.Front.C76_file",
    "Dyon.Front.C76_linked",
    "Dyon.Front.C76_written",
    "Dyon.Front.C76_load_keeps",
    "Dyon.Front.C76_loads",
    "Dyon.Front.LoadDemo.C76_empty_list",
    "Dyon.Front.LoadDemo.C76_first_last",
    "Dyon.Front.LoadDemo.C76_alias_all_arguments"
   ],
   "note": "For every way to make a module from functions of the host, files, `import`, `import_tr_prelude` and `make_transitive`, and every file. The functions that run are those of Eval (same as in C24, C69). Trusted as in C68: the reports of the grammar. Surprises that follow: `use a::{} as x` imports everything (C76_empty_list); with an alias the first of several functions of a name is called, without it the last, and with an alias functions of the host come first, without it functions of files (C76_first_last); functions of the host that need not get all arguments get them all through an alias (C76_alias_all_arguments)."
  },
  {
   "property": "C77",
   "status": "proved",
   "theorems": [
    "Dyon.C77_expr",
    "Dyon.C77_call",
    "Dyon.C77_closure",
    "Dyon.C77_plain"
   ],
   "note": "For every program over functions of the host that keep to what they can reach (ExtLocal; proved of the standard library, extLocal_std) in slot mode (the mode that runs). What closures can reach is over-approximated by what any closure value made so far can reach. The lifetime of values is not part of the statement: references to slots that are gone count as references to whatever is in the slot."
  },
  {
   "property": "C78",
   "status": "partial",
   "theorems": [
    "Dyon.Check.C78_accepted_iff",
    "Dyon.Check.C78_refused",
    "Dyon.Check.RangeDemo.C78_second_range",
    "Dyon.Check.RangeDemo.C78_local_list",
    "Dyon.Check.RangeDemo.C78_behind_sum"
   ],
   "note": "The check is characterised for every arena whose variables have declarations. The last sentence is false of the code: one written range makes the check skip the other variables of the loop (C78_second_range) and loops that index behind a computed index pass (C78_behind_sum), and both then fail to convert without a message; a list that is declared in the loop passes, and the loop panics when it runs (C78_local_list)."
  },
  {
   "property": "C79",
   "status": "partial",
   "theorems": [
    "Dyon.C79_decided",
    "Dyon.C79_operator_accepted_partial",
    "Dyon.C79_operator_refused_partial",
    "Dyon.C79_unary_accepted_partial",
    "Dyon.C79_unary_refused_partial",
    "Dyon.C79_lazy",
    "Dyon.C79_library_result_partial",
    "Dyon.C79_library_more",
    "Dyon.C79_library_sure",
    "Dyon.C79_library_more_sure",
    "Dyon.SigsDemo.C79_cv",
    "Dyon.SigsDemo.C79_option_links",
    "Dyon.SigsDemo.C79_option_mixed",
    "Dyon.SigsDemo.C79_named_secret",
    "Dyon.SigsDemo.C79_void_arrays"
   ],
   "note": "Operators: types without named types; accepted operators without == and != of two options, refused ones without arrays and options of nothing. In general false of the code: `some(a) == some(b)` passes the checker whatever the contents are and fails for links and for contents of different kinds (C79_option_links, C79_option_mixed); a named number compared to a number gets the type sec[bool] without a secret (C79_named_secret); `cv` returns a matrix where it is declared to return a vector (C79_cv). Library: the functions modelled in Builtin/Stack.lean and Builtin/Text.lean (enumerated by LibFn and MoreFn); those with external arithmetic (sin, ..), input and output, and threads are not in it."
  },
  {
   "property": "C80",
   "status": "proved",
   "theorems": [
    "Dyon.C80_expr",
    "Dyon.C80_call",
    "Dyon.C80_closure",
    "Dyon.C80_plain",
    "Dyon.C80_text",
    "Dyon.C80_library",
    "Dyon.Demo.C80_mark_matters"
   ],
   "note": "For every program over functions of the host that keep to what they can reach and do not look beyond it (ExtLocal, ExtBlind; proved of the standard library, C80_library, whose `unwrap` prints with the modelled `write_variable`), in slot mode. The two states agree in everything but the values of slots that cannot be reached, so the callers are the same and only their variables differ. That marks of results still to come must agree is necessary (C80_mark_matters: `?` in a function without `->` takes the mark of its caller for its own)."
  },
  {
   "property": "C81",
   "status": "partial",
   "theorems": [
    "Dyon.Sound.Small.C81_text_partial",
    "Dyon.Sound.Small.body_typed",
    "Dyon.Sound.C81_runs_partial",
    "Dyon.Sound.C81_calls_partial",
    "Dyon.Sound.C81_main_partial",
    "Dyon.Sound.C81_checked_partial",
    "Dyon.Sound.C81_result_partial",
    "Dyon.Sound.honest_binop",
    "Dyon.Sound.honest_unop",
    "Dyon.Sound.gives_binop",
    "Dyon.Sound.gives_unop",
    "Dyon.Sound.Lost.C81_reference_lost",
    "Dyon.Sound.Wrong.C81_types_lost",
    "Dyon.Sound.Unchecked.C81_unchecked"
   ],
   "note": "Proved of functions with types without parts (f64, bool, str, vec4, mat4, link) whose statements are declarations `x := e`, assignments to such variables with all operators, if / else if / else, blocks, counting loops, `for` and `loop` with labelled break and continue, calls of functions that give nothing, and `return` on every way to the end or a value at the end, with expressions of literals (vec4, mat4 and links included), variables, calls, operators, if-else and the loops with a result (sum, prod, min, max, any, all, and the sums and products of vectors, with one expression as body): what is typed by the rules of Sound/Typing.lean runs, called by the host for a value (C81_runs_partial) or not (C81_calls_partial), or as a program with main (C81_main_partial). C81_text_partial joins both sides for functions whose body is a row of declarations and early returns `if c { return e }`, and a `return`: a file of such functions, with local declarations, redeclarations and early returns, that is loaded and that the checks of variables, calls, lifetimes and types accept, with functions of the host that keep to their declarations, runs: every call with arguments of the declared types gives a value of the declared type or does not end. It assumes that declarations are stored before the statements after them (InOrder), which the order of node.rs:196-225 gives (arena_inOrder) and on which the check itself relies (typecheck.rs:337). Missing: in C81_text_partial other statements; in both link and sift loops, loops over channels, assignments to parameters, arrays, objects, options, closures, named types. On the side of the checks: in an accepted file the nodes of such expressions, parameters and declared variables included, have a type by rules of the same form (C81_checked_partial), the declared one where they are returned (C81_result_partial). In general the property is false of the code, by accepted files: `return x && y` of two arguments gives a reference to a slot that is gone, and using it panics (C81_reference_lost); `!true` is typed sec[bool], an `if` of a sec[f64] and an f64 is typed sec[f64], and the last expression of a function with a `return` is not checked (C81_types_lost); assignments with other operators than += and -=, rows of matrices, bodies and ranges of loops and items of links are not compared with anything, so that accepted functions stop with errors about types or panic (C81_unchecked)."
  },
  {
   "property": "C82",
   "status": "partial",
   "theorems": [
    "Dyon.Check.C82_file_partial",
    "Dyon.Check.C82_message_partial",
    "Dyon.Check.C82_proposes",
    "Dyon.Check.C82_panics_iff",
    "Dyon.Check.C82_plain",
    "Dyon.Check.SuggestDemo.C82_last_letter",
    "Dyon.Check.SuggestDemo.C82_report_panics"
   ],
   "note": "For every file, call and set of names in any order. The message is proved to be as stated for names without `mut` arguments, and for others if what is looked for is in ASCII. False of the code: with a `mut` argument the last character of the name is not looked at, so more functions are proposed (C82_last_letter), and a name that is not in ASCII can make the checker panic (C82_panics_iff says exactly when; C82_report_panics: `fn main(x) { éé(mut x) }`). The messages for names behind `in` are not stated."
  },
  {
   "property": "C83",
   "status": "proved",
   "theorems": [
    "Dyon.Check.C83_add_assign",
    "Dyon.Check.C83_number",
    "Dyon.Check.C83_swizzle",
    "Dyon.Check.C83_grab",
    "Dyon.Check.C83_go",
    "Dyon.Check.Demo.add_refused",
    "Dyon.Check.Demo.add_plain_accepted",
    "Dyon.Check.Demo.number_refused",
    "Dyon.Check.Demo.go_refused",
    "Dyon.Check.Demo.swizzle_refused"
   ],
   "note": "For every tree of nodes and every number of rounds. `Spec.Adds` says what may be added. As stated, plain types are not compared: `x += \"s\"` of a number is accepted (add_plain_accepted) and fails at run time."
  },
  {
   "property": "C84",
   "status": "partial",
   "theorems": [
    "Dyon.File.C84_save_string",
    "Dyon.File.C84_load_string",
    "Dyon.File.C84_string_back",
    "Dyon.File.C84_save_data_partial",
    "Dyon.File.C84_data_back_partial",
    "Dyon.File.C84_meta",
    "Dyon.File.C84_lost",
    "Dyon.File.C84_old_contents_lost"
   ],
   "note": "For every text, data value and behaviour of the system. Texts are as stated. For data the first sentence is false of the code: the last part is written when the buffer is dropped, where errors are ignored, so that on a full disk `ok` is given and the file is empty (C84_lost); proved is that at most a buffer is missing, and that nothing is if no write fails. A file that cannot be created is a run-time error for data, not an error value (first part of C84_save_data_partial). What was in the file before is lost when a write fails (C84_old_contents_lost)."
  },
  {
   "property": "C85",
   "status": "partial",
   "theorems": [
    "Dyon.Draw.C85_drawn",
    "Dyon.Draw.C85_drawn_all",
    "Dyon.Draw.C85_moves",
    "Dyon.Draw.C85_moves_at",
    "Dyon.Draw.C85_fixed",
    "Dyon.Draw.C85_distances",
    "Dyon.Draw.C85_order",
    "Dyon.Draw.C85_idle",
    "Dyon.Draw.C85_font",
    "Dyon.Draw.C85_no_panic_partial",
    "Dyon.Draw.C85_texture_panics",
    "Dyon.Draw.C85_short_panics"
   ],
   "note": "For every sequence of calls of functions of graphics2d.dyon and every list. What the moves do to points is proved of their formulas with exact arithmetic (C85_moves, C85_moves_at); the program computes the same formulas with rounding. The last sentence is false of the code: an empty entry or one that is too short panics (C85_short_panics), and so does an image with the number of a texture that is not there (C85_texture_panics), unlike a text with such a font (C85_font); proved for lists without these (C85_no_panic_partial). What the crate graphics does with the calls is not modelled."
  },
  {
   "property": "C86",
   "status": "partial",
   "theorems": [
    "Dyon.Draw.C86_set",
    "Dyon.Draw.C86_set_outside",
    "Dyon.Draw.C86_get",
    "Dyon.Draw.C86_get_outside",
    "Dyon.Draw.C86_back",
    "Dyon.Draw.C86_image_size",
    "Dyon.Draw.C86_position",
    "Dyon.Draw.C86_create",
    "Dyon.Draw.C86_load",
    "Dyon.Draw.C86_never_vec4",
    "Dyon.Draw.C86_below_zero",
    "Dyon.Draw.C86_create_panics"
   ],
   "note": "For every world of images. Two sentences are false of the code: reading a pixel is declared to give a vec4 but gives a result `ok(color)`, or `err(..)` outside (C86_get, C86_get_outside, C86_never_vec4), so that an accepted program that uses the vector fails; a position below zero is taken for the first column or row instead of being an error (C86_below_zero). A size too large for memory addresses panics (C86_create_panics). The steps of 1/255 are those of the external arithmetic of f32."
  },
  {
   "property": "C87",
   "status": "partial",
   "theorems": [
    "Dyon.Color.C87_host",
    "Dyon.Color.C87_near",
    "Dyon.Color.C87_order",
    "Dyon.Color.C87_doubles",
    "Dyon.Color.C87_whole_partial",
    "Dyon.Color.C87_whole_lost",
    "Dyon.Color.C87_literal",
    "Dyon.Color.C87_stable",
    "Dyon.Color.C87_copy",
    "Dyon.Color.C87_pixel"
   ],
   "note": "For all bytes, all vectors and all bit patterns of components. Single precision is modelled: results are rounded to the nearest number, ties to even (Color/Float.lean, where `nearest` and `ties_even` show this for all exact values); that the hardware does so, and that read_color reads pairs of hexadecimal digits, are hypotheses (classes Single and Colors, with instances in Color/Demo.lean). One sentence is false of the code: whole numbers above 2^24 are not given back (C87_whole_lost). Colours in data files are C36. For the conversions between sRGB and linear colours see C97."
  },
  {
   "property": "C88",
   "status": "partial",
   "theorems": [
    "Dyon.Observe.C88_delivered",
    "Dyon.Observe.C88_knows",
    "Dyon.Observe.C88_once",
    "Dyon.Observe.C88_queue",
    "Dyon.Observe.C88_order",
    "Dyon.Observe.C88_past",
    "Dyon.Observe.C88_flag",
    "Dyon.Observe.C88_forget",
    "Dyon.Observe.C88_calls_go_on",
    "Dyon.Observe.C88_receivers",
    "Dyon.Observe.C88_wait_some",
    "Dyon.Observe.C88_wait_forever",
    "Dyon.Observe.C88_next_waits"
   ],
   "note": "For every history: any number of threads and channels, any interleaving of single operations on the lock, the flag, the list of senders and the channels, where reads of the flag may give old values (relaxed ordering). One sentence is false of the code: a thread inside `next` waits for as long as another thread waits in `wait_next` on the same channel, since both lock the receiver (C88_wait_forever, C88_next_waits); and since the function keeps the sender, `wait_next` never gives none() and waits forever if there are no more calls. Trusted: reads give no value that is not yet written, locks and messages pass on what is known, std::sync::mpsc is a queue, and the module stays loaded."
  },
  {
   "property": "C89",
   "status": "partial",
   "theorems": [
    "Dyon.Console.C89_print",
    "Dyon.Console.C89_println",
    "Dyon.Console.C89_eprint",
    "Dyon.Console.C89_print_ends",
    "Dyon.Console.C89_text",
    "Dyon.Console.C89_read_line",
    "Dyon.Console.C89_end",
    "Dyon.Console.C89_read_fails",
    "Dyon.Console.C89_number",
    "Dyon.Console.C89_number_ends",
    "Dyon.Console.C89_number_line",
    "Dyon.Console.C89_history",
    "Dyon.Console.C89_number_endless",
    "Dyon.Console.C89_message_panics",
    "Dyon.Console.C89_closed_panics",
    "Dyon.Console.C89_read_panics"
   ],
   "note": "For every terminal, system and sequence of calls. The last sentence is false of the code: at the end of the input `read_number` does not end and prints its message again and again (C89_number_endless; C89_number_ends says exactly when it ends); a message that is not a text crashes (C89_message_panics), and so do printing and reading when the output is closed (C89_closed_panics, C89_read_panics). Errors of reading are errors of the program (C89_read_fails). The text of a value is that of Data/Write.lean, where the text of numbers is external."
  },
  {
   "property": "C90",
   "status": "partial",
   "theorems": [
    "Dyon.Mod.C90_check",
    "Dyon.Mod.C90_tree",
    "Dyon.Mod.C90_faithful",
    "Dyon.Mod.C90_secret_panics",
    "Dyon.Mod.C90_flag_panics"
   ],
   "note": "For every text, imports and outcome of the parser and checker. The last sentence is false of the code: a node whose type is a secret of something other than `bool` or `f64` crashes (C90_secret_panics), and so does a flag that is not a boolean (C90_flag_panics). Parsing and checking are a parameter: what the checker does to the nodes is in Check/; that nodes form a tree is a hypothesis of C90_tree, and C90_faithful gives back types only as their text."
  },
  {
   "property": "C91",
   "status": "partial",
   "theorems": [
    "Dyon.Mod.C91_load",
    "Dyon.Mod.C91_refused",
    "Dyon.Mod.C91_argument",
    "Dyon.Mod.C91_same_partial",
    "Dyon.Mod.C91_unreadable_panics",
    "Dyon.Mod.C91_lookup_bypassed"
   ],
   "note": "For every disk, lookup, path and running module. The last sentence is false of the code: a file that can be opened and not read as a text crashes with `load(path)` (C91_unreadable_panics), and the form with imports does not ask the lookup of the host and reads files even without support for files (C91_lookup_bypassed). C91_same_partial: for all other paths both forms do the same with the standard lookup. Parsing, conversion and checking are a parameter."
  },
  {
   "property": "C92",
   "status": "partial",
   "theorems": [
    "Dyon.File.C92_text",
    "Dyon.File.C92_download",
    "Dyon.File.C92_back",
    "Dyon.File.C92_meta",
    "Dyon.File.C92_old_contents_lost"
   ],
   "note": "For every network, disk and system. The last sentence is false of the code: a download that breaks off leaves the first bytes of the body in the file (C92_old_contents_lost; C92_download says what is in the file in all cases). The library for requests is external: which answers and failures there are is a parameter about which nothing is assumed. Built with the features `file` and `http`."
  },
  {
   "property": "C93",
   "status": "proved",
   "theorems": [
    "Dyon.Wait.C93_sleep"
   ],
   "note": "For every number. That `f64::fract` is exact and a product is a number nearest to the exact one, as IEEE-754 says, is a hypothesis (Spec.Ieee), shown to hold of some operations. The duration given to the system is modelled; how long the system really waits is not."
  },
  {
   "property": "C94",
   "status": "proved",
   "theorems": [
    "Dyon.Wait.C94_monotone",
    "Dyon.Wait.C94_accurate"
   ],
   "note": "For every time of the clock in these ranges. That quotient and sum are numbers nearest to the exact ones and depend on these only, as IEEE-754 says, is a hypothesis (Spec.Rounds), shown to hold of some operations. The clock is a parameter."
  },
  {
   "property": "C95",
   "status": "proved",
   "theorems": [
    "Dyon.File.C95_meta",
    "Dyon.File.C95_argument",
    "Dyon.File.C95_like_files",
    "Dyon.File.C95_like_web"
   ],
   "note": "For every parser: the library for grammars is external and a parameter. The lock of the Rust object is left out."
  },
  {
   "property": "C96",
   "status": "proved",
   "theorems": [
    "Dyon.File.C96_texts",
    "Dyon.File.C96_invalid",
    "Dyon.File.C96_faithful"
   ],
   "note": "For Unix, where arguments are bytes. On Windows, where they are 16-bit units, decoding is not modelled."
  },
  {
   "property": "C97",
   "status": "partial",
   "theorems": [
    "Dyon.Color.C97_parts",
    "Dyon.Color.C97_linear_order",
    "Dyon.Color.C97_linear_order_partial",
    "Dyon.Color.C97_srgb_order_partial",
    "Dyon.Color.C97_srgb_bright_order_partial",
    "Dyon.Color.C97_order_lost",
    "Dyon.Color.C97_dark_bytes_partial",
    "Dyon.Color.C97_white_linear",
    "Dyon.Color.C97_white_lost"
   ],
   "note": "Alpha and the separate components: for all vectors. C97_linear_order: for all finite components up to 1, of any sign, if powf keeps the order and is right to two units in the last place just above the limit (Spec.Powers, Spec.Sums); C97_linear_order_partial and C97_srgb_order_partial: for dark components, whatever powf does; C97_srgb_bright_order_partial: the conversion to sRGB for components above the limit. Bytes: those up to 10, which are all the dark ones, come back bit for bit; missing are the others, which depend on the external powf. Two sentences are false of the code: the number after the limit 0.0031308 becomes darker than the limit by the conversion to sRGB (C97_order_lost), and white linear light is converted to a colour that is shown as #fefefe, since 1.055 - 0.055 is less than 1 in single precision (C97_white_lost)."
  },
  {
   "property": "C98",
   "status": "partial",
   "theorems": [
    "Dyon.Link.C98_never_freed_early",
    "Dyon.Link.C98_links",
    "Dyon.Link.C98_freed_partial",
    "Dyon.Link.C98_leak",
    "Dyon.Link.C98_leak_link"
   ],
   "note": "For every history of blocks where writes are at most one entry behind the filled ones, as by all operations on links (C98_links, for every history of links). The last clause is false of the code: a filled entry that is written again loses its string without giving back the reference, so that the string is never freed (C98_leak; links do this after neck, C98_leak_link); proved is that the counts are exact if no filled entry is written again (C98_freed_partial). Strings are told apart by their contents; the references of variables are left out."
  }
 ]
}