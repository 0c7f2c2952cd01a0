# Formal model of dyon in Lean 4

## Approach

The Rust sources are modelled function by function as total, computable Lean
definitions. Every definition cites the file and lines it models and says where
it simplifies. Property theorems (`C01_…`, `C02_…`, …) are in files apart from
the model; helper lemmas come before them or in `…Lemmas.lean`. The
specification a theorem is stated against is a small separate definition
(`Spec`, an inductive relation, or an operation on plain lists). Beside the
theorems there are `example`s of non-trivial cases that meet the hypotheses.

* `&mut` arguments become returned values. Panics, error messages and
  non-termination are explicit outcomes, never default values.
* `Arc` and copy-on-write: values are immutable in the model where only
  `Arc::make_mut` is used. Where sharing is the property (links, thread
  handles) the model has an explicit heap with reference counts or counts the
  copies.
* The evaluator `eval c fuel e side` (Eval/Eval.lean) takes fuel. Running out
  of fuel is the outcome `running`; theorems hold for every fuel, and
  Eval/Mono.lean proves that more fuel does not change a finished run.
* Where the code violates a property, the violation is proved on a concrete
  program or value, the property is `partial`, and the strongest true part is
  proved with the exact hypothesis that excludes the violation.
* `_partial` in the name of a theorem means that the theorem is weaker than
  the sentence in properties.jsonl.

## Trusted base

* The kernel of Lean 4.33. No `sorry`, no `native_decide`, no `bv_decide`, no
  axioms of our own; theorems depend on at most `propext`, `Classical.choice`
  and `Quot.sound` (list at the end). `decide +kernel` is used for concrete
  witnesses only; it is evaluation by the kernel.
* The reading of the Rust code into the definitions of the model.
* The following parameters (type classes or explicit arguments). The theorems
  hold for every choice of them that has the stated laws.

| Parameter | Stands for | Laws used |
|---|---|---|
| `F64 := BitVec 64`, `F32 := BitVec 32` (Float.lean) | IEEE numbers as bit patterns; comparison, negation, integer conversion and truncation are defined on the bits | none, they are definitions |
| `class FloatOps` (Float.lean) | rounded arithmetic, `sin`, `sqrt`, …, conversion f32/f64 | `add_exact`: `n + 1.0` is exact for integers below 2^53 |
| `class LawfulF32` | conversion f32 → f64 → f32 | it gives the number back if it is not NaN |
| `class VecMath` (Builtin/Ops.lean) | sums, products and lengths of the crate vecmath | none |
| `class Lex` (Data/Load.lean) | character classes of `char`, tokens of the crate read_token, colours of read_color | ASCII characters have their usual class, no character is both white space and alphanumeric, a token is a non-empty prefix of the text |
| `class Show`, `LawfulText` (Data/Write.lean, RoundTrip.lean) | printing a number or a string literal | what is printed is read back by `Lex` and does not run into the following character |
| `External` functions of the host (Eval/State.lean) | any function registered by the host | results are arbitrary; only functions of dyon_std are modelled |
| `TextOps` (Builtin/Text.lean) | `str::parse::<f64>`, `f32` arithmetic of a colour component | a component gives at most 255 |
| `Os` (File/Model.lean) | the operating system during one call on a file: errors, and after how many bytes each write fails | none; `File`, `BufWriter` and UTF-8 are as in Rust's and Lean's standard libraries, and no other program changes the files |
| `Gfx`, `Env` (Draw/Model.lean) | products of matrices and ready-made draw states of the crate graphics; which fonts, textures and glyphs there are | none |
| `class Single` (Color/Model.lean) | the hardware's `*`, `/` on `f32` and conversions from and to `f64` | IEEE-754: finite results are rounded to the nearest number, ties to even (`F32.round`); used in C87 |
| `Spec.Sums`, `Spec.Powers` (Color/SrgbProps.lean) | the hardware's `+`, `-` on `f32`, `powf` | sums and differences are rounded to the nearest number; powers of 1 are 1; `powf` keeps the order and is not off by more than a few units in the last place at two given numbers; used in C97 |
| `class Colors` (Color/Model.lean) | the crate read_color | three or four pairs of hexadecimal digits are read as their bytes; `TextOps` and `Lex` do their arithmetic on colours in `f32`; used in C87 |
| `Sys`, `Term` (Console/Model.lean) | `std::io::{stdin, stdout, stderr}` | text printed to the output is shown at the latest when its line is complete or it is flushed; `read_line` gives the text up to the next line break; each operation may fail |
| steps of `advance` (Channel/Model.lean) | `std::sync::{Mutex, mpsc, atomic}` | a relaxed read gives some value written so far that is not older than one the thread knows of, locks and other synchronisation pass on what is known, locks and channels are otherwise atomic; a channel is a queue, `send` fails exactly if the receiver is gone, `recv` waits while the queue is empty and a sender is left; used in C88 |
| `class Trig` (Draw/Moves.lean) | `f64::cos`, `f64::sin` | nothing is assumed; used in C85_drawn_all |
| `opened` (Draw/Pixels.lean) | what the crate image reads from a file | in C86_load: as many pixels as its size says |
| arrival of messages (Eval/ChanProps.lean) | other threads | any function of time |
| order of iteration of `HashMap` | objects are association lists in some order | theorems about objects do not depend on the order unless they say so |

* piston_meta (parsing of text to meta data by the grammar
  `assets/syntax.txt`) is not modelled: the model starts from the reports of the grammar (`Cst`,
  Front/Tree.lean; what is reported for which text is stated in Front/Source.lean
  from the rules), from the syntax tree
  (`Expr`, Eval/Ast.lean) and from the nodes of the checker (`Nodes`,
  Check/Node.lean). For C39 a small reference parser of the grammar of expressions
  and statements is part of the specification (Syntax/Parse.lean, Syntax/ParseStmt.lean).
* tree_mem_sort (the crate that puts the nodes of the checker in an order
  where parents come first) is not modelled: theorems about the checker hold
  for every list of nodes that forms trees. C81_text_partial asks in addition
  that declarations are stored before the statements after them (`InOrder`,
  Check/LayoutOrder.lean), as in the order in which nodes are pushed.
* `ECfg.lost` (Eval/State.lean) is not in the code: it replaces what happens at a variable that is not
  there by a panic with a chosen message, to state that no run gets there (C69); with `none`, which all
  other theorems allow, the model does what the code does.
* `Arc`, `Mutex`, `mpsc` and `std::thread` behave as documented.

## What is modelled

| Source | Model | Not modelled |
|---|---|---|
| src/lib.rs | Value.lean, Types, Module/Model.lean (`PartialEq` in Builtin/Ops.lean) | loading files from disk, error positions in messages |
| src/link.rs | Link/Model.lean (bits, blocks), Link/Heap.lean (sharing), Link/Strings.lean (references to strings) | unsafe memory layout |
| src/vec4.rs, src/mat4.rs | Builtin/Stack.lean, Builtin/VecProps.lean | |
| src/ty.rs | Types/Model.lean, Front/Convert.lean (`from_meta_data`) | |
| src/lifetime/lt.rs | Lifetime/Model.lean | |
| src/lifetime/mod.rs | Check/{Build,Resolve,Ranges,Mutable,Calls,Suggest,Lifetime}.lean, Lifetime/Model.lean | text of the other messages |
| src/lifetime/node.rs, normalize.rs, kind.rs | Check/Node.lean, Check/Build.lean, Check/Lifetime.lean, Syntax/Chain.lean | order of the nodes in the list (all orders with sorted children after parents are covered) |
| src/lifetime/typecheck.rs, refine.rs | Check/Types.lean, Types/Refine.lean | |
| src/ast/mod.rs | Eval/Ast.lean (the tree), Eval/Slots.lean (`get_locals`), Syntax/{Chain,Unloop,Infer}.lean, Eval/Fold.lean (`precompute`), Front/Convert.lean (`from_meta_data`), Front/Link.lean (lookup of callees in `get_locals`), Front/{Head,Load}.lean (namespaces, imports, `convert`) | positions in the text |
| src/ast/infer_len.rs, replace.rs | Syntax/Infer.lean, Syntax/Unloop.lean | |
| src/grab.rs | Eval/Eval.lean (`grab…`) | |
| src/runtime/mod.rs | Eval/{State,Eval,Loops}.lean | interrupt handling, text of the messages |
| src/runtime/for_n.rs, for_in.rs | Eval/Loops.lean | |
| src/dyon_std/mod.rs | Builtin/{Ops,Stack,Text}.lean, Eval/{StdLib,DynCall}.lean, Thread/Join.lean, Module/Make.lean, File/{Model,Web,Syntax,Args}.lean, Module/ListFn.lean, Builtin/{Sleep,Now}.lean, Color/Srgb.lean, Console/Model.lean | random numbers |
| src/dyon_std/data.rs | Data/Load.lean | read_token, read_color |
| src/dyon_std/functions.rs | Module/Listing.lean | |
| src/dyon_std/lifetimechk.rs | Lifetime/Model.lean | |
| src/dyon_std/meta.rs | Text/MetaJson.lean (`json_from_meta_data`), File/Model.lean (`load_meta_file`, `parse_syntax_data`), File/Web.lean (`load_meta_url`) | |
| src/dyon_std/io.rs | File/Model.lean | |
| src/write.rs | Data/Write.lean (values), Syntax/Print.lean (expressions and statements, as tokens), Text/Fmt.lean (`fmt`) | indentation and spaces of printed expressions; types of the arguments of printed closures |
| src/embed.rs, src/vec4.rs (push and pop), src/mat4.rs | Host/Embed.lean, Color/Model.lean (conversions of `Vec4`) | conversions of `Vec4` from and to `f32` arrays and tuples, which only move components |
| src/lib.rs: `Call` | Host/Call.lean | objects of the host are numbers |
| src/module.rs | Module/Model.lean, Front/Load.lean; declared types of the modelled library functions: Builtin/Sigs.lean | |
| src/threading.rs | Eval/Eval.lean (`go`), Thread/Join.lean | operating system threads |

| src/macros.rs | Host/Macros.lean | locks held or poisoned by others; which forms of parameters compile |
| src/prelude.rs | — | only registration code; the linker uses `Prelude` as a list of functions (Module/Model.lean) |
| interactive/src/lib.rs | Draw/Model.lean (`draw_2d`), Draw/Pixels.lean (images and pixels) | the window, events, saving images, textures and fonts |
| interactive/src/graphics2d.dyon | Draw/Model.lean (`Call.entry`), Draw/Moves.lean (`More.entry`) | the program text itself: the entries are read off it |
| string/ | — | does not fit the types of this version of the library |

## Tests against wrong programs

seeded/LOG.jsonl lists the edits of the model that were tried in a copy, each
with the theorems that stopped to hold. Edits that no theorem noticed led to
tighter theorems (field `tightened`) or are recorded as not affecting the
claim.


## Plan and result per property

For each property: the part of the model it is about, the method of proof, what is proved (the theorems are listed in MANIFEST.json) and what is missing or violated by the code.

### C01 A link is a sequence of scalars

- Model: Link/Model.lean (`src/link.rs`): 64-bit words with two-bit kinds, blocks of 124 places, slices, links.
- Method: refinement to `List Scalar` over arbitrary histories of operations on any number of handles; invariant: every slice lies in its block and covers filled places.
- Status: **proved**. All operation histories on any number of handles over the shared, reference-counted representation; specification is plain lists.
- Theorems: `C01_links_are_lists`, `C01_functions`

### C02 Links sharing storage never influence each other

- Model: Link/Heap.lean: a heap of reference-counted blocks; push writes in place if the count is one.
- Method: invariant: counts are the numbers of references; frame theorem for all other handles.
- Status: **proved**. Copy-on-write of shared blocks modelled explicitly (heap with reference counts). For the references to the strings inside blocks see C98.
- Theorems: `C02_other_links_unchanged`, `C02_reference_counts_exact`

### C03 Link storage packs and unpacks scalars faithfully

- Model: Link/Model.lean: `setKind`, `getKind` on `BitVec 64`.
- Method: extensionality of bit vectors, all positions and values.
- Status: **proved**. Bit-level packing of 124 two-bit kinds in four 64-bit words, for every block, value and position.
- Theorems: `C03_block_read_after_write`, `C03_block_bounds`, `C03_push_values`

### C04 Type compatibility laws

- Model: Types/Model.lean: `Ty.goesWith` by recursion on sizes.
- Method: induction on types; witness for the law that fails.
- Status: **partial**. All laws proved for every type, except that an ad-hoc type goes with its inner type both ways: the code violates this for inner types beginning with `sec[..]` (C04_adHoc_secret_fails is the witness), so that law carries the hypothesis that the inner type is not a secret.
- Theorems: `C04_refl`, `C04_unreachable`, `C04_any`, `C04_void`, `C04_adHoc_names`, `C04_adHoc_inner_partial`, `C04_adHoc_secret_fails`, `C04_secret_direction`, `C04_symm`

### C05 Type compatibility is sound for values

- Model: Types/Model.lean and a typing relation of values.
- Method: induction; two witnesses for the cases that are unsound.
- Status: **partial**. Soundness is proved for types without secrets and for types without ad-hoc names. The full statement is false of the code: a plain value passes as a secret below an ad-hoc type (C05_secret_unsound) and closure arguments are compared covariantly (C05_closure_unsound).
- Theorems: `C05_sound_no_secret_partial`, `C05_sound_no_adHoc_partial`, `C05_secret_unsound`, `C05_closure_partial`, `C05_closure_unsound`

### C06 Extra type signatures are tried in order and bind type variables consistently

- Model: Types/Refine.lean: the loop of `refine::prelude` over the signatures of a function.
- Method: induction over lists of signatures and arguments; specification: first signature that matches.
- Status: **proved**. refine::prelude for every list of signatures and arguments. C06_unbound_variable_erases records a bug: an unbound type variable erases other ad-hoc names of the return type. refine::declaration, modelled over the syntax nodes of a file, does the same for all signatures that are written there (C06_declared).
- Theorems: `C06_found_iff`, `C06_mismatch_iff`, `C06_bindings_kept`, `C06_first_compatible`, `C06_delay_reason`, `C06_unknown_delays`, `C06_type_variable`, `C06_bound_name_used`, `C06_unbound_variable_erases`, `C06_declared`, `C06_early`

### C07 Outlives order on lifetimes

- Model: Lifetime/Model.lean: `Lifetime`, its `partial_cmp`.
- Method: an inductive order as specification; case analysis and list lemmas.
- Status: **proved**. Comparison characterised against an inductive order; transitivity on the lifetimes computed for a signature (on arbitrary lists it fails, C07_not_transitive_in_general).
- Theorems: `C07_greater`, `C07_less`, `C07_equal`, `C07_antisymm`, `C07_refl`, `C07_local_shortest`, `C07_transitive`, `C07_not_transitive_in_general`

### C08 The lifetime checker rejects storing a shorter-lived reference

- Model: Lifetime/Model.lean: `compare_lifetimes` with panics as outcomes.
- Method: decision stated outright.
- Status: **partial**. Decision characterised completely. The code violates 'never crashes': storing the item `return` in an argument or in the return value panics (C08_crash_iff).
- Theorems: `C08_accept_iff`, `C08_reject_partial`, `C08_crash_iff`

### C09 Checking argument lifetimes terminates

- Model: Lifetime/Model.lean: the chain of `'a` annotations and the search for cycles as written.
- Method: termination measure under the exact condition; witness of an endless run.
- Status: **partial**. The full claim is false of the code: the cycle search stops at the first argument annotated 'return, so `fn f(a: 'return, b: 'c, c: 'b)` is accepted and then loops forever (C09_endless).
- Theorems: `C09_check_total`, `C09_accept_iff`, `C09_resolves`, `C09_accepted_resolves_partial`, `C09_endless`

### C10 Run-time lifetime check of the dynamic call interface

- Model: Lifetime/Model.lean: `check` of dyon_std/lifetimechk.rs over nested values.
- Method: equivalence with an inductive reachability relation.
- Status: **proved**. Exact characterisation for every stack content and annotation list.
- Theorems: `C10_check_iff`

### C11 Equality operator laws

- Model: Builtin/Ops.lean: `==` of dyon_std and `PartialEq` of values.
- Method: induction over values; exact condition for reflexivity.
- Status: **partial**. Symmetry, transitivity and structural characterisation for all well-formed values; reflexivity fails exactly on values containing NaN or references (C11_refl_iff), and `[x] == [x]` is false when the element is a reference (C11_reference_elements).
- Theorems: `C11_array`, `C11_object`, `C11_symm`, `C11_trans`, `C11_not_equal`, `C11_refl_iff`, `C11_reference_elements`

### C12 Comparison operators are consistent

- Model: Builtin/Ops.lean: `<`, `<=`, `>`, `>=` on bit patterns.
- Method: order of the bits against the order of the numbers they denote.
- Status: **partial**. Comparison of all numbers and strings against the exact order. The NaN clause is false of the code: `>` and `>=` are the negations of `<=` and `<`, so they are true on NaN (C12_nan).
- Theorems: `C12_numbers`, `C12_exact_value`, `C12_infinities`, `C12_strings`, `C12_swap_partial`, `C12_nan`, `C12_nan_fails`, `C12_transitive`

### C13 Boolean and link arithmetic

- Model: Builtin/Ops.lean: operators on booleans and links.
- Method: case analysis over the kinds of operands; refinement to lists.
- Status: **proved**. Operators on all kinds of operands; rounded float arithmetic is a parameter.
- Theorems: `C13_bool`, `C13_number_secret`, `C13_concat`, `C13_concat_assoc`, `C13_concat_neutral`, `C13_kinds`, `C13_vec4`, `C13_neg_neg`, `C13_not_not`, `C13_mat4`, `C13_negative`, `C13_dot`, `C13_cross`

### C14 Deep clone yields a self-contained value

- Model: Builtin/Stack.lean: `deep_clone` with a bound on chains of references.
- Method: induction over values; invariant over histories of library calls.
- Status: **partial**. Deep clone resolves every reference below arrays and objects. Options and results are not entered by the code (C14_options_not_entered); C14_sealed_history shows the library never puts references there. Termination needs acyclic references: `push_ref(mut a, a)` makes a cycle and clone never ends (C14_cycle).
- Theorems: `C14_resolves`, `C14_complete`, `C14_unique`, `C14_terminates`, `C14_self_contained`, `C14_stable`, `C14_sealed_history`, `C14_cycle`, `C14_options_not_entered`

### C15 Array library functions behave like list operations

- Model: Builtin/Stack.lean: push, pop, insert, swap, … as transformers of the stack.
- Method: refinement to list operations; frame theorem for all functions.
- Status: **partial**. Each function refines the list operation and changes nothing else (C15_frame, over all library functions modelled). Violations found: `swap` out of bounds panics (C15_swap_panics); a negative or NaN index means 0 (C15_negative_index).
- Theorems: `C15_push_ref`, `C15_push`, `C15_insert_ref`, `C15_insert`, `C15_insert_out_of_bounds`, `C15_pop`, `C15_pop_empty`, `C15_remove`, `C15_remove_out_of_bounds`, `C15_reverse`, `C15_clear`, `C15_swap_partial`, `C15_swap_panics`, `C15_len`, `C15_negative_index`, `C15_integer_index`, `C15_not_an_array`, `C15_frame`

### C16 min and max of an array

- Model: Builtin/Stack.lean: `min`, `max`.
- Method: fold over the array.
- Status: **partial**. Full characterisation on the numbers of an array; the code silently skips elements that are not numbers (C16_skips).
- Theorems: `C16_min_partial`, `C16_max_partial`, `C16_not_an_array`, `C16_skips`

### C17 why and where return the recorded secret

- Model: Builtin/Stack.lean: `why`, `where`; loops of Eval/Loops.lean.
- Method: composition with the loop theorems, induction on nesting.
- Status: **proved**. Recording by loops is C19_any_true, C19_all_false, C21_any_true and FirstBest in C18_end; reading back is proved for every nesting depth.
- Theorems: `C17_why`, `C17_where`, `C17_explain_why`, `C17_explain_where`, `C17_nested_why`, `C17_nested_where`

### C18 Counting loops visit each index once in order

- Model: Eval/Loops.lean: the counting loops of for_n.rs, generic in the body.
- Method: the rounds of a loop as an inductive relation (LoopSpec.lean); accumulators are folds over the rounds.
- Status: **partial**. All accumulator kinds; `link` loops with loops inside that end normally. Indices are exactly the integers of the range below 2^53; the counter is assumed not to be reassigned by the body, as the code allows that.
- Theorems: `C18_end`, `C18_break`, `C18_return`, `C18_body_fails`, `C18_no_value`, `C18_indices`, `C18_empty`, `C18_link`, `C18_link_leaves`

### C19 any/all/min/max identify a witness

- Model: Eval/Loops.lean.
- Method: corollaries of the description of the rounds: the first round that decides.
- Status: **proved**. First witness of any/all; min and max through FirstBest in C18_end; NaN handled.
- Theorems: `C19_any_true`, `C19_all_false`, `C18_end`, `C21_any_true`, `C21_all_false`

### C20 Labelled break and continue reach exactly the named loop

- Model: Eval/Eval.lean, whole language.
- Method: flow relation of the syntax; induction over fuel and expressions.
- Status: **proved**. Every expression of the language, every nesting: a jump out of an expression is written in it outside of any loop it targets; a loop never lets its own label out; no jump leaves a call.
- Theorems: `C20_break`, `C20_continue`, `C20_loop_catches`, `C20_call`, `C20_break_passes`, `C20_continue_passes`, `C18_break`

### C21 Channel loops consume messages in order

- Model: Eval/Loops.lean: loops over channels, with arrivals as a function of time.
- Method: the consumed messages are a prefix of the arrivals.
- Status: **partial**. Arrivals from other threads are an arbitrary function of time. Finding: accumulators over an empty channel have no value (C21_empty_no_value).
- Theorems: `C21_end`, `C21_empty`, `C21_break`, `C21_return`, `C21_body_fails`, `C21_any_true`, `C21_all_false`, `C21_in_order`, `C21_empty_no_value`, `C21_link`, `C21_link_leaves`

### C22 Function-call observers get every call exactly once

- Model: Eval/Senders.lean: the loop of `call_internal` over the observers.
- Method: filter and permutation of lists.
- Status: **proved**. Channels may be closed at any time; calls of loaded functions. The message of a function with current objects also contains these (finding, in C22_call).
- Theorems: `C22_notify`, `C22_not_observed`, `C22_subscribe`, `C22_call`, `C22_call_not_observed`

### C23 Scopes restore the stacks

- Model: Eval/Eval.lean, whole language.
- Method: frame invariant for all stacks by induction over fuel (Frame*.lean).
- Status: **partial**. C23_text_partial: from the text, for every accepted plain program (Front/Plain.lean). For every program and state. Violations found: `for (~ x := ..; ..)` leaks the current object (C23_for_leaks_current); a vec4 literal with an argument without value pops the caller's variables (C23_vec4_takes_variables).
- Theorems: `C23_block`, `C23_call`, `C23_callClosure`, `C23_countingLoop`, `C23_channelLoop`, `C23_value`, `C23_nothing_taken`, `C23_for_partial`, `C23_call_from_outside`, `C23_run`, `C23_for_leaks_current`, `C23_vec4_takes_variables`, `C23_text_partial`

### C24 Static variable slots agree with name lookup

- Model: Eval/Slots.lean: `get_locals`; Eval/Resolve.lean.
- Method: simulation between lookup by slot and lookup by name (Slots*.lean).
- Status: **partial**. For every program whose variables are in scope (specification Expr.Scoped), every run, every sequence of calls from the host and every started thread, with any fuel: reading variables at the slots get_locals computes gives the same results, errors and states as searching the locals of the running call by name. Outside the specification the property is false of the code: a closure as a statement shifts the slots after it (C24_closure_statement), `return` in an argument of a closure call is taken for the result of the closure (C24_return_in_argument), a current object named like a parameter (C24_argument_current).
- Theorems: `C24_run_partial`, `C24_session_partial`, `C24_thread_partial`, `C24_closure_statement`, `C24_return_in_argument`, `C24_argument_current`, `C24_text_partial`

### C25 try catches every run-time error and unwinds

- Model: Eval/Eval.lean: `try`.
- Method: frame invariant and case analysis.
- Status: **proved**. Every expression, state and fuel. C25_dangling: unwrap(try x) returns a reference to a variable that may be gone.
- Theorems: `C25_ok`, `C25_err`, `C25_flow`, `C25_never_fails`, `C25_only_failure`, `C25_dangling`

### C26 The ? operator

- Model: Eval/Eval.lean: the operator `?`.
- Method: decision table.
- Status: **partial**. Violations found: after `return = ..` the operator reports that the function has no return type (C26_after_assigned_return); `a.x?` overwrites the stored property (C26_property_changed).
- Theorems: `C26_unwraps`, `C26_returns_error`, `C26_requires_return`, `C26_other`, `C26_after_assigned_return`, `C26_property_changed`

### C27 Short-circuit evaluation

- Model: Eval/Eval.lean: `&&`, `||` through lazy invariants.
- Method: case analysis of calls with lazy parameters.
- Status: **proved**. Short-circuit operators are calls with lazy invariants; proved at that level for all operands.
- Theorems: `C27_and_false`, `C27_or_true`, `C27_and_true`, `C27_or_false`, `C27_first_fails`, `C27_second_fails`

### C28 Lazy invariants leave the caller's variables intact

- Model: Eval/Eval.lean: calls with lazy invariants.
- Method: frame theorem under the exact condition; witnesses.
- Status: **partial**. Violations found: an early lazy return in a loaded function leaves its return slot on the stack and shifts the caller's variables; a lazy second parameter of an external function leaves the first argument.
- Theorems: `C28_external_first_partial`, `C28_lazy_value`, `C28_loaded_leaves_slot`, `C28_loaded_shifts_variables`, `C28_external_second`

### C29 Calls to loaded functions deliver arguments and result

- Model: Eval/Eval.lean: `call_internal`, `Runtime::call`.
- Method: frame theorem for evaluation of arguments and for the end of calls.
- Status: **partial**. Arguments with side effects (C29_args_stay_partial, C29_param_value_partial): under the hypothesis that after each argument no variable leads to a slot that was free before the call; that accepted programs never get there is not proved (the lifetime checker lets some such references through, C52, C57). C29_args_kept: without that hypothesis for arguments without side effects.
- Theorems: `C29_value`, `C29_assigned`, `C29_void`, `C29_missing`, `C29_superfluous`, `C29_body_fails`, `C29_slots`, `C29_args_kept`, `C29_args_stay_partial`, `C29_param_value_partial`, `C29_param`, `C29_closure_value`, `C29_closure_void`, `C29_closure_param`

### C30 Closures capture by value

- Model: Eval/Eval.lean: `grab`, closures.
- Method: substitution of captured values, invariant of captured values over later runs.
- Status: **partial**. For every body, state and history of later evaluations. C30_snapshot_partial (captured values read the same for ever) needs values without references inside options, results and secrets; the hypothesis is necessary, because `try x` makes a result holding a reference and grab does not look into results (C30_try_captured_by_reference). The grabs of an `if` are evaluated conditions first (C30_if_order).
- Theorems: `C30_created`, `C30_captured`, `C30_snapshot_partial`, `C30_levels`, `C30_no_grabs`, `C30_kept`, `C30_call`, `C30_if_order`, `C30_try_captured_by_reference`

### C31 Assigning through items updates exactly one place

- Model: Eval/Place.lean: items with properties, assignment operators.
- Method: paths into nested values as specification; induction over paths.
- Status: **partial**. For all programs, states and items of any depth with static or computed properties: an assignment operator gives exactly the addressed place the new value; := inserts or replaces the key; missing keys and indices are errors. A computed property that is an array of indices is covered if nothing is computed behind it and the references that are met lead to variables below it; otherwise the property is false of the code: a computed property behind it reads the wrong value (C31_indices_then_computed), and a reference to a variable declared later crashes the program (C31_indices_panic: `i := [0, 0]; x := [5]; a := [x]; a[i]`). A negative index reads the first element (C31_negative_index). Not covered: items with `?`, which overwrite the stored option (C26_property_changed).
- Theorems: `C31_write`, `C31_read_partial`, `C31_assign_partial`, `C31_insert_partial`, `C31_replace_partial`, `C31_missing_partial`, `C31_assign_missing_partial`, `C31_indices_then_computed`, `C31_indices_panic`, `C31_negative_index`, `C31_reference_replaced`

### C32 Function lookup: checker, loader and run time agree

- Model: Module/Model.lean: `find_function`, prelude, aliases.
- Method: lookup in lists; agreement of the three lookups.
- Status: **partial**. Every module and file. Violations found: a renamed import of a host function with a mutable argument is accepted by the checker and not linked; an aliased call of a lazy host function is not lazy; the number of arguments of aliased calls is not checked; `go` ignores the alias.
- Theorems: `C32_plain`, `C32_alias_partial`, `C32_arity`, `C32_signature`, `C32_signature_crash`, `C32_renamed_mut`, `C32_alias_lazy`, `C32_alias_arity`, `C32_go_alias`

### C33 Importing a module preserves what its functions call

- Model: Module/Model.lean: import and linking with relative indices.
- Method: simulation of calls to every depth over histories of loads.
- Status: **partial**. Every history of loads and imports over any number of modules, to every depth of calls. Violation found: `go` looks its function up by name in the running module, so it can start another function after an import (C33_go).
- Theorems: `C33_stable`, `C33_import`, `C33_importTransitive`, `C33_import_host`, `C33_calls`, `C33_go`

### C34 Data written as text loads back unchanged

- Model: Data/Write.lean, Data/Load.lean.
- Method: induction over values with the rest of the text as a parameter.
- Status: **partial**. Every value without NaN or infinity and with non-empty keys, including references; zeros in the last two components of a vector are the same up to their sign. Violations found: an empty key is written in a form that does not load (C34_empty_key); results and matrices do not load. The text of single strings and numbers is external (LawfulText).
- Theorems: `C34_round_trip_partial`, `C34_result`, `C34_matrix`, `C34_matrix_text`, `C34_empty_key`

### C35 The data loader terminates on every text

- Model: Data/Load.lean.
- Method: bound on the fuel by the length of the text.
- Status: **proved**. Every text; comments nested to every depth.
- Theorems: `C35_terminates`, `C35_fuel`, `C35_opt_w`, `C35_skips_unique`, `C35_comment`

### C36 Colour literals and trailing text in data

- Model: Data/Load.lean: colours.
- Method: witness and partial theorem.
- Status: **partial**. False of the code: the text of the colour is not consumed, so no array with a colour loads (C36_not_in_array). Proved: a text that starts with a colour loads as that colour.
- Theorems: `C36_top_level_partial`, `C36_not_in_array`

### C37 Code formatting only changes layout

- Model: Text/Fmt.lean: the formatter as a state machine over characters.
- Method: projection to the characters that are not blank; invariant of the states.
- Status: **proved**. Every text and tab setting: the characters that are not blank are unchanged, in order; without backslashes the contents of strings are unchanged; the first line comment of a text keeps its blanks, if no strings come before it and no quote is in it (C37_line_comment_partial; for block comments nothing beyond C37_ink is proved). Findings: after an escape sequence blanks in later strings are dropped (C37_escape); separate words may be joined (C37_joins); a string after a line comment is put into the comment (C37_comment_takes_string).
- Theorems: `C37_ink`, `C37_strings_partial`, `C37_line_comment_partial`, `C37_escape`, `C37_joins`, `C37_comment_takes_string`

### C38 Operator sequences associate to the left

- Model: Syntax/Chain.lean: operator chains in the tree and in the arena of the checker.
- Method: induction over the chain; refinement to a left fold.
- Status: **proved**. Chains of every length, nested to every depth, for every arena of checker nodes that forms trees. The conversion of unary operators and Node::simplify (which drops wrapper nodes with one child) are not modelled.
- Theorems: `C38_executed`, `C38_checked`, `C38_same_functions`

### C39 Printed expressions keep their meaning

- Model: Syntax/Print.lean: the printer; Syntax/Parse.lean and ParseStmt.lean: the grammar of expressions and statements.
- Method: induction over expressions with levels of precedence; pairs of expressions with the same text.
- Status: **partial**. For all expressions built from constants, variables with ids, calls, closure calls, arrays, vectors, grab, try, ?, norm and operators whose operands satisfy the stated level conditions, the printed tokens parse back to the expression without link information. C39_statement_partial: the same for statements built from these: assignments, objects, blocks, if with any branches, counting, channel and C-style loops, loop, return, break and continue, nested in any way. The full property is false of the code: the other theorems give different expressions with the same text (negated sums, powers of negations, negated conjunctions, chained comparisons, array fills, labels, current objects, ...), and `return (a, b) == c` is read as a call of a function named return (C39_return_compared). Statements inside of arguments and operators, links, closures and the cutting of characters into tokens are not covered.
- Theorems: `C39_round_trip_partial`, `C39_injective_partial`, `C39_arith_partial`, `C39_statement_partial`, `C39_statement_injective_partial`, `C39_loop_word`, `C39_return_compared`, `C39_neg_of_sum`, `C39_pow_of_neg`, `C39_mul_of_neg`, `C39_not_of_and`, `C39_chain_of_comparisons`, `C39_sum_compared`, `C39_array_first`, `C39_try_of_sum`, `C39_array_fill`, `C39_item_try`, `C39_labels`, `C39_closure_currents`, `C39_empty_block`, `C39_zero_vector`

### C40 Unrolled vec4 loops substitute the index

- Model: Syntax/Unloop.lean: unrolling of vec4 loops.
- Method: substitution as specification; simulation of the evaluator for formulas.
- Status: **partial**. C40_unloop_partial: for bodies that do not redeclare or assign the variable and do not use it in closures, the component expressions are the body with the variable replaced by 0, 1, 2, 3 (substitution specified separately). C40_value: for formulas (constants, variables, properties, indices, operators) evaluating the rewritten expression gives the vector of the values the body has with the variable declared, and leaves the state as it was. The other theorems are concrete cases outside the fragment where the rewriting is wrong. Missing: bodies with calls, blocks and loops for the value theorem.
- Theorems: `C40_unloop_partial`, `C40_value`, `C40_channel_loop`, `C40_range`, `C40_property`, `C40_assigned`, `C40_closure`, `C40_call_closure`

### C41 Inferred loop ranges

- Model: Syntax/Infer.lean: inference of the range of a loop.
- Method: first list in order of evaluation as specification.
- Status: **partial**. C41_sound holds for every body; C41_first_partial gives the first list in evaluation order for bodies that do not declare their index variables. False of the code in general: lists declared inside the loop are accepted (C41_declared_inside, C41_nested_index, C41_own_variable), a `for` loop declaring the same name is not recognised (C41_for_shadows), and valid lists are missed (C41_loop_name_leaks, C41_computed_index, C41_channel_body).
- Theorems: `C41_sound`, `C41_first_partial`, `C41_loop`, `C41_loops`, `C41_declared_inside`, `C41_nested_index`, `C41_own_variable`, `C41_for_shadows`, `C41_loop_name_leaks`, `C41_computed_index`, `C41_channel_body`

### C42 Constant folding agrees with evaluation

- Model: Eval/Fold.lean: `precompute`.
- Method: induction over expressions against the evaluator.
- Status: **partial**. Every expression with distinct object keys, every state. Violation found: with a key that occurs twice the folded object has the last value, the evaluated one is an error (C42_duplicate_key).
- Theorems: `C42_eval`, `C42_grab`, `C42_duplicate_key`

### C43 Host values survive a push/pop round trip

- Model: Host/Embed.lean: host types as codes.
- Method: induction over host types.
- Status: **partial**. Every host type built from the ones listed. Violations found: popping a fixed array or tuple from a shorter array panics instead of failing (C43_short_array), extra elements are dropped (C43_long_array), integers above 2^53 change (C43_large_usize), obj_field does not follow references (C43_obj_field_ref).
- Theorems: `C43_round_trip`, `C43_push_pop`, `C43_push_pop_all`, `C43_wrong_kind`, `C43_short_array`, `C43_long_array`, `C43_large_usize`, `C43_obj_field`, `C43_obj_field_ref`, `C43_vec4_f32`, `C43_vec4_f64`

### C44 Spawned threads get their own arguments in order

- Model: Eval/Eval.lean: `go`.
- Method: the stack of the new thread against deep clones of the arguments.
- Status: **proved**. Findings: a thread whose function has no value gives its first argument to join, or crashes without arguments.
- Theorems: `C44_start`, `C44_no_references`, `C44_param`, `C44_result`, `C44_void_gives_argument`, `C44_void_crashes`

### C45 A thread result is delivered at most once

- Model: Thread/Join.lean: copies of handles on the stack and elsewhere.
- Method: invariant over histories of operations.
- Status: **proved**. Handles are modelled as the physical copies of the Arc; histories are arbitrary interleavings. Findings: a refused join drops the handle of its variable; joining a variable that is no thread overwrites it.
- Theorems: `C45_at_most_once`, `C45_no_handle_left`, `C45_join_variable`, `C45_join_value`, `C45_refused_join_drops`, `C45_overwrites`

### C46 unwrap family

- Model: Builtin/Stack.lean: `unwrap`, `unwrap_or`, `unwrap_err`, `is_err`, `is_ok`, `ok`, `err`, `some`, `none`.
- Method: decision tables.
- Status: **proved**. All values and stacks; the printer used in the error text is a parameter.
- Theorems: `C46_round_trip`, `C46_none`, `C46_unwrap_error`, `C46_other_kinds`

### C47 Matrix and vector literals and accessors

- Model: Builtin/Stack.lean: vectors and matrices.
- Method: case analysis of indices.
- Status: **partial**. Violations found: `cv` returns the whole matrix (C47_cv); `s`, `rv`, `cv` panic on arguments of another kind (C47_wrong_kind).
- Theorems: `C47_entries`, `C47_literal`, `C47_vector_literal`, `C47_components`, `C47_rows`, `C47_columns`, `C47_s`, `C47_rv`, `C47_cv`, `C47_wrong_kind`, `C47_swizzle`, `C47_mov`, `C47_scale`, `C47_ortho`, `C47_mvp`

### C48 Current objects resolve dynamically to the innermost binding

- Model: Eval/State.lean: the stack of current objects.
- Method: search in lists.
- Status: **proved**. Closures use the same pushCurrents.
- Theorems: `C48_current`, `C48_missing`, `C48_host`

### C49 Duplicate and mutability-annotated function names

- Model: Module/Model.lean: names with mutability.
- Method: injectivity of the mangling.
- Status: **proved**. Every list of declarations. Functions without mutable parameters are not told apart by the number of parameters.
- Theorems: `C49_names`, `C49_duplicates`, `C49_call`, `C49_named`

### C50 functions() lists exactly the callable functions, sorted

- Model: Module/Listing.lean; Module/ListFn.lean: the two functions that a program calls.
- Method: permutation and order of a stable sort; the texts of types by induction (Module/Describe.lean).
- Status: **proved**. `functions()` and `functions(module)`. Every module whose types have a description; a secret of another type crashes the listing (C50_secret).
- Theorems: `C50_listing`, `C50_names`, `C50_found`, `C50_of_module`, `C50_argument`, `C50_made`, `C50_types`, `C50_secret`

### C51 Syntax-tree export to JSON is well nested

- Model: Text/MetaJson.lean.
- Method: induction over trees of meta data.
- Status: **proved**. Every well-nested meta data tree, any depth. Data whose end comes before its start crashes the export (C51_crash).
- Theorems: `C51_json`, `C51_crash`

### C52 A compound expression lives no longer than its parts

- Model: Check/Lifetime.lean: `Node::lifetime`.
- Method: induction over the tree; witness.
- Status: **partial**. False of the code: Node::lifetime keeps the longest lifetime among the parts (C52_keeps_longest_part, C52_locals). Proved: the result is the lifetime of one of the parts.
- Theorems: `C52_one_of_the_parts_partial`, `C52_locals`, `C52_keeps_longest_part`

### C53 The order of argument lifetimes follows from the annotations

- Model: Lifetime/Model.lean: order of arguments.
- Method: chains of annotations; witness.
- Status: **partial**. Sound when one argument's chain is part of the other's. False for siblings, which the code orders by chain length (C53_siblings_unsound).
- Theorems: `C53_outlives_sound_partial`, `C53_siblings_unsound`

### C54 A failed load leaves the module as it was

- Model: Module/Model.lean: loading a file that is refused.
- Method: prefix of the list of functions.
- Status: **partial**. False of the code: the functions of a file that the checker refuses stay in the module (C54_refused_file_is_loaded). Proved: what was there before is kept and behaves as before.
- Theorems: `C54_failed_load_partial`, `C54_refused_file_is_loaded`

### C55 Variables of accepted programs are declared

- Model: Check/Resolve.lean: search of declarations in the arena.
- Method: inductive relation `Spec.Means`; equivalence of acceptance.
- Status: **partial**. For every tree of nodes of the checker. C55_accepted: every use in an accepted file is linked to a declaration it means (specification Spec.Means); C55_unique: it means one only; C55_complete: files where every use means a declaration are accepted; C55_no_grab: without grab the declaration is in the same function or closure. The full property is false of the code: a grabbed variable is linked to a loop inside of the closure (C55_grab_loop), and the program panics at run time (C55_grab_loop_panics).
- Theorems: `C55_accepted`, `C55_unique`, `C55_complete`, `C55_no_grab`, `C55_grab_loop`, `C55_grab_loop_panics`

### C56 Arguments without mut are not changed

- Model: Check/Mutable.lean.
- Method: decision over the arena.
- Status: **partial**. For every tree of nodes of the checker: accepted files do not assign to arguments without mut and do not pass them as mut arguments, and only such files are refused. The full property is false of the code: `a.x := ..` inserts into the object of an argument without mut and is accepted (C56_insert_accepted); the object of the caller changes (C56_insert_changes).
- Theorems: `C56_assign`, `C56_call`, `C56_rejects`, `C56_insert_accepted`, `C56_insert_changes`

### C57 References do not outlive what they refer to

- Model: Check/Lifetime.lean: `check_core` on assignments, returns, ends of blocks, calls, `go`.
- Method: relation `Spec.Carries` of what a value refers to; induction over the tree.
- Status: **partial**. For every arena of checker nodes and every nesting of compound expressions and calls: if a value refers to one variable, accepted files store it only in variables that do not outlive it, return it only with an annotation that leads to `return`, do not leave it at the end of its block, pass it only where the lifetime order of the parameters holds, and do not pass references to `go`. The full property is false of the code: only the longest-living part of a compound value is compared (C57_longest_part, C57_return_longest_part; the program runs into a dangling reference, C57_longest_part_runs), `a.x := [b]` for an argument a is compared as a local (C57_property_of_argument), a swizzle argument shifts the positions and panics the checker (C57_swizzle).
- Theorems: `C57_declare_partial`, `C57_set_partial`, `C57_property_partial`, `C57_return_partial`, `C57_return_some`, `C57_math_partial`, `C57_block_partial`, `C57_param_partial`, `C57_go`, `C57_void`, `C57_call_args_partial`, `C57_go_host`, `C57_host_param_partial`, `C57_host_call`, `C57_host_call_lives`, `C57_longest_part`, `C57_return_longest_part`, `C57_property_of_argument`, `C57_swizzle`, `C57_longest_part_runs`, `C57_property_of_argument_runs`

### C58 Compound assignment agrees with the operator

- Model: Eval/Eval.lean: compound assignments; Builtin/Ops.lean: operators.
- Method: case analysis of operators and values.
- Status: **partial**. For every operator and all values: where the operator and the compound assignment are both defined the results are equal up to the secret, and equal if there are no secrets; C58_statement_partial: the statements `x op= e` and `x = x op e` leave the same state for the types in Compound. The full property is false of the code: the secret is taken from the other operand (C58_secret_differs), booleans panic (C58_bool_panics), matrix and number is an error (C58_matrix_number). `s += s` is undefined behaviour and excluded.
- Theorems: `C58_value_partial`, `C58_equal`, `C58_defined`, `C58_link`, `C58_set`, `C58_statement_partial`, `C58_secret_differs`, `C58_bool_panics`, `C58_matrix_number`

### C59 Calls have a function with as many parameters

- Model: Check/Calls.lean.
- Method: fold over the calls; equivalence of acceptance.
- Status: **partial**. For every tree of nodes of the checker and every module. The full property is false of the code: the number of arguments of a call through an alias is not checked (C59_alias_arity), and the type checker then reads outside of the list of parameters (aliased_extra_argument_panics).
- Theorems: `C59_resolved_partial`, `C59_others`, `C59_distinct`, `C59_complete`, `C59_alias_arity`, `aliased_extra_argument_panics`

### C60 Arguments have the type of the parameter

- Model: Check/Types.lean: propagation of types and the checks on the way.
- Method: every delayed error that is still valid at the end is reported; the last visit of an argument fixes its comparison.
- Status: **partial**. For every tree of nodes, every module and every number of rounds, also for arguments given by a swizzle: arguments of calls whose type is known at the end. The code never knows the type of `a.x` (property_argument_accepted) and does not compare the arguments of closure calls (closure_argument_accepted); nothing is claimed for those.
- Theorems: `C60_argument`, `wrong_argument_rejected`, `property_argument_accepted`, `closure_argument_accepted`

### C61 Functions return what they declare

- Model: Check/Types.lean: final checks of functions.
- Method: traversal of the tree as in the code against `Spec.Within`.
- Status: **partial**. C61_return holds for every tree of nodes. That a result is returned on every path is false of the code: one `return` somewhere is enough (missing_return_accepted).
- Theorems: `C61_return`, `C61_some_return_partial`, `wrong_return_rejected`, `no_return_rejected`, `missing_return_accepted`

### C62 Conditions are boolean and branches agree

- Model: Check/Types.lean: final checks of `if`.
- Method: decision over the arena.
- Status: **proved**. For every tree of nodes; the type of the if is that of its first branch (C64_takes).
- Theorems: `C62_if`

### C63 Results are not dropped silently

- Model: Check/Types.lean: final checks of blocks.
- Method: decision over the arena.
- Status: **proved**. For every tree of nodes.
- Theorems: `C63_unused`

### C64 The types that the checker gives are consistent

- Model: Check/Types.lean: propagation.
- Method: invariants over the rounds of the propagation.
- Status: **partial**. For every tree of nodes and every number of rounds. C64_local: if the type of the initial value changes during the propagation to one that does not go with the earlier one, the variable keeps the earlier one. Assignments of another type later are not refused (reassign_accepted). Calls with extra signatures have the type that C06 finds (C64_refined, C64_host_refined, C64_overload) when the arguments are values, parameters, calls without extra signatures or expressions around these; missing for other arguments, whose types can change while the checker runs.
- Theorems: `C64_takes`, `C64_parameter`, `C64_counter`, `C64_host`, `C64_call`, `C64_local`, `C64_go`, `C64_sift`, `C64_refined`, `C64_host_refined`, `C64_overload`, `reassign_accepted`

### C65 Extra signatures fit the function

- Model: Check/Calls.lean: extra signatures.
- Method: equivalence of acceptance with a specification of fitting signatures.
- Status: **proved**. For every function whose parameters come first among its children, which is how the grammar stores them.
- Theorems: `C65_extra`, `C65_accepted`

### C66 `in` names a function that can be listened to

- Model: Check/Calls.lean: `in` nodes; Eval/Eval.lean: `in`; Module/Model.lean: linking.
- Method: fold over the nodes; equivalence of acceptance; witness.
- Status: **partial**. Acceptance is an equivalence, for every tree of nodes and every module. That an accepted `in` works when it is executed is false of the code: `in` with a function of the host is accepted (C66_host_accepted) and is an error in every state (C66_host_fails). For functions of the file or of imported modules see C22_subscribe.
- Theorems: `C66_accepted_iff`, `C66_others`, `C66_host_fails`, `C66_host_accepted`

### C67 Data text has the meaning of its grammar

- Model: Data/Load.lean: the data loader.
- Method: grammar as mutually inductive relations; equivalence with the loader, by induction on the fuel and on derivations.
- Status: **proved**. For every text. Single string and number tokens, colours and Unicode classes are external (Lex, LawfulText). That the text of a colour is not skipped (C36) is part of the grammar.
- Theorems: `C67_load_iff`, `C67_unambiguous`, `C67_last_entry`, `C67_keys_once`

### C68 A loaded program is the program that is written

- Model: Front/Convert.lean: all `from_meta_data` functions on the list of nodes that the grammar reports.
- Method: Front/Source.lean: grouped text, what the rules report for it, and what it means; induction over the text.
- Status: **partial**. For every grouped text (type FnSrc, read off the rules of assets/syntax.txt) the conversion of the reports of the grammar is the program given by the specification Spec.fn. C76_file: the same for whole files with namespace and imports. Outside of the model: that piston_meta groups a text in this way and reports these nodes (trusted, see DESIGN.md). The full property is false of the code for calls of closures with words: the words are dropped if the last property is not a name (C68_words_dropped); and for `go al::f(..)`, whose alias is dropped (C68_go_alias).
- Theorems: `C68_expression`, `C68_functions`, `C68_no_panic`, `C68_total`, `C68_paren`, `C68_mut_names`, `C68_words_dropped`, `C76_file`, `C68_go_alias`

### C69 A text may use the variables that are in scope

- Model: Check/Build.lean: the nodes of the checker; Check/Resolve.lean: search of declarations.
- Method: Check/Text.lean: scopes on the text; induction over the text through each step of the checker (nodes, operators, calls, names), then over the tree. For the run: induction over the text, relating the scopes of the text (Check/Text.lean) to the compile-time stack of `get_locals` (Front/Plain*.lean), then C24.
- Status: **partial**. For every grouped text of functions (FnSrc) of which the checker can make nodes, and every order in which the nodes may be stored: accepted exactly if the text respects the scopes written down in Check/Text.lean. C69_variables_exist_partial, C69_session_partial: a program of any number of modules, each made of any functions of the host, files with namespaces and imports, and other modules (Front/Load.lean), whose files the checker accepts, and which is plain (Front/Plain.lean), never gets to a variable that is not there, in every run and every sequence of calls by the host; from the text through conversion, lookup of callees and slots to the run. In general this is false of the code: the loop variable counts as declared in the range of its own loop (C69_own_range_accepted, C69_own_count_accepted; running it panics, C69_own_range_panics), the name of a called function on the left of := counts as a variable (C69_call_declares), an argument may be grabbed with too high a level (C69_high_grab), a closure may grab the variable of its own loop (C69_grab_loop_stops), `return` may be read in a function without result (C69_no_result_stops). a loop without a range may be one over a list that is declared inside of it (C69_list_inside_stops). Loops with an inferred range from outside (`for i { a[i] }`) are plain. Missing: programs that are not plain for other reasons, such as conditions on arguments and declarations inside expressions, a characterisation of the texts of which no nodes can be made (examples: C69_mut_closure_panics, C69_low_grab).
- Theorems: `C69_variables_exist_partial`, `C69_session_partial`, `C69_own_count_stops`, `C69_no_result_stops`, `C69_grab_loop_stops`, `C69_list_inside_stops`, `C69_scopes_partial`, `C69_stored_partial`, `C69_own_range_accepted`, `C69_own_count_accepted`, `C69_own_range_panics`, `C69_call_declares`, `C69_high_grab`, `C69_mut_closure_panics`, `C69_low_grab`

### C70 Checking the types of a program ends

- Model: Check/Types.lean: propagation of types, as an iteration of rounds.
- Method: suppose the rounds go on forever: along the order in which nodes are stored, every node settles (types of declared functions, values, variables through their assignments, which are ranked by the place of their declaration); then no round changes anything; that the nodes have the form needed is proved from the text through Check/Build.lean.
- Status: **partial**. For every file of functions, in every order in which nodes may be stored, and every set of host functions: the propagation of types ends if no left side of an assignment is followed by `?`. The full property is false of the code: on `fn foo(x) -> any { true }  (f64) -> opt  fn main(a: f64) { (x)? := foo(a) }`, which every earlier check accepts, the rounds come back to the same state every three rounds (C70_endless), so that loading does not return. Missing: the left sides with `?` on which it ends.
- Theorems: `C70_ends_partial`, `C70_text_partial`, `C70_endless`

### C71 A function of a loaded module can be called by its name

- Model: Eval/DynCall.lean: `call` and `call_ret` as functions of the host, by recursion on the depth of nesting.
- Method: equations between the dynamic call and the written call; the contract of host functions by induction on the nesting; witness.
- Status: **partial**. For every program, state and nesting. C71_call_ret, C71_call: the same result and state as the call written in that module; C71_refused: errors; C71_contract, C71_run: host functions with these calls keep the contract of host functions, so the theorems about runs (C23, C24, ..) hold for programs that use them. The last sentence of the property is false of the code: the value of the module is locked during the call, and a call through the same value inside of it waits for ever (C71_locked; a program that does so, C71_deadlock). Called by the host while no Dyon function runs, both functions crash (C71_from_host).
- Theorems: `C71_call_ret`, `C71_call`, `C71_refused`, `C71_other_kinds`, `C71_locked`, `C71_from_host`, `C71_contract`, `C71_run`, `C71_deadlock`

### C72 Library functions on text, objects and colours

- Model: Builtin/Text.lean: the functions on texts, objects and colours.
- Method: what is left after trimming is characterised and shown to be unique; decision tables; hexadecimal digits read back.
- Status: **proved**. For every stack, value and text. Which characters are white space, reading a number from a text and the arithmetic of one colour component (with the law that it gives at most 255) are parameters.
- Theorems: `C72_trim`, `C72_parse_number`, `C72_chars`, `C72_keys`, `C72_typeof`, `C72_is_nan`, `C72_other_kinds`, `C72_color`

### C73 The host can call functions of a program, again and again

- Model: Host/Call.lean: `Call`; Eval/Eval.lean: `call_str`, `call_str_ret`, `run`.
- Method: the call is reduced to the call written in the module (as for C71) and C29; stacks by C23; result by C43; witnesses.
- Status: **partial**. For every program, state and host type; the called function has no current objects and no listeners (for current objects see C29, for listeners C66). Violations found: the number of arguments is not checked, and missing arguments shift the parameters (C73_few_arguments); a function that returns its argument crashes the host (C73_returned_argument); so does one that gives no result although it should (C73_missing_crashes); `run` does not find functions of the host (C73_run_host_function); after a failed `run` the next `run` runs another function or crashes (C73_run_again, C73_run_again_crash); current objects of a failed call are found by later calls (C73_stale_current).
- Theorems: `C73_args`, `C73_args_all`, `C73_param`, `C73_run_ret`, `C73_value`, `C73_wrong_kind`, `C73_vec4`, `C73_run`, `C73_no_result`, `C73_fails`, `C73_again`, `C73_unknown`, `C73_run_host_function`, `C73_missing_crashes`, `C73_few_arguments`, `C73_returned_argument`, `C73_run_again`, `C73_run_again_crash`, `C73_stale_current`

### C74 Functions and structs of the host work in programs

- Model: Host/Macros.lean: `dyon_fn!`, `dyon_fn_pop!`, `dyon_obj!`, over arbitrary conversions.
- Method: induction on the parameters (popped in reverse) and on the fields; conversions of the crate by C43; witness for the lock.
- Status: **partial**. For every list of parameters and every struct with any conversions of its fields; values are those the conversions keep (C43). Locks held by other threads and poisoned locks are left out. The last sentence is false of the code: the locks on the objects of the host are kept until the function ends, so a call with the same object for two parameters waits for ever (C74_same_object). Fields that hold references are not looked up (C43_obj_field_ref).
- Theorems: `C74_call`, `C74_call_void`, `C74_bad_value`, `C74_wrong_kind`, `C74_wrong_object`, `C74_same_object`, `C74_keeps`, `C74_struct`, `C74_struct_fields`, `C74_struct_of_object`, `C74_struct_missing`, `C74_struct_wrong`

### C75 Modules made by a program are what their sources say

- Model: Module/Make.lean: `load` and `module`, with and without flags, on Module/Model.lean.
- Method: the functions of the new module are computed through the imports and the load; what they execute by the embedding lemma of C33; the operation is a history of host operations.
- Status: **partial**. For every history of modules and every text; reading files, the grammar, the conversion and the checker are parameters here (see C68, C69). C75_like_host: the new module is one a host could have made, so C32, C33, C50, C54 hold of it. The last clause is false of the code: a flag `tr` or `usetr` that is not a boolean crashes the program (C75_flag_crash; the checker lets values of unknown type through).
- Theorems: `C75_module`, `C75_load`, `C75_like_host`, `C75_refused`, `C75_bad_import`, `C75_flag_crash`

### C76 What a called name stands for in files with namespaces and imports

- Model: Front/Head.lean: namespaces and imports of a file; Front/Load.lean: loading and importing, with the lookup of Module/Model.lean on the functions that run.
- Method: what a name stands for is written down on the way a module was made (Front/Load.lean); induction over that way; the imports by folds over the functions (Module/Imported.lean).
- Status: **proved**. For every way to make a module from functions of the host, files, `import`, `import_tr_prelude` and `make_transitive`, and every file. The functions that run are those of Eval (same as in C24, C69). Trusted as in C68: the reports of the grammar. Surprises that follow: `use a::{} as x` imports everything (C76_empty_list); with an alias the first of several functions of a name is called, without it the last, and with an alias functions of the host come first, without it functions of files (C76_first_last); functions of the host that need not get all arguments get them all through an alias (C76_alias_all_arguments).
- Theorems: `C76_imported`, `C76_file`, `C76_linked`, `C76_written`, `C76_load_keeps`, `C76_loads`, `C76_empty_list`, `C76_first_last`, `C76_alias_all_arguments`

### C77 A called function changes only what it can reach

- Model: Eval/Eval.lean: the evaluator; Builtin/*: the standard library.
- Method: for any set of slots that is closed under references: induction on the fuel that the evaluator stays inside of the set (Eval/Local*.lean, by name), carried over to slots by C24's agreement; reachability is the intersection of these sets.
- Status: **proved**. For every program over functions of the host that keep to what they can reach (ExtLocal; proved of the standard library, extLocal_std) in slot mode (the mode that runs). What closures can reach is over-approximated by what any closure value made so far can reach. The lifetime of values is not part of the statement: references to slots that are gone count as references to whatever is in the slot.
- Theorems: `C77_expr`, `C77_call`, `C77_closure`, `C77_plain`

### C78 Loops without a range are refused unless their variables are indices

- Model: Check/Ranges.lean: collecting loops without range and looking for an index.
- Method: the walk to the index by strong induction on the place in the arena, the links by C55; `for` texts as witnesses of the failures.
- Status: **partial**. The check is characterised for every arena whose variables have declarations. The last sentence is false of the code: one written range makes the check skip the other variables of the loop (C78_second_range) and loops that index behind a computed index pass (C78_behind_sum), and both then fail to convert without a message; a list that is declared in the loop passes, and the loop panics when it runs (C78_local_list).
- Theorems: `C78_accepted_iff`, `C78_refused`, `C78_second_range`, `C78_local_list`, `C78_behind_sum`

### C79 Operators and library functions are what their declared types say

- Model: Builtin/Sigs.lean: the declarations in `Module::new`, next to the code of the functions (Builtin/Ops.lean, Stack.lean, Text.lean) and the refinement of types (Types/Refine.lean).
- Method: each signature against each operator by cases on the values of its types; the search through the signatures by induction; C05 carries values along accepted types; conversely every success is a signature.
- Status: **partial**. Operators: types without named types; accepted operators without == and != of two options, refused ones without arrays and options of nothing. In general false of the code: `some(a) == some(b)` passes the checker whatever the contents are and fails for links and for contents of different kinds (C79_option_links, C79_option_mixed); a named number compared to a number gets the type sec[bool] without a secret (C79_named_secret); `cv` returns a matrix where it is declared to return a vector (C79_cv). Library: the functions modelled in Builtin/Stack.lean and Builtin/Text.lean (enumerated by LibFn and MoreFn); those with external arithmetic (sin, ..), input and output, and threads are not in it.
- Theorems: `C79_decided`, `C79_operator_accepted_partial`, `C79_operator_refused_partial`, `C79_unary_accepted_partial`, `C79_unary_refused_partial`, `C79_lazy`, `C79_library_result_partial`, `C79_library_more`, `C79_library_sure`, `C79_library_more_sure`, `C79_cv`, `C79_option_links`, `C79_option_mixed`, `C79_named_secret`, `C79_void_arrays`

### C80 What a called function cannot reach does not matter to it

- Model: Eval/Eval.lean: the evaluator; Builtin/*: the standard library; Data/Write.lean: the text of values.
- Method: every step of the proof of C77 also shows that the step commutes with putting other values into the slots outside the set (Eval/Local.lean, `Blind`); reachability is such a set; agreeing states are related by such a change.
- Status: **proved**. For every program over functions of the host that keep to what they can reach and do not look beyond it (ExtLocal, ExtBlind; proved of the standard library, C80_library, whose `unwrap` prints with the modelled `write_variable`), in slot mode. The two states agree in everything but the values of slots that cannot be reached, so the callers are the same and only their variables differ. That marks of results still to come must agree is necessary (C80_mark_matters: `?` in a function without `->` takes the mark of its caller for its own).
- Theorems: `C80_expr`, `C80_call`, `C80_closure`, `C80_plain`, `C80_text`, `C80_library`, `C80_mark_matters`

### C81 Programs that pass the checks give what their types say

- Model: Sound/Typing.lean: a typing judgement for functions with declarations, assignments, branches, loops and `return`, next to the evaluator (Eval/Eval.lean) and the checks (Check/*). Sound/Checked.lean: the same rules on the nodes of the checker. Sound/Small*.lean: files of such functions as they are written, their nodes, and what is loaded for them.
- Method: induction on the fuel that a typed expression gives a value of its type or a reference to a variable of its type, calls included, and that a statement keeps the variables of the function at their types (Sound/Lines.lean: the stack above the arguments; induction on the rounds of loops); host functions by C79; carried over from variables searched by name to slots by C24's agreement; accepted files that go wrong as witnesses; for the checker an invariant of its passes: a type of the six is there for a reason.
- Status: **partial**. Proved of functions with types without parts (f64, bool, str, vec4, mat4, link) whose statements are declarations `x := e`, assignments to such variables with all operators, if / else if / else, blocks, counting loops, `for` and `loop` with labelled break and continue, calls of functions that give nothing, and `return` on every way to the end or a value at the end, with expressions of literals (vec4, mat4 and links included), variables, calls, operators, if-else and the loops with a result (sum, prod, min, max, any, all, and the sums and products of vectors, with one expression as body): what is typed by the rules of Sound/Typing.lean runs, called by the host for a value (C81_runs_partial) or not (C81_calls_partial), or as a program with main (C81_main_partial). C81_text_partial joins both sides for functions whose body is a row of declarations and early returns `if c { return e }`, and a `return`: a file of such functions, with local declarations, redeclarations and early returns, that is loaded and that the checks of variables, calls, lifetimes and types accept, with functions of the host that keep to their declarations, runs: every call with arguments of the declared types gives a value of the declared type or does not end. It assumes that declarations are stored before the statements after them (InOrder), which the order of node.rs:196-225 gives (arena_inOrder) and on which the check itself relies (typecheck.rs:337). Missing: in C81_text_partial other statements; in both link and sift loops, loops over channels, assignments to parameters, arrays, objects, options, closures, named types. On the side of the checks: in an accepted file the nodes of such expressions, parameters and declared variables included, have a type by rules of the same form (C81_checked_partial), the declared one where they are returned (C81_result_partial). In general the property is false of the code, by accepted files: `return x && y` of two arguments gives a reference to a slot that is gone, and using it panics (C81_reference_lost); `!true` is typed sec[bool], an `if` of a sec[f64] and an f64 is typed sec[f64], and the last expression of a function with a `return` is not checked (C81_types_lost); assignments with other operators than += and -=, rows of matrices, bodies and ranges of loops and items of links are not compared with anything, so that accepted functions stop with errors about types or panic (C81_unchecked).
- Theorems: `C81_text_partial`, `body_typed`, `C81_runs_partial`, `C81_calls_partial`, `C81_main_partial`, `C81_checked_partial`, `C81_result_partial`, `honest_binop`, `honest_unop`, `gives_binop`, `gives_unop`, `C81_reference_lost`, `C81_types_lost`, `C81_unchecked`

### C82 A refused call is reported, with the functions that may be meant

- Model: Check/Suggest.lean: `suggestions` with texts as bytes, and the messages of refused calls.
- Method: cutting a text at a byte is characterised by induction; the loops over the maps are filters; the first refused call by induction over the calls; witnesses from the text of a file.
- Status: **partial**. For every file, call and set of names in any order. The message is proved to be as stated for names without `mut` arguments, and for others if what is looked for is in ASCII. False of the code: with a `mut` argument the last character of the name is not looked at, so more functions are proposed (C82_last_letter), and a name that is not in ASCII can make the checker panic (C82_panics_iff says exactly when; C82_report_panics: `fn main(x) { éé(mut x) }`). The messages for names behind `in` are not stated.
- Theorems: `C82_file_partial`, `C82_message_partial`, `C82_proposes`, `C82_panics_iff`, `C82_plain`, `C82_last_letter`, `C82_report_panics`

### C83 What may be added to a variable, put into a vector, swizzled, grabbed and started

- Model: Check/Types.lean: the visits of components and `grab`, and the checks after the propagation (`finalAssign`, `finalSwizzle`, `finalGo`).
- Method: a rule for nodes whose type is made of that of one child is an invariant of the rounds; the final checks are read off an accepted outcome.
- Status: **proved**. For every tree of nodes and every number of rounds. `Spec.Adds` says what may be added. As stated, plain types are not compared: `x += "s"` of a number is accepted (add_plain_accepted) and fails at run time.
- Theorems: `C83_add_assign`, `C83_number`, `C83_swizzle`, `C83_grab`, `C83_go`, `add_refused`, `add_plain_accepted`, `number_refused`, `go_refused`, `swizzle_refused`

### C84 What is saved in a file is loaded again

- Model: File/Model.lean: files as bytes under names, the answers of the system, the buffered writer, and the library functions on files.
- Method: what was given to the buffered writer is what is in the file and then in the buffer (induction over the pieces); UTF-8 is read back; C34 for data; a full disk as witness.
- Status: **partial**. For every text, data value and behaviour of the system. Texts are as stated. For data the first sentence is false of the code: the last part is written when the buffer is dropped, where errors are ignored, so that on a full disk `ok` is given and the file is empty (C84_lost); proved is that at most a buffer is missing, and that nothing is if no write fails. A file that cannot be created is a run-time error for data, not an error value (first part of C84_save_data_partial). What was in the file before is lost when a write fails (C84_old_contents_lost).
- Theorems: `C84_save_string`, `C84_load_string`, `C84_string_back`, `C84_save_data_partial`, `C84_data_back_partial`, `C84_meta`, `C84_lost`, `C84_old_contents_lost`

### C85 What a program adds to the draw list is drawn

- Model: Draw/Model.lean: `draw_2d` as code that records the calls to the crate graphics, and the entries the functions of graphics2d.dyon push; Draw/Moves.lean: the formulas of moves, for numbers of any kind.
- Method: each call is matched with what it draws with a pen (separate specification); induction over the list; concrete lists as witnesses of panics.
- Status: **partial**. For every sequence of calls of functions of graphics2d.dyon and every list. What the moves do to points is proved of their formulas with exact arithmetic (C85_moves, C85_moves_at); the program computes the same formulas with rounding. The last sentence is false of the code: an empty entry or one that is too short panics (C85_short_panics), and so does an image with the number of a texture that is not there (C85_texture_panics), unlike a text with such a font (C85_font); proved for lists without these (C85_no_panic_partial). What the crate graphics does with the calls is not modelled.
- Theorems: `C85_drawn`, `C85_drawn_all`, `C85_moves`, `C85_moves_at`, `C85_fixed`, `C85_distances`, `C85_order`, `C85_idle`, `C85_font`, `C85_no_panic_partial`, `C85_texture_panics`, `C85_short_panics`

### C86 Pixels of images keep what is put into them

- Model: Draw/Pixels.lean: images as pixels row after row, under numbers and in objects, and the functions on them.
- Method: rows do not overlap (arithmetic); reading after writing by cases on the place.
- Status: **partial**. For every world of images. Two sentences are false of the code: reading a pixel is declared to give a vec4 but gives a result `ok(color)`, or `err(..)` outside (C86_get, C86_get_outside, C86_never_vec4), so that an accepted program that uses the vector fails; a position below zero is taken for the first column or row instead of being an error (C86_below_zero). A size too large for memory addresses panics (C86_create_panics). The steps of 1/255 are those of the external arithmetic of f32.
- Theorems: `C86_set`, `C86_set_outside`, `C86_get`, `C86_get_outside`, `C86_back`, `C86_image_size`, `C86_position`, `C86_create`, `C86_load`, `C86_never_vec4`, `C86_below_zero`, `C86_create_panics`

### C87 Colours keep their bytes as text, as vectors and in images

- Model: Color/Float.lean: exact values of `f32` and rounding to the nearest; Color/Model.lean: the conversions of `Vec4` and the arithmetic of colours.
- Method: rounding is nearest and monotone (from the two numbers around the exact value); the 256 bytes by evaluation in the kernel of the complete table; text by the digits.
- Status: **partial**. For all bytes, all vectors and all bit patterns of components. Single precision is modelled: results are rounded to the nearest number, ties to even (Color/Float.lean, where `nearest` and `ties_even` show this for all exact values); that the hardware does so, and that read_color reads pairs of hexadecimal digits, are hypotheses (classes Single and Colors, with instances in Color/Demo.lean). One sentence is false of the code: whole numbers above 2^24 are not given back (C87_whole_lost). Colours in data files are C36. For the conversions between sRGB and linear colours see C97.
- Theorems: `C87_host`, `C87_near`, `C87_order`, `C87_doubles`, `C87_whole_partial`, `C87_whole_lost`, `C87_literal`, `C87_stable`, `C87_copy`, `C87_pixel`

### C88 Observers of a function get its calls, whatever the threads do

- Model: Channel/Model.lean: one function, any number of threads, a step for each operation on something shared, histories as lists of what happens.
- Method: invariants of all steps (who has the lock, what the flag says, how far a call has sent, what is in the channels), by cases over the steps; liveness by counting the steps left.
- Status: **partial**. For every history: any number of threads and channels, any interleaving of single operations on the lock, the flag, the list of senders and the channels, where reads of the flag may give old values (relaxed ordering). One sentence is false of the code: a thread inside `next` waits for as long as another thread waits in `wait_next` on the same channel, since both lock the receiver (C88_wait_forever, C88_next_waits); and since the function keeps the sender, `wait_next` never gives none() and waits forever if there are no more calls. Trusted: reads give no value that is not yet written, locks and messages pass on what is known, std::sync::mpsc is a queue, and the module stays loaded.
- Theorems: `C88_delivered`, `C88_knows`, `C88_once`, `C88_queue`, `C88_order`, `C88_past`, `C88_flag`, `C88_forget`, `C88_calls_go_on`, `C88_receivers`, `C88_wait_some`, `C88_wait_forever`, `C88_next_waits`

### C89 What is printed is shown in order, what is typed is read once

- Model: Console/Model.lean: the terminal as input, screen, kept back text and error output; the system decides at each operation what fails and what is shown early.
- Method: specification of lines and of the answer to read_number apart from the model; induction over the lines, over the rounds of the loop and over the calls.
- Status: **partial**. For every terminal, system and sequence of calls. The last sentence is false of the code: at the end of the input `read_number` does not end and prints its message again and again (C89_number_endless; C89_number_ends says exactly when it ends); a message that is not a text crashes (C89_message_panics), and so do printing and reading when the output is closed (C89_closed_panics, C89_read_panics). Errors of reading are errors of the program (C89_read_fails). The text of a value is that of Data/Write.lean, where the text of numbers is external.
- Theorems: `C89_print`, `C89_println`, `C89_eprint`, `C89_print_ends`, `C89_text`, `C89_read_line`, `C89_end`, `C89_read_fails`, `C89_number`, `C89_number_ends`, `C89_number_line`, `C89_history`, `C89_number_endless`, `C89_message_panics`, `C89_closed_panics`, `C89_read_panics`

### C90 A program gets what the checker knows about a text

- Model: Module/CheckFn.lean: the function check with and without its flag, the object made for a node of the checker; parsing and checking are a parameter.
- Method: specification of the fields of an object apart from the model; inversion of the texts of kinds, operators and lifetimes; indices are exact below 2^53.
- Status: **partial**. For every text, imports and outcome of the parser and checker. The last sentence is false of the code: a node whose type is a secret of something other than `bool` or `f64` crashes (C90_secret_panics), and so does a flag that is not a boolean (C90_flag_panics). Parsing and checking are a parameter: what the checker does to the nodes is in Check/; that nodes form a tree is a hypothesis of C90_tree, and C90_faithful gives back types only as their text.
- Theorems: `C90_check`, `C90_tree`, `C90_faithful`, `C90_secret_panics`, `C90_flag_panics`

### C91 Loading a file by its path

- Model: Module/LoadFn.lean: load of a path, the lookup of the runtime as a parameter and the standard one on a disk of any content.
- Method: by cases over what is on the disk, on the theorems of C75; counterexamples to the last sentence as theorems about every such path.
- Status: **partial**. For every disk, lookup, path and running module. The last sentence is false of the code: a file that can be opened and not read as a text crashes with `load(path)` (C91_unreadable_panics), and the form with imports does not ask the lookup of the host and reads files even without support for files (C91_lookup_bypassed). C91_same_partial: for all other paths both forms do the same with the standard lookup. Parsing, conversion and checking are a parameter.
- Theorems: `C91_load`, `C91_refused`, `C91_argument`, `C91_same_partial`, `C91_unreadable_panics`, `C91_lookup_bypassed`

### C92 Fetching from the web gives the whole answer or an error

- Model: File/Web.lean: the functions that fetch from the web, on the disk and system of File/Model.lean; the network is a parameter that may answer and fail in any way.
- Method: specification of delivered and broken answers apart from the model; induction over the pieces of the body; the lost contents by a concrete answer.
- Status: **partial**. For every network, disk and system. The last sentence is false of the code: a download that breaks off leaves the first bytes of the body in the file (C92_old_contents_lost; C92_download says what is in the file in all cases). The library for requests is external: which answers and failures there are is a parameter about which nothing is assumed. Built with the features `file` and `http`.
- Theorems: `C92_text`, `C92_download`, `C92_back`, `C92_meta`, `C92_old_contents_lost`

### C93 Waiting for a number of seconds

- Model: Builtin/Sleep.lean: the duration that sleep waits for; the fraction and product of numbers are external.
- Method: bounds on the nearest number from three concrete numbers; division with remainder; by cases over the kinds of numbers.
- Status: **proved**. For every number. That `f64::fract` is exact and a product is a number nearest to the exact one, as IEEE-754 says, is a hypothesis (Spec.Ieee), shown to hold of some operations. The duration given to the system is modelled; how long the system really waits is not.
- Theorems: `C93_sleep`

### C94 The time does not go back

- Model: Builtin/Now.lean: the number made from the time of the clock; division and addition are external.
- Method: a nearest number is monotone in the exact result; the fraction is between 0 and 1, so seconds are in order; distance to concrete numbers near the exact result.
- Status: **proved**. For every time of the clock in these ranges. That quotient and sum are numbers nearest to the exact ones and depend on these only, as IEEE-754 says, is a hypothesis (Spec.Rounds), shown to hold of some operations. The clock is a parameter.
- Theorems: `C94_monotone`, `C94_accurate`

### C95 A grammar kept in a value parses like one in a file

- Model: File/Syntax.lean: the functions syntax and meta; the parser is a parameter, the grammar in a Rust object.
- Method: by cases over what the parser gives, next to the model of the functions that load files and answers of the web.
- Status: **proved**. For every parser: the library for grammars is external and a parameter. The lock of the Rust object is left out.
- Theorems: `C95_meta`, `C95_argument`, `C95_like_files`, `C95_like_web`

### C96 The arguments of the program arrive whole

- Model: File/Args.lean: the function args_os; the arguments are bytes from the operating system.
- Method: induction over the arguments; decoding UTF-8 and encoding it are inverse to each other.
- Status: **proved**. For Unix, where arguments are bytes. On Windows, where they are 16-bit units, decoding is not modelled.
- Theorems: `C96_texts`, `C96_invalid`, `C96_faithful`

### C97 Colours survive the conversion between sRGB and linear

- Model: Color/Srgb.lean: both conversions in single precision; powf is external.
- Method: monotone rounding for the order of dark components; the eleven dark bytes and white are computed by the kernel from the exact rounding of Color/Float.lean.
- Status: **partial**. Alpha and the separate components: for all vectors. C97_linear_order: for all finite components up to 1, of any sign, if powf keeps the order and is right to two units in the last place just above the limit (Spec.Powers, Spec.Sums); C97_linear_order_partial and C97_srgb_order_partial: for dark components, whatever powf does; C97_srgb_bright_order_partial: the conversion to sRGB for components above the limit. Bytes: those up to 10, which are all the dark ones, come back bit for bit; missing are the others, which depend on the external powf. Two sentences are false of the code: the number after the limit 0.0031308 becomes darker than the limit by the conversion to sRGB (C97_order_lost), and white linear light is converted to a colour that is shown as #fefefe, since 1.055 - 0.055 is less than 1 in single precision (C97_white_lost).
- Theorems: `C97_parts`, `C97_linear_order`, `C97_linear_order_partial`, `C97_srgb_order_partial`, `C97_srgb_bright_order_partial`, `C97_order_lost`, `C97_dark_bytes_partial`, `C97_white_linear`, `C97_white_lost`

### C98 Strings in links are freed with their last use

- Model: Link/Strings.lean: Clone and Drop of Block with counts of the references to strings.
- Method: invariant over histories: blocks are filled from the start, so the loops that stop at the first empty entry come to all strings; counts are compared with the number of entries.
- Status: **partial**. For every history of blocks where writes are at most one entry behind the filled ones, as by all operations on links (C98_links, for every history of links). The last clause is false of the code: a filled entry that is written again loses its string without giving back the reference, so that the string is never freed (C98_leak; links do this after neck, C98_leak_link); proved is that the counts are exact if no filled entry is written again (C98_freed_partial). Strings are told apart by their contents; the references of variables are left out.
- Theorems: `C98_never_freed_early`, `C98_links`, `C98_freed_partial`, `C98_leak`, `C98_leak_link`

## Axioms of the listed theorems

Result of `#print axioms` for every theorem in MANIFEST.json. No theorem depends on anything but `propext`, `Classical.choice` and `Quot.sound`.

- `propext`, `Classical.choice`, `Quot.sound` (507): `Dyon.Link.C01_links_are_lists`, `Dyon.Link.C02_other_links_unchanged`, `Dyon.Link.C02_reference_counts_exact`, `Dyon.Link.C03_block_read_after_write`, `Dyon.Link.C03_push_values`, `Dyon.Ty.C04_refl`, `Dyon.Ty.C04_unreachable`, `Dyon.Ty.C04_any`, `Dyon.Ty.C04_void`, `Dyon.Ty.C04_adHoc_names`, `Dyon.Ty.C04_adHoc_inner_partial`, `Dyon.Ty.C04_adHoc_secret_fails`, `Dyon.Ty.C04_secret_direction`, `Dyon.Ty.C04_symm`, `Dyon.Ty.C05_sound_no_secret_partial`, `Dyon.Ty.C05_sound_no_adHoc_partial`, `Dyon.Ty.C05_secret_unsound`, `Dyon.Ty.C05_closure_partial`, `Dyon.Ty.C05_closure_unsound`, `Dyon.C06_found_iff`, `Dyon.C06_mismatch_iff`, `Dyon.C06_bindings_kept`, `Dyon.C06_first_compatible`, `Dyon.C06_delay_reason`, `Dyon.C06_unknown_delays`, `Dyon.C06_type_variable`, `Dyon.C06_bound_name_used`, `Dyon.C06_unbound_variable_erases`, `Dyon.Check.C06_declared`, `Dyon.Check.C06_early`, `Dyon.Lt.C07_greater`, `Dyon.Lt.C07_less`, `Dyon.Lt.C07_equal`, `Dyon.Lt.C07_antisymm`, `Dyon.Lt.C07_refl`, `Dyon.Lt.C07_not_transitive_in_general`, `Dyon.Lt.C08_accept_iff`, `Dyon.Lt.C08_reject_partial`, `Dyon.Lt.C08_crash_iff`, `Dyon.Lt.C09_check_total`, `Dyon.Lt.C09_accept_iff`, `Dyon.Lt.C09_resolves`, `Dyon.Lt.C09_accepted_resolves_partial`, `Dyon.Lt.C09_endless`, `Dyon.Lt.C10_check_iff`, `Dyon.C11_array`, `Dyon.C11_symm`, `Dyon.C11_trans`, `Dyon.C11_refl_iff`, `Dyon.C11_reference_elements`, `Dyon.C12_numbers`, `Dyon.C12_exact_value`, `Dyon.C12_infinities`, `Dyon.C12_strings`, `Dyon.C12_swap_partial`, `Dyon.C12_nan`, `Dyon.C12_nan_fails`, `Dyon.C12_transitive`, `Dyon.C13_number_secret`, `Dyon.C13_kinds`, `Dyon.C14_resolves`, `Dyon.C14_complete`, `Dyon.C14_unique`, `Dyon.C14_terminates`, `Dyon.C14_self_contained`, `Dyon.C14_stable`, `Dyon.C14_sealed_history`, `Dyon.C15_insert_ref`, `Dyon.C15_insert`, `Dyon.C15_len`, `Dyon.C15_integer_index`, `Dyon.C15_frame`, `Dyon.C16_min_partial`, `Dyon.C16_max_partial`, `Dyon.C18_end`, `Dyon.C18_break`, `Dyon.C18_return`, `Dyon.C18_body_fails`, `Dyon.C18_no_value`, `Dyon.C18_indices`, `Dyon.C18_empty`, `Dyon.C19_any_true`, `Dyon.C19_all_false`, `Dyon.C21_any_true`, `Dyon.C21_all_false`, `Dyon.C20_break_passes`, `Dyon.C20_continue_passes`, `Dyon.C21_end`, `Dyon.C21_break`, `Dyon.C21_return`, `Dyon.C21_body_fails`, `Dyon.C21_empty_no_value`, `Dyon.C21_link`, `Dyon.C21_link_leaves`, `Dyon.C22_notify`, `Dyon.C22_call`, `Dyon.C23_block`, `Dyon.C23_call`, `Dyon.C23_callClosure`, `Dyon.C23_countingLoop`, `Dyon.C23_channelLoop`, `Dyon.C23_value`, `Dyon.C23_nothing_taken`, `Dyon.C23_for_partial`, `Dyon.C23_call_from_outside`, `Dyon.C23_run`, `Dyon.C23_for_leaks_current`, `Dyon.C23_vec4_takes_variables`, `Dyon.Plain.C23_text_partial`, `Dyon.C24_run_partial`, `Dyon.C24_session_partial`, `Dyon.C24_thread_partial`, `Dyon.C24_closure_statement`, `Dyon.C24_return_in_argument`, `Dyon.C24_argument_current`, `Dyon.Plain.C24_text_partial`, `Dyon.C25_err`, `Dyon.C25_never_fails`, `Dyon.C25_dangling`, `Dyon.C26_after_assigned_return`, `Dyon.C26_property_changed`, `Dyon.C28_external_first_partial`, `Dyon.C28_loaded_leaves_slot`, `Dyon.C28_loaded_shifts_variables`, `Dyon.C28_external_second`, `Dyon.C29_assigned`, `Dyon.C29_missing`, `Dyon.C29_slots`, `Dyon.C29_args_stay_partial`, `Dyon.C29_param_value_partial`, `Dyon.C30_captured`, `Dyon.C30_snapshot_partial`, `Dyon.C30_levels`, `Dyon.Demo.C30_try_captured_by_reference`, `Dyon.C31_write`, `Dyon.C31_read_partial`, `Dyon.C31_assign_partial`, `Dyon.C31_insert_partial`, `Dyon.C31_replace_partial`, `Dyon.C31_missing_partial`, `Dyon.C31_assign_missing_partial`, `Dyon.C31_indices_then_computed`, `Dyon.C31_indices_panic`, `Dyon.C31_negative_index`, `Dyon.C31_reference_replaced`, `Dyon.Mod.C32_plain`, `Dyon.Mod.C32_alias_partial`, `Dyon.Mod.C32_arity`, `Dyon.Mod.C32_signature`, `Dyon.Mod.C32_signature_crash`, `Dyon.Mod.C32_renamed_mut`, `Dyon.Mod.C32_alias_lazy`, `Dyon.Mod.C32_go_alias`, `Dyon.Mod.C33_stable`, `Dyon.Mod.C33_import`, `Dyon.Mod.C33_importTransitive`, `Dyon.Mod.C33_import_host`, `Dyon.Mod.C33_calls`, `Dyon.Mod.C33_go`, `Dyon.Data.C34_round_trip_partial`, `Dyon.Data.C34_result`, `Dyon.Data.C34_matrix`, `Dyon.Data.C34_matrix_text`, `Dyon.Data.C34_empty_key`, `Dyon.Data.C35_terminates`, `Dyon.Data.C35_fuel`, `Dyon.Data.C35_opt_w`, `Dyon.Data.C35_comment`, `Dyon.Data.C36_top_level_partial`, `Dyon.Data.C36_not_in_array`, `Dyon.Text.C37_ink`, `Dyon.Text.C37_strings_partial`, `Dyon.Text.C37_line_comment_partial`, `Dyon.Text.C37_escape`, `Dyon.Text.C37_joins`, `Dyon.Text.C37_comment_takes_string`, `Dyon.Syn.C38_executed`, `Dyon.Syn.C38_checked`, `Dyon.Syn.C39_round_trip_partial`, `Dyon.Syn.C39_injective_partial`, `Dyon.Syn.C39_arith_partial`, `Dyon.Syn.C39_statement_partial`, `Dyon.Syn.C39_statement_injective_partial`, `Dyon.Syn.C39_loop_word`, `Dyon.Syn.C39_return_compared`, `Dyon.Syn.C39_neg_of_sum`, `Dyon.Syn.C39_zero_vector`, `Dyon.Syn.C40_value`, `Dyon.Syn.C41_sound`, `Dyon.Syn.C41_declared_inside`, `Dyon.Syn.C41_nested_index`, `Dyon.Syn.C41_own_variable`, `Dyon.Syn.C41_loop_name_leaks`, `Dyon.Syn.C41_computed_index`, `Dyon.C42_eval`, `Dyon.C42_grab`, `Dyon.C42_duplicate_key`, `Dyon.C43_round_trip`, `Dyon.C43_push_pop`, `Dyon.C43_push_pop_all`, `Dyon.C43_large_usize`, `Dyon.C43_obj_field_ref`, `Dyon.C43_vec4_f32`, `Dyon.C43_vec4_f64`, `Dyon.C44_no_references`, `Dyon.C44_void_gives_argument`, `Dyon.C44_void_crashes`, `Dyon.C47_s`, `Dyon.C47_rv`, `Dyon.C47_mov`, `Dyon.C47_scale`, `Dyon.C47_ortho`, `Dyon.C48_current`, `Dyon.Mod.C49_names`, `Dyon.Mod.C49_duplicates`, `Dyon.Mod.C49_call`, `Dyon.Mod.C49_named`, `Dyon.Mod.C50_listing`, `Dyon.Mod.C50_names`, `Dyon.Mod.C50_found`, `Dyon.Mod.C50_of_module`, `Dyon.Mod.C50_argument`, `Dyon.Mod.C50_made`, `Dyon.Mod.C50_types`, `Dyon.Mod.C50_secret`, `Dyon.Text.C51_json`, `Dyon.Text.C51_crash`, `Dyon.Mod.C54_failed_load_partial`, `Dyon.Mod.C54_refused_file_is_loaded`, `Dyon.Check.C55_accepted`, `Dyon.Check.C55_unique`, `Dyon.Check.C55_complete`, `Dyon.Check.C55_no_grab`, `Dyon.Check.Demo.C55_grab_loop_panics`, `Dyon.Check.C56_assign`, `Dyon.Check.C56_call`, `Dyon.Check.Demo.C56_insert_changes`, `Dyon.Check.C57_declare_partial`, `Dyon.Check.C57_set_partial`, `Dyon.Check.C57_property_partial`, `Dyon.Check.C57_return_partial`, `Dyon.Check.C57_return_some`, `Dyon.Check.C57_math_partial`, `Dyon.Check.C57_block_partial`, `Dyon.Check.C57_param_partial`, `Dyon.Check.C57_go`, `Dyon.Check.C57_void`, `Dyon.Check.C57_call_args_partial`, `Dyon.Check.C57_go_host`, `Dyon.Check.C57_host_param_partial`, `Dyon.Check.Demo.C57_longest_part`, `Dyon.Check.Demo.C57_return_longest_part`, `Dyon.Check.Demo.C57_property_of_argument`, `Dyon.Check.Demo.C57_swizzle`, `Dyon.Check.Demo.C57_longest_part_runs`, `Dyon.Check.Demo.C57_property_of_argument_runs`, `Dyon.Check.C59_resolved_partial`, `Dyon.Check.C59_others`, `Dyon.Check.C59_distinct`, `Dyon.Check.C59_complete`, `Dyon.Check.Demo.C59_alias_arity`, `Dyon.Check.Demo.aliased_extra_argument_panics`, `Dyon.Check.C60_argument`, `Dyon.Check.Demo.wrong_argument_rejected`, `Dyon.Check.Demo.property_argument_accepted`, `Dyon.Check.Demo.closure_argument_accepted`, `Dyon.Check.C61_return`, `Dyon.Check.C61_some_return_partial`, `Dyon.Check.Demo.wrong_return_rejected`, `Dyon.Check.Demo.no_return_rejected`, `Dyon.Check.Demo.missing_return_accepted`, `Dyon.Check.C62_if`, `Dyon.Check.C63_unused`, `Dyon.Check.C64_takes`, `Dyon.Check.C64_parameter`, `Dyon.Check.C64_counter`, `Dyon.Check.C64_host`, `Dyon.Check.C64_call`, `Dyon.Check.C64_local`, `Dyon.Check.C64_go`, `Dyon.Check.C64_sift`, `Dyon.Check.C64_refined`, `Dyon.Check.C64_host_refined`, `Dyon.Check.C64_overload`, `Dyon.Check.Demo.reassign_accepted`, `Dyon.Check.C65_extra`, `Dyon.Check.C65_accepted`, `Dyon.Check.C66_accepted_iff`, `Dyon.Check.C66_others`, `Dyon.Check.Demo.C66_host_accepted`, `Dyon.Data.C67_load_iff`, `Dyon.Data.C67_unambiguous`, `Dyon.Data.C67_last_entry`, `Dyon.Front.C68_expression`, `Dyon.Front.C68_functions`, `Dyon.Front.C68_no_panic`, `Dyon.Front.C68_total`, `Dyon.Front.C68_paren`, `Dyon.Front.C68_mut_names`, `Dyon.Front.C68_words_dropped`, `Dyon.Front.C76_file`, `Dyon.Front.C68_go_alias`, `Dyon.Plain.C69_variables_exist_partial`, `Dyon.Plain.C69_session_partial`, `Dyon.Plain.RunDemo.C69_own_count_stops`, `Dyon.Plain.RunDemo.C69_no_result_stops`, `Dyon.Plain.RunDemo.C69_grab_loop_stops`, `Dyon.Plain.RunDemo.C69_list_inside_stops`, `Dyon.Check.C69_scopes_partial`, `Dyon.Check.C69_stored_partial`, `Dyon.Check.TextDemo.C69_own_range_accepted`, `Dyon.Check.TextDemo.C69_own_count_accepted`, `Dyon.Check.TextDemo.C69_own_range_panics`, `Dyon.Check.TextDemo.C69_call_declares`, `Dyon.Check.TextDemo.C69_high_grab`, `Dyon.Check.TextDemo.C69_mut_closure_panics`, `Dyon.Check.TextDemo.C69_low_grab`, `Dyon.Check.C70_ends_partial`, `Dyon.Check.C70_text_partial`, `Dyon.Check.EndDemo.C70_endless`, `Dyon.C71_call_ret`, `Dyon.C71_call`, `Dyon.C71_refused`, `Dyon.C71_contract`, `Dyon.C71_run`, `Dyon.Demo.C71_deadlock`, `Dyon.C72_trim`, `Dyon.C72_parse_number`, `Dyon.C72_chars`, `Dyon.C72_other_kinds`, `Dyon.C72_color`, `Dyon.C73_param`, `Dyon.C73_run_ret`, `Dyon.C73_value`, `Dyon.C73_wrong_kind`, `Dyon.C73_vec4`, `Dyon.C73_run`, `Dyon.C73_no_result`, `Dyon.C73_fails`, `Dyon.C73_again`, `Dyon.C73_missing_crashes`, `Dyon.Demo.C73_few_arguments`, `Dyon.Demo.C73_returned_argument`, `Dyon.Demo.C73_run_again`, `Dyon.Demo.C73_run_again_crash`, `Dyon.Demo.C73_stale_current`, `Dyon.C74_keeps`, `Dyon.C74_struct`, `Dyon.C74_struct_fields`, `Dyon.Mod.C75_module`, `Dyon.Mod.C75_load`, `Dyon.Mod.C75_like_host`, `Dyon.Mod.C75_refused`, `Dyon.Mod.C75_flag_crash`, `Dyon.Mod.C76_imported`, `Dyon.Front.C76_linked`, `Dyon.Front.C76_written`, `Dyon.Front.C76_load_keeps`, `Dyon.Front.C76_loads`, `Dyon.Front.LoadDemo.C76_empty_list`, `Dyon.Front.LoadDemo.C76_first_last`, `Dyon.C77_expr`, `Dyon.C77_call`, `Dyon.C77_closure`, `Dyon.C77_plain`, `Dyon.Check.C78_accepted_iff`, `Dyon.Check.C78_refused`, `Dyon.Check.RangeDemo.C78_second_range`, `Dyon.Check.RangeDemo.C78_local_list`, `Dyon.Check.RangeDemo.C78_behind_sum`, `Dyon.C79_decided`, `Dyon.C79_operator_accepted_partial`, `Dyon.C79_operator_refused_partial`, `Dyon.C79_unary_accepted_partial`, `Dyon.C79_unary_refused_partial`, `Dyon.C79_library_more`, `Dyon.C79_library_more_sure`, `Dyon.SigsDemo.C79_option_links`, `Dyon.SigsDemo.C79_option_mixed`, `Dyon.SigsDemo.C79_named_secret`, `Dyon.SigsDemo.C79_void_arrays`, `Dyon.C80_expr`, `Dyon.C80_call`, `Dyon.C80_closure`, `Dyon.C80_plain`, `Dyon.C80_text`, `Dyon.C80_library`, `Dyon.Demo.C80_mark_matters`, `Dyon.Sound.Small.C81_text_partial`, `Dyon.Sound.Small.body_typed`, `Dyon.Sound.C81_runs_partial`, `Dyon.Sound.C81_calls_partial`, `Dyon.Sound.C81_main_partial`, `Dyon.Sound.C81_checked_partial`, `Dyon.Sound.C81_result_partial`, `Dyon.Sound.honest_binop`, `Dyon.Sound.honest_unop`, `Dyon.Sound.gives_binop`, `Dyon.Sound.gives_unop`, `Dyon.Sound.Lost.C81_reference_lost`, `Dyon.Sound.Wrong.C81_types_lost`, `Dyon.Sound.Unchecked.C81_unchecked`, `Dyon.Check.C82_file_partial`, `Dyon.Check.C82_message_partial`, `Dyon.Check.C82_proposes`, `Dyon.Check.C82_panics_iff`, `Dyon.Check.C82_plain`, `Dyon.Check.SuggestDemo.C82_last_letter`, `Dyon.Check.SuggestDemo.C82_report_panics`, `Dyon.Check.C83_add_assign`, `Dyon.Check.C83_number`, `Dyon.Check.C83_swizzle`, `Dyon.Check.C83_grab`, `Dyon.Check.C83_go`, `Dyon.Check.Demo.add_refused`, `Dyon.Check.Demo.add_plain_accepted`, `Dyon.Check.Demo.number_refused`, `Dyon.Check.Demo.go_refused`, `Dyon.Check.Demo.swizzle_refused`, `Dyon.File.C84_save_string`, `Dyon.File.C84_load_string`, `Dyon.File.C84_string_back`, `Dyon.File.C84_save_data_partial`, `Dyon.File.C84_data_back_partial`, `Dyon.File.C84_meta`, `Dyon.File.C84_lost`, `Dyon.Draw.C85_drawn`, `Dyon.Draw.C85_drawn_all`, `Dyon.Draw.C85_idle`, `Dyon.Draw.C85_font`, `Dyon.Draw.C85_no_panic_partial`, `Dyon.Draw.C85_texture_panics`, `Dyon.Draw.C86_set`, `Dyon.Draw.C86_back`, `Dyon.Draw.C86_position`, `Dyon.Draw.C86_create`, `Dyon.Draw.C86_load`, `Dyon.Draw.C86_below_zero`, `Dyon.Color.C87_host`, `Dyon.Color.C87_near`, `Dyon.Color.C87_order`, `Dyon.Color.C87_doubles`, `Dyon.Color.C87_whole_partial`, `Dyon.Color.C87_whole_lost`, `Dyon.Color.C87_literal`, `Dyon.Color.C87_stable`, `Dyon.Color.C87_copy`, `Dyon.Color.C87_pixel`, `Dyon.Observe.C88_delivered`, `Dyon.Observe.C88_knows`, `Dyon.Observe.C88_once`, `Dyon.Observe.C88_queue`, `Dyon.Observe.C88_order`, `Dyon.Observe.C88_past`, `Dyon.Observe.C88_flag`, `Dyon.Observe.C88_forget`, `Dyon.Observe.C88_calls_go_on`, `Dyon.Observe.C88_receivers`, `Dyon.Observe.C88_wait_some`, `Dyon.Observe.C88_wait_forever`, `Dyon.Observe.C88_next_waits`, `Dyon.Console.C89_print`, `Dyon.Console.C89_println`, `Dyon.Console.C89_eprint`, `Dyon.Console.C89_print_ends`, `Dyon.Console.C89_text`, `Dyon.Console.C89_read_line`, `Dyon.Console.C89_end`, `Dyon.Console.C89_number`, `Dyon.Console.C89_number_ends`, `Dyon.Console.C89_history`, `Dyon.Console.C89_number_endless`, `Dyon.Console.C89_message_panics`, `Dyon.Console.C89_closed_panics`, `Dyon.Mod.C90_check`, `Dyon.Mod.C90_tree`, `Dyon.Mod.C90_faithful`, `Dyon.Mod.C91_load`, `Dyon.Mod.C91_refused`, `Dyon.Mod.C91_argument`, `Dyon.Mod.C91_same_partial`, `Dyon.Mod.C91_unreadable_panics`, `Dyon.Mod.C91_lookup_bypassed`, `Dyon.File.C92_text`, `Dyon.File.C92_download`, `Dyon.File.C92_back`, `Dyon.File.C92_meta`, `Dyon.Wait.C93_sleep`, `Dyon.Wait.C94_monotone`, `Dyon.Wait.C94_accurate`, `Dyon.File.C95_meta`, `Dyon.File.C95_like_files`, `Dyon.File.C95_like_web`, `Dyon.File.C96_texts`, `Dyon.File.C96_invalid`, `Dyon.File.C96_faithful`, `Dyon.Color.C97_linear_order`, `Dyon.Color.C97_linear_order_partial`, `Dyon.Color.C97_srgb_order_partial`, `Dyon.Color.C97_srgb_bright_order_partial`, `Dyon.Color.C97_order_lost`, `Dyon.Color.C97_dark_bytes_partial`, `Dyon.Color.C97_white_linear`, `Dyon.Color.C97_white_lost`, `Dyon.Link.C98_never_freed_early`, `Dyon.Link.C98_links`, `Dyon.Link.C98_freed_partial`
- `propext`, `Quot.sound` (122): `Dyon.C01_functions`, `Dyon.Link.C03_block_bounds`, `Dyon.C11_object`, `Dyon.C11_not_equal`, `Dyon.C13_concat_assoc`, `Dyon.C13_concat_neutral`, `Dyon.C13_neg_neg`, `Dyon.C13_mat4`, `Dyon.C13_negative`, `Dyon.C13_cross`, `Dyon.C15_push`, `Dyon.C15_insert_out_of_bounds`, `Dyon.C15_remove`, `Dyon.C15_remove_out_of_bounds`, `Dyon.C15_swap_partial`, `Dyon.C15_swap_panics`, `Dyon.C15_not_an_array`, `Dyon.C16_not_an_array`, `Dyon.C17_why`, `Dyon.C17_where`, `Dyon.C17_explain_why`, `Dyon.C17_explain_where`, `Dyon.C17_nested_why`, `Dyon.C17_nested_where`, `Dyon.C18_link`, `Dyon.C18_link_leaves`, `Dyon.C20_break`, `Dyon.C20_continue`, `Dyon.C20_loop_catches`, `Dyon.C20_call`, `Dyon.C22_subscribe`, `Dyon.C26_returns_error`, `Dyon.C29_value`, `Dyon.C29_void`, `Dyon.C29_superfluous`, `Dyon.C29_body_fails`, `Dyon.C29_param`, `Dyon.C29_closure_value`, `Dyon.C29_closure_void`, `Dyon.C29_closure_param`, `Dyon.C30_created`, `Dyon.C30_no_grabs`, `Dyon.C30_call`, `Dyon.Data.C35_skips_unique`, `Dyon.Syn.C39_pow_of_neg`, `Dyon.Syn.C39_mul_of_neg`, `Dyon.Syn.C39_not_of_and`, `Dyon.Syn.C39_chain_of_comparisons`, `Dyon.Syn.C39_sum_compared`, `Dyon.Syn.C39_array_first`, `Dyon.Syn.C39_try_of_sum`, `Dyon.Syn.C39_array_fill`, `Dyon.Syn.C39_item_try`, `Dyon.Syn.C39_labels`, `Dyon.Syn.C39_closure_currents`, `Dyon.Syn.C39_empty_block`, `Dyon.Syn.C40_unloop_partial`, `Dyon.Syn.C41_first_partial`, `Dyon.Syn.C41_loop`, `Dyon.Syn.C41_loops`, `Dyon.Syn.C41_for_shadows`, `Dyon.C43_obj_field`, `Dyon.C44_param`, `Dyon.Thr.C45_at_most_once`, `Dyon.Thr.C45_no_handle_left`, `Dyon.Thr.C45_join_variable`, `Dyon.Thr.C45_join_value`, `Dyon.C46_round_trip`, `Dyon.C46_none`, `Dyon.C46_unwrap_error`, `Dyon.C46_other_kinds`, `Dyon.C47_entries`, `Dyon.C47_literal`, `Dyon.C47_vector_literal`, `Dyon.C47_components`, `Dyon.C47_rows`, `Dyon.C47_columns`, `Dyon.C47_cv`, `Dyon.C47_wrong_kind`, `Dyon.C47_swizzle`, `Dyon.C47_mvp`, `Dyon.C48_missing`, `Dyon.Lt.C52_locals`, `Dyon.Lt.C53_outlives_sound_partial`, `Dyon.Lt.C53_siblings_unsound`, `Dyon.Check.C56_rejects`, `Dyon.Check.C57_host_call`, `Dyon.Check.C57_host_call_lives`, `Dyon.Check.C66_host_fails`, `Dyon.Data.C67_keys_once`, `Dyon.C71_other_kinds`, `Dyon.C71_locked`, `Dyon.C72_keys`, `Dyon.C72_typeof`, `Dyon.C72_is_nan`, `Dyon.C74_call`, `Dyon.C74_call_void`, `Dyon.C74_bad_value`, `Dyon.C74_wrong_kind`, `Dyon.C74_wrong_object`, `Dyon.C74_same_object`, `Dyon.C74_struct_missing`, `Dyon.Mod.C75_bad_import`, `Dyon.C79_lazy`, `Dyon.C79_library_sure`, `Dyon.SigsDemo.C79_cv`, `Dyon.File.C84_old_contents_lost`, `Dyon.Draw.C85_moves`, `Dyon.Draw.C85_moves_at`, `Dyon.Draw.C85_fixed`, `Dyon.Draw.C85_distances`, `Dyon.Draw.C85_order`, `Dyon.Draw.C85_short_panics`, `Dyon.Draw.C86_set_outside`, `Dyon.Draw.C86_get`, `Dyon.Draw.C86_get_outside`, `Dyon.Draw.C86_image_size`, `Dyon.Draw.C86_create_panics`, `Dyon.Mod.C90_secret_panics`, `Dyon.File.C95_argument`, `Dyon.Link.C98_leak`, `Dyon.Link.C98_leak_link`
- `propext` (79): `Dyon.Lt.C07_transitive`, `Dyon.C13_bool`, `Dyon.C13_concat`, `Dyon.C13_vec4`, `Dyon.C13_not_not`, `Dyon.C13_dot`, `Dyon.C14_cycle`, `Dyon.C14_options_not_entered`, `Dyon.C15_push_ref`, `Dyon.C15_pop`, `Dyon.C15_pop_empty`, `Dyon.C15_reverse`, `Dyon.C15_clear`, `Dyon.C15_negative_index`, `Dyon.C16_skips`, `Dyon.C21_empty`, `Dyon.C21_in_order`, `Dyon.C22_not_observed`, `Dyon.C22_call_not_observed`, `Dyon.C25_ok`, `Dyon.C25_flow`, `Dyon.C25_only_failure`, `Dyon.C26_unwraps`, `Dyon.C26_requires_return`, `Dyon.C26_other`, `Dyon.C27_and_false`, `Dyon.C27_or_true`, `Dyon.C27_and_true`, `Dyon.C27_or_false`, `Dyon.C27_first_fails`, `Dyon.C27_second_fails`, `Dyon.C28_lazy_value`, `Dyon.C29_args_kept`, `Dyon.C30_kept`, `Dyon.Demo.C30_if_order`, `Dyon.Mod.C32_alias_arity`, `Dyon.Syn.C40_channel_loop`, `Dyon.Syn.C40_range`, `Dyon.Syn.C40_property`, `Dyon.Syn.C40_assigned`, `Dyon.Syn.C40_closure`, `Dyon.Syn.C40_call_closure`, `Dyon.Syn.C41_channel_body`, `Dyon.C43_wrong_kind`, `Dyon.C43_short_array`, `Dyon.C43_long_array`, `Dyon.C44_start`, `Dyon.C44_result`, `Dyon.Thr.C45_refused_join_drops`, `Dyon.Thr.C45_overwrites`, `Dyon.C48_host`, `Dyon.Lt.C52_one_of_the_parts_partial`, `Dyon.Lt.C52_keeps_longest_part`, `Dyon.Check.Demo.C55_grab_loop`, `Dyon.Check.Demo.C56_insert_accepted`, `Dyon.C58_value_partial`, `Dyon.C58_equal`, `Dyon.C58_defined`, `Dyon.C58_link`, `Dyon.C58_set`, `Dyon.C58_statement_partial`, `Dyon.C58_secret_differs`, `Dyon.C58_bool_panics`, `Dyon.C58_matrix_number`, `Dyon.C71_from_host`, `Dyon.C73_args`, `Dyon.C73_args_all`, `Dyon.C73_unknown`, `Dyon.C73_run_host_function`, `Dyon.C74_struct_of_object`, `Dyon.C74_struct_wrong`, `Dyon.Front.LoadDemo.C76_alias_all_arguments`, `Dyon.C79_library_result_partial`, `Dyon.Draw.C86_never_vec4`, `Dyon.Console.C89_number_line`, `Dyon.Console.C89_read_panics`, `Dyon.Mod.C90_flag_panics`, `Dyon.File.C92_old_contents_lost`, `Dyon.Color.C97_parts`
- `Quot.sound` (1): `Dyon.Console.C89_read_fails`
- none (2): `Dyon.Lt.C07_local_shortest`, `Dyon.Syn.C38_same_functions`
