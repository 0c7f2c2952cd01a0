{"id": "C01", "title": "A link is a sequence of scalars", "statement": "Whatever history of `link {}` construction, appending (`+=` / push), concatenation (`+`), prepending (`-=`), `tail` and `neck` produced a link, the link behaves as the plain list of the scalars it should hold: `head`, `tip`, `tail`, `neck`, `is_empty` and iteration give exactly the first element, last element, list without the first, list without the last, emptiness and the elements in order. No operation in such a history ever reads beyond the end of a storage block.", "quantifier": "every finite history of link operations over every scalar value, of any length (crossing any number of 124-entry storage blocks)", "why_tests_cant": "Block boundaries, stale entries left behind by `neck` and re-used by a later push, and slices of shared blocks combine in unboundedly many ways; a test only visits a few histories.", "anchors": ["src/link.rs: Link::{new,head,tip,tail,neck,is_empty,add,push}, Block::{var,push}, BLOCK_SIZE"]}
{"id": "C02", "title": "Links sharing storage never influence each other", "statement": "Appending to, taking the tail/neck of, concatenating or dropping one link never changes what any other live link (including clones, tails, necks and concatenations that share its storage blocks) contains.", "quantifier": "every finite history of operations on any number of live links sharing blocks, with arbitrary reference counts", "why_tests_cant": "The in-place write of a push happens exactly when the reference count is one; whether an alias exists depends on the whole history.", "anchors": ["src/link.rs: Link::{push,tail,neck,add}, Slice, Block (Clone), Arc::make_mut"]}
{"id": "C03", "title": "Link storage packs and unpacks scalars faithfully", "statement": "Writing a bool, number or string at position i of a link block and reading any position j back gives the written scalar for j = i and the old content for j ≠ i; secrets are dropped; pushing any other kind of value is an error that leaves the link unchanged; pushing a link appends its elements one by one.", "quantifier": "every block content, every pair of positions below the block size and every value", "why_tests_cant": "The element type is kept as two bits inside one of four 64-bit words; the claim is about all 124×124 position pairs and all words.", "anchors": ["src/link.rs: Block::{push,var}, Link::push"]}
{"id": "C04", "title": "Type compatibility laws", "statement": "`goes_with` accepts every type against itself, `any` accepts everything except void, void only goes with void or unreachable, unreachable goes with everything; two different ad-hoc (named) types are never compatible, while an ad-hoc type is compatible with its inner type in both directions.", "quantifier": "every type expression of any nesting depth", "why_tests_cant": "Types nest without bound and the ad-hoc rule swaps the direction of the comparison midway.", "anchors": ["src/ty.rs: Type::goes_with"]}
{"id": "C05", "title": "Type compatibility is sound for values", "statement": "If the checker accepts an argument of type T where S is declared (S.goes_with(T)), and T makes a definite promise (no `any`, no unreachable), then every run-time value of type T is a value of type S.", "quantifier": "every pair of types and every value", "why_tests_cant": "It relates an unbounded set of type pairs to an unbounded set of values.", "anchors": ["src/ty.rs: Type::goes_with", "src/lib.rs: Variable"]}
{"id": "C06", "title": "Extra type signatures are tried in order and bind type variables consistently", "statement": "When a function declares extra type signatures, the call gets the return type of the first signature all of whose arguments are compatible; type variables bound to an ad-hoc name keep that binding for the rest of the signature, a second different ad-hoc name is an error, an undetermined argument delays the call, and no matching signature is a type error.", "quantifier": "every list of extra signatures and every list of argument types", "why_tests_cant": "The signature list, argument list and nesting of types are unbounded.", "anchors": ["src/lifetime/typecheck/refine.rs: prelude, declaration, report", "src/ty.rs: bind_ty_vars, insert_var, insert_none_var, ambiguous"]}
{"id": "C07", "title": "Outlives order on lifetimes", "statement": "The comparison of lifetimes is reflexive where defined, antisymmetric in the sense that swapping the operands reverses the answer, and locals never outlive arguments, current objects or the return value; a later-declared local never outlives an earlier one; and the order is transitive.", "quantifier": "every pair of lifetimes with arbitrary argument lists; for transitivity every triple of lifetimes the checker computes within one function", "why_tests_cant": "Argument lists are unbounded and the comparison only inspects overlap and length.", "anchors": ["src/lifetime/lt.rs: Lifetime::partial_cmp, compare_argument_outlives"]}
{"id": "C08", "title": "The lifetime checker rejects storing a shorter-lived reference", "statement": "An assignment or store whose right side does not strictly outlive its left side is rejected, and one whose right side does outlive the left is accepted; the checker never crashes while deciding.", "quantifier": "every pair of lifetime results the checker can compute", "why_tests_cant": "All combinations of argument chains are possible.", "anchors": ["src/lifetime/lt.rs: compare_lifetimes"]}
{"id": "C09", "title": "Checking argument lifetimes terminates", "statement": "For every function signature the checker either rejects it because argument lifetimes form a cycle (or name a missing argument), or resolving each argument's lifetime terminates and yields the chain of arguments it outlives.", "quantifier": "every list of arguments with arbitrary lifetime annotations", "why_tests_cant": "Cycles of every length and position, with `'return` anywhere among the arguments, must be covered.", "anchors": ["src/lifetime/mod.rs: check_core (lifetime existence and cycle checks)", "src/lifetime/lt.rs: arg_lifetime"]}
{"id": "C10", "title": "Run-time lifetime check of the dynamic call interface", "statement": "When a host or script calls a loaded function dynamically with arguments on the stack, the call is accepted only if every argument with a lifetime annotation is a reference that outlives the argument it is annotated with, looking through arrays and objects.", "quantifier": "every stack content and every list of argument annotations", "why_tests_cant": "The nesting of references inside arrays and objects is unbounded.", "anchors": ["src/dyon_std/lifetimechk.rs: check, min_ref"]}
{"id": "C11", "title": "Equality operator laws", "statement": "`==` is symmetric (including in which operand kinds give an error) on all values, `!=` is its negation, and it is reflexive on every comparable value that contains no NaN.", "quantifier": "every pair of values of any nesting depth", "why_tests_cant": "Values nest without bound.", "anchors": ["src/dyon_std/mod.rs: equal, not_equal", "src/lib.rs: impl PartialEq for Variable"]}
{"id": "C12", "title": "Comparison operators are consistent", "statement": "`a > b` is `b < a`, `a >= b` is `b <= a`, and for any two numbers exactly the expected relation holds; with a NaN operand every comparison except `!=` is false.", "quantifier": "every pair of numbers (including infinities and NaN) and strings", "why_tests_cant": "The claim is about all pairs of floats, including the special values.", "anchors": ["src/dyon_std/mod.rs: less, less_or_equal, greater, greater_or_equal"]}
{"id": "C13", "title": "Boolean and link arithmetic", "statement": "`+`, `*`, `-`, `^`, `!` on booleans are or, and, and-not, xor, not and keep the secret of the operand they document; `+` on strings and links is concatenation (associative, with the empty string/link as neutral element); operators on vectors and on a matrix and a number act on every component, in the order of the operands; every other combination of kinds is an error and never a wrong value.", "quantifier": "every pair of operand values", "why_tests_cant": "All operand kind pairs and all strings/links must be covered.", "anchors": ["src/dyon_std/mod.rs: add, sub, mul, pow, not"]}
{"id": "C14", "title": "Deep clone yields a self-contained value", "statement": "A value sent to a thread, returned from a thread or sent on a channel contains no reference into the sender's stack, and equals the original with all references replaced by what they pointed to.", "quantifier": "every stack and every value whose references are acyclic", "why_tests_cant": "References can be nested at any depth inside arrays, objects, options and results.", "anchors": ["src/lib.rs: Variable::deep_clone", "src/runtime/mod.rs: go, call_loaded (senders)"]}
{"id": "C15", "title": "Array library functions behave like list operations", "statement": "push, push_ref, pop, insert, insert_ref, remove, reverse, clear, swap and len on an array change it exactly as the list operation of that name, out-of-bounds indices are reported as errors leaving the array unchanged, and no other variable on the stack changes.", "quantifier": "every stack, every array and every index", "why_tests_cant": "Unbounded arrays, every index and every other stack slot.", "anchors": ["src/dyon_std/mod.rs: push_ref, insert_ref, push, insert, pop, remove, reverse, clear, swap, len"]}
{"id": "C16", "title": "min and max of an array", "statement": "`min`/`max` of an array of numbers returns an element that bounds all non-NaN elements, and NaN exactly when the array has no non-NaN number; a non-number element is an error.", "quantifier": "every array of numbers", "why_tests_cant": "Every order and placement of NaN in arrays of unbounded length.", "anchors": ["src/dyon_std/mod.rs: min, max"]}
{"id": "C17", "title": "why and where return the recorded secret", "statement": "For a bool/number produced by nested any/all/min/max loops, `why`/`where` return the indices outermost loop first, and calling them on a value without meaning is an error.", "quantifier": "every nesting depth and every loop result", "why_tests_cant": "Loop nesting and lengths are unbounded.", "anchors": ["src/dyon_std/mod.rs: why, _where, explain_why, explain_where", "src/runtime/for_n.rs: any_n_expr, all_n_expr, min_n_expr, max_n_expr"]}
{"id": "C18", "title": "Counting loops visit each index once in order", "statement": "`for i [a,b)`, `sum`, `prod`, `min`, `max`, `any`, `all`, `sift`, `link`, `sum_vec4`, `prod_vec4` over an index range run the body for i = a, a+1, ... while i < b, and produce the fold the loop is named after; `continue` skips the contribution of one index and `break` stops the loop.", "quantifier": "every range, every body, every pattern of continue/break", "why_tests_cant": "Loops run for an unbounded number of iterations with arbitrary bodies.", "anchors": ["src/runtime/for_n.rs"]}
{"id": "C19", "title": "any/all/min/max identify a witness", "statement": "`any` is true iff some visited body value is true and its secret is the first such index; `all` is false iff some body value is false and its secret is the first such index; `min`/`max` carry the index of an optimal element.", "quantifier": "every range and body", "why_tests_cant": "Unbounded ranges and arbitrary bodies.", "anchors": ["src/runtime/for_n.rs: any_n_expr, all_n_expr, min_n_expr, max_n_expr"]}
{"id": "C20", "title": "Labelled break and continue reach exactly the named loop", "statement": "An unlabelled break/continue affects the innermost loop; a labelled one passes through loops with other labels and is consumed by the innermost enclosing loop with that label, with the inner loops stopped.", "quantifier": "every nesting of loops and labels", "why_tests_cant": "Nesting depth is unbounded.", "anchors": ["src/runtime/for_n.rs", "src/runtime/mod.rs: for_expr", "src/ast/mod.rs: ForN::create"]}
{"id": "C21", "title": "Channel loops consume messages in order", "statement": "A loop over an in-channel runs its body for every message already received, in the order sent, and stops when the channel is empty, producing the fold the loop is named after.", "quantifier": "every queue of messages and every body", "why_tests_cant": "Queue lengths are unbounded.", "anchors": ["src/runtime/for_in.rs"]}
{"id": "C22", "title": "Function-call observers get every call exactly once", "statement": "When a loaded function with subscribed in-channels is called, every subscriber whose receiver is alive gets exactly one copy of the arguments, dead subscribers are dropped, live subscribers are all kept, and the subscription flag is on iff some subscriber remains.", "quantifier": "every list of subscribers and every liveness pattern", "why_tests_cant": "Any subset of subscribers may be dead; the in-place swap compaction runs backwards.", "anchors": ["src/runtime/mod.rs: call_loaded, in_expr"]}
{"id": "C23", "title": "Scopes restore the stacks", "statement": "After a block, loop or call finishes (by falling through, return, break or continue) the variable, local, current-object and call stacks have the lengths they had before, and values below the entry height are only changed through assignments.", "quantifier": "every program, every state and every way of leaving the scope", "why_tests_cant": "Nesting, recursion and flow combinations are unbounded.", "anchors": ["src/runtime/mod.rs: block, call_loaded, call_closure, for_expr, expression", "src/runtime/for_n.rs"]}
{"id": "C24", "title": "Static variable slots agree with name lookup", "statement": "At every variable access in an accepted program, the slot computed at load time is the slot of the innermost visible variable with that name (the check done by the debug_lookup feature never fails).", "quantifier": "every program, every execution", "why_tests_cant": "The static offset must match the run-time stack height on every path, including early exits.", "anchors": ["src/ast/mod.rs: get_locals of every node", "src/runtime/mod.rs: item (debug_lookup)"]}
{"id": "C25", "title": "try catches every run-time error and unwinds", "statement": "`try e` yields ok(v) when e yields v, err(message) when e fails at run time, and in the error case the call stack, variable stack, locals and current objects have exactly the lengths they had before e.", "quantifier": "every expression and every point at which it can fail", "why_tests_cant": "An error may occur at any nesting of calls, blocks and loops.", "anchors": ["src/runtime/mod.rs: try_expr"]}
{"id": "C26", "title": "The ? operator", "statement": "`x?` unwraps ok/some, turns err/none (and false, NaN, or a value without secret) into an early `err` return of the enclosing function with one trace entry appended, and is an error in a function without a return value.", "quantifier": "every value and every call context", "why_tests_cant": "All value kinds and call depths.", "anchors": ["src/runtime/mod.rs: try_fun, try_msg, item"]}
{"id": "C27", "title": "Short-circuit evaluation", "statement": "`a && b` evaluates b only when a is true and `a || b` only when a is false; the result is the documented boolean.", "quantifier": "every pair of expressions, including ones that fail or have side effects", "why_tests_cant": "The claim is about not evaluating arbitrary expressions.", "anchors": ["src/runtime/mod.rs: call_lazy", "src/dyon_std/mod.rs: and_also, or_else", "src/lib.rs: LAZY_AND, LAZY_OR"]}
{"id": "C28", "title": "Lazy invariants leave the caller's variables intact", "statement": "Calling a function whose lazy invariant triggers returns the lazy value and leaves all stacks as they were before the call.", "quantifier": "every function, argument list and state", "why_tests_cant": "Depends on which argument triggers.", "anchors": ["src/runtime/mod.rs: call_lazy, call_loaded"]}
{"id": "C29", "title": "Calls to loaded functions deliver arguments and result", "statement": "Inside a called function the i-th parameter denotes the i-th argument value, current objects denote the innermost current with that name, and the value of the call is the returned value (or the value assigned to `return`); missing or superfluous values are errors.", "quantifier": "every function, arguments and state", "why_tests_cant": "Arbitrary recursion and stack heights.", "anchors": ["src/runtime/mod.rs: call_loaded, call_closure, push_fn, pop_fn"]}
{"id": "C30", "title": "Closures capture by value", "statement": "Evaluating `grab` at closure creation replaces it by the value at that moment; later changes to the grabbed variable do not affect the closure, and expressions at other grab levels are kept for outer/inner closures.", "quantifier": "every closure body and every later mutation", "why_tests_cant": "Closure bodies nest without bound.", "anchors": ["src/grab.rs: grab_expr", "src/runtime/mod.rs: closure, call_closure"]}
{"id": "C31", "title": "Assigning through items updates exactly one place", "statement": "`x[i].k = v` changes exactly the addressed element: every other index, key and variable keeps its value; `:=` on an object inserts the key; reading a missing key or out-of-range index is an error.", "quantifier": "every nested value and path", "why_tests_cant": "Nesting depth and path length are unbounded.", "anchors": ["src/runtime/mod.rs: item_lookup, item, assign"]}
{"id": "C32", "title": "Function lookup: checker, loader and run time agree", "statement": "The function the checker uses to check a call, the one the loader links and the one executed at run time are the same, for plain and namespaced (`use ... as`) calls.", "quantifier": "every module contents, import list and call name", "why_tests_cant": "Shadowing among externals, loaded functions and imports has unboundedly many shapes.", "anchors": ["src/module.rs: find_function", "src/prelude.rs: Prelude::from_module", "src/ast/mod.rs: UseLookup::{from_uses_module,from_uses_prelude}, Call::get_locals"]}
{"id": "C33", "title": "Importing a module preserves what its functions call", "statement": "After any sequence of imports, every call inside an imported function still executes the function it was linked to when its module was loaded.", "quantifier": "every sequence of loads and imports", "why_tests_cant": "Relative indices must stay valid under every order of imports.", "anchors": ["src/module.rs: import, register, find_function", "src/runtime/mod.rs: call_loaded"]}
{"id": "C34", "title": "Data written as text loads back unchanged", "statement": "Writing a data value (bool, number, string, vec4, option, array, object, link of scalars) in the JSON-like format and loading it back yields an equal value.", "quantifier": "every data value of any nesting depth", "why_tests_cant": "Values nest without bound and strings/keys are arbitrary.", "anchors": ["src/write.rs: write_variable", "src/dyon_std/data.rs: load_data"]}
{"id": "C35", "title": "The data loader terminates on every text", "statement": "load_data returns a value or an error for every input text; nested comments are skipped as documented.", "quantifier": "every input text", "why_tests_cant": "Loops in the reader run until no progress is made; only a proof covers all texts.", "anchors": ["src/dyon_std/data.rs: load_data, expr, opt_w, multi_line_comment"]}
{"id": "C36", "title": "Colour literals and trailing text in data", "statement": "Loading `#rrggbb` data yields the colour and consumes the whole literal, so that colours can be elements of arrays and objects.", "quantifier": "every colour and context", "why_tests_cant": "Depends on what follows the literal.", "anchors": ["src/dyon_std/data.rs: expr"]}
{"id": "C37", "title": "Code formatting only changes layout", "statement": "The formatter changes only white space: the sequence of non-blank characters is unchanged.", "quantifier": "every source text", "why_tests_cant": "All texts with arbitrary comments and strings.", "anchors": ["src/write.rs: fmt, write comment state machine"]}
{"id": "C38", "title": "Operator sequences associate to the left", "statement": "`a - b - c` means `(a - b) - c` and mixed chains of equal precedence group left to right, for chains of every length, both in the executed program and in the checked one.", "quantifier": "every operator chain", "why_tests_cant": "Chain length is unbounded.", "anchors": ["src/ast/mod.rs: BinOpSeq::into_expression", "src/lifetime/mod.rs: check_core (multi binop rewrite)"]}
{"id": "C39", "title": "Printed expressions keep their meaning", "statement": "The source text printed for a closure body parses back to the same expression.", "quantifier": "every expression", "why_tests_cant": "Expressions nest without bound.", "anchors": ["src/write.rs: write_expr, binop_needs_parens, write_call"]}
{"id": "C40", "title": "Unrolled vec4 loops substitute the index", "statement": "`vec4 i e` equals the vector whose k-th component is e with i bound to k, respecting shadowing of i inside e.", "quantifier": "every body expression", "why_tests_cant": "Arbitrary nesting of shadowing constructs.", "anchors": ["src/ast/mod.rs: Vec4UnLoop::into_expression", "src/ast/replace.rs: number"]}
{"id": "C41", "title": "Inferred loop ranges", "statement": "A counting loop without a range iterates over the length of the first list indexed by the loop variable in its body, and never over one declared inside the loop.", "quantifier": "every loop body", "why_tests_cant": "Arbitrary nesting.", "anchors": ["src/ast/infer_len.rs: infer", "src/ast/mod.rs: ForN::create"]}
{"id": "C42", "title": "Constant folding agrees with evaluation", "statement": "An expression folded at load time has the value it would have at run time.", "quantifier": "every constant expression", "why_tests_cant": "Arbitrary nesting.", "anchors": ["src/ast/mod.rs: precompute of Expression, Link, Object, Array, ArrayFill, Vec4", "src/runtime/mod.rs: link, object, array, array_fill, vec4"]}
{"id": "C43", "title": "Host values survive a push/pop round trip", "statement": "Pushing a host value (bool, numbers, string, option, result, vector, tuple, fixed array) and popping it at the same type gives it back; popping at the wrong type is an error.", "quantifier": "every host value of every supported type", "why_tests_cant": "Types and values nest without bound.", "anchors": ["src/embed.rs: PushVariable, PopVariable"]}
{"id": "C44", "title": "Spawned threads get their own arguments in order", "statement": "`go f(a,b,..)` runs f with the i-th parameter equal to a self-contained copy of the i-th argument, and the thread's variables are disjoint from the spawner's.", "quantifier": "every argument list", "why_tests_cant": "Argument count and nesting unbounded; stack is built reversed.", "anchors": ["src/runtime/mod.rs: go"]}
{"id": "C45", "title": "A thread result is delivered at most once", "statement": "A thread handle can be joined only by a sole owner and only once; joining a shared handle is an error.", "quantifier": "every history of handle copies and joins", "why_tests_cant": "Depends on history of handle copies.", "anchors": ["src/lib.rs: Thread::invalidate_handle", "src/dyon_std/mod.rs: join__thread"]}
{"id": "C46", "title": "unwrap family", "statement": "unwrap, unwrap_or, unwrap_err, is_ok, is_err, ok, err, some, none satisfy the usual option/result laws and report an error naming the message otherwise.", "quantifier": "every value", "why_tests_cant": "Values unbounded.", "anchors": ["src/dyon_std/mod.rs: unwrap, unwrap_or, unwrap_err, is_ok, is_err, some, none, ok, err"]}
{"id": "C47", "title": "Matrix and vector literals and accessors", "statement": "For a matrix literal with rows r0..r3, row and column accessors return the written rows and columns; swizzles and component accessors return the selected components; component access outside 0..3 is an error. `mov`, `scale`, `ortho` and `mvp` build the translation, the scaling, the transposed rotation part and the product they are named for.", "quantifier": "every matrix, vector and index", "why_tests_cant": "All component values.", "anchors": ["src/runtime/mod.rs: vec4, mat4, swizzle", "src/dyon_std/mod.rs: x,y,z,w,s,rx..rw,rv,cx..cw,cv", "src/mat4.rs"]}
{"id": "C48", "title": "Current objects resolve dynamically to the innermost binding", "statement": "A function declaring a current object sees the most recently introduced live current variable of that name, both from scripts and from the host interface, and a missing one is an error.", "quantifier": "every state and name", "why_tests_cant": "Arbitrary call nesting.", "anchors": ["src/runtime/mod.rs: current_object, call_loaded"]}
{"id": "C49", "title": "Duplicate and mutability-annotated function names", "statement": "Two functions in a file clash iff they have the same name and the same pattern of mutable parameters (functions without mutable parameters are not told apart by the number of parameters), and a call with a given mutability pattern only ever resolves to a function with exactly that pattern.", "quantifier": "every list of declarations and calls", "why_tests_cant": "Unbounded argument lists.", "anchors": ["src/lifetime/mod.rs: check_core", "src/ast/mod.rs: Function::from_meta_data, Call::from_meta_data"]}
{"id": "C50", "title": "functions() lists exactly the callable functions, sorted", "statement": "The listing, of the running module or of a module given as the argument, contains each external and loaded function once, with its types as they are written in programs, and is sorted by name. A module that the program made lists the functions it took over, those of its imports and those of its text. Another argument is an error of the program.", "quantifier": "every module", "why_tests_cant": "Unbounded module sizes.", "anchors": ["src/dyon_std/functions.rs: list_functions", "src/dyon_std/mod.rs: functions, functions__module"]}
{"id": "C51", "title": "Syntax-tree export to JSON is well nested", "statement": "Exporting meta data as JSON produces balanced, comma-separated objects for every well-nested meta data stream.", "quantifier": "every meta data stream", "why_tests_cant": "Nesting unbounded.", "anchors": ["src/dyon_std/meta.rs: json_from_meta_data"]}
{"id": "C52", "title": "A compound expression lives no longer than its parts", "statement": "When the checker computes the lifetime of a compound expression (an array or object literal, a call whose arguments outlive the result), a store of the compound is accepted only if a store of each of its parts would be accepted.", "quantifier": "every expression with any number of parts", "why_tests_cant": "The parts can have any combination of lifetimes in any order; a test fixes a few.", "anchors": ["src/lifetime/node.rs: Node::lifetime"]}
{"id": "C53", "title": "The order of argument lifetimes follows from the annotations", "statement": "If the checker concludes that one argument of a function outlives another, then it does so in every call in which the actual arguments obey the declared lifetime annotations.", "quantifier": "every signature, every pair of arguments and every call obeying the annotations", "why_tests_cant": "Quantifies over all signatures and all callers.", "anchors": ["src/lifetime/lt.rs: arg_lifetime, compare_argument_outlives"]}
{"id": "C54", "title": "A failed load leaves the module as it was", "statement": "If loading a file into a module fails, the functions that can be called in the module are those that could be called before, and they behave as before.", "quantifier": "every module, every file and every reason for failing", "why_tests_cant": "Every stage of loading can fail, for every file.", "anchors": ["src/lib.rs: load_str", "src/ast/mod.rs: convert"]}
{"id": "C55", "title": "Variables of accepted programs are declared", "statement": "In a file that the checker accepts, every use of a variable has a declaration that is in scope: the innermost enclosing loop that declares the name, the last declaration before it in an enclosing block, or a parameter of the function; closures see outside variables only through grab; and a file in which every use has such a declaration is not refused for it.", "quantifier": "every syntax tree, every nesting of blocks, loops and closures", "why_tests_cant": "The scopes can be nested to every depth and the names can be shadowed in every way.", "anchors": ["src/lifetime/mod.rs: check"]}
{"id": "C56", "title": "Arguments without mut are not changed", "statement": "In a file that the checker accepts, no function changes an argument or current object that is declared without mut, neither by assigning to it or one of its properties nor by passing it on as a mut argument.", "quantifier": "every syntax tree", "why_tests_cant": "Quantifies over all programs.", "anchors": ["src/lifetime/mod.rs: check"]}
{"id": "C57", "title": "References do not outlive what they refer to", "statement": "In a file that the checker accepts, a value that refers to a variable is only stored in or returned to a place that does not live longer than the variable.", "quantifier": "every syntax tree, every nesting of compound expressions and every lifetime annotation", "why_tests_cant": "Quantifies over all programs and all chains of lifetime annotations.", "anchors": ["src/lifetime/mod.rs: check", "src/lifetime/node.rs: Node::lifetime"]}
{"id": "C58", "title": "Compound assignment agrees with the operator", "statement": "For every operator and every pair of values, `x op= e` gives x the value of `x op e` and changes nothing else, or is refused where the operator is.", "quantifier": "every operator, every value of the variable and every expression", "why_tests_cant": "All numbers, vectors, matrices, texts and links; two separate tables in the code.", "anchors": ["src/runtime/mod.rs: Runtime::assign", "src/dyon_std/mod.rs: add, sub, mul, div, rem, pow"]}
{"id": "C59", "title": "Calls have a function with as many parameters", "statement": "In a file that the checker accepts, every call has a function: one of the file, else one of an imported module or of the host; the function has as many parameters as the call has arguments; no two functions of the file and no two parameters of a function have the same name; and a file for which all this holds is not refused for it.", "quantifier": "every syntax tree, every set of imported modules and aliases", "why_tests_cant": "Quantifies over all programs and modules.", "anchors": ["src/lifetime/mod.rs: check"]}
{"id": "C60", "title": "Arguments have the type of the parameter", "statement": "In a file that the checker accepts, every argument whose type is known has a type that goes with the declared type of the parameter it is passed to.", "quantifier": "every syntax tree, every set of imported modules, every order in which types become known", "why_tests_cant": "Types are propagated until nothing changes; the result must not depend on which nodes became known first.", "anchors": ["src/lifetime/typecheck.rs: run"]}
{"id": "C61", "title": "Functions return what they declare", "statement": "In a file that the checker accepts, every function has a type; all values it returns, where their types are known, go with it; and a function that declares a result returns one.", "quantifier": "every syntax tree, every nesting of statements and closures", "why_tests_cant": "Quantifies over all programs.", "anchors": ["src/lifetime/typecheck.rs: run, check_fn"]}
{"id": "C62", "title": "Conditions are boolean and branches agree", "statement": "In a file that the checker accepts, the conditions of an `if` go with bool and all its branches go with the type of the first, where the types are known.", "quantifier": "every syntax tree", "why_tests_cant": "Quantifies over all programs.", "anchors": ["src/lifetime/typecheck.rs: run, check_if"]}
{"id": "C63", "title": "Results are not dropped silently", "statement": "In a file that the checker accepts, a statement before the end of a block, or in a function without result, has no value, unless its type is not known.", "quantifier": "every syntax tree", "why_tests_cant": "Quantifies over all programs.", "anchors": ["src/lifetime/typecheck.rs: run"]}
{"id": "C64", "title": "The types that the checker gives are consistent", "statement": "In a file that the checker accepts, an expression has the type of what it is made of: a use of a parameter has the declared type, a use of a loop variable is a number, a use of a local variable has the type of its initial value, a call has the type that the function returns, and blocks, brackets and branches have the type of the expression in them.", "quantifier": "every syntax tree and every number of rounds of propagation", "why_tests_cant": "The types are found by iteration over a work list whose length is not bounded.", "anchors": ["src/lifetime/typecheck.rs: run"]}
{"id": "C65", "title": "Extra signatures fit the function", "statement": "The extra signatures of a function are accepted if and only if the function has a result, they have as many types as the function has parameters, and their types go with the types of the parameters and of the function.", "quantifier": "every function with every number of parameters and signatures", "why_tests_cant": "Quantifies over all functions.", "anchors": ["src/lifetime/mod.rs: check"]}
{"id": "C66", "title": "`in` names a function that can be listened to", "statement": "A file is refused for an `in` expression if and only if the name after `in` is not that of a function of the file, of an imported module or of the host; and an accepted `in` gives a channel when it is executed.", "quantifier": "every syntax tree, every set of imported modules and aliases, every state", "why_tests_cant": "Quantifies over all programs and modules.", "anchors": ["src/lifetime/mod.rs: check", "src/runtime/mod.rs: in_expr"]}
{"id": "C67", "title": "Data text has the meaning of its grammar", "statement": "A text loads as data exactly if it is in the grammar of data: objects, arrays, vectors, colours, links, strings, numbers, booleans and options, with white space, comments and nested comments between tokens, commas between items and optionally at the end; the value is the one the grammar gives, a later entry of an object replaces an earlier one with the same key, and a text has one meaning.", "quantifier": "every text", "why_tests_cant": "Texts are unbounded in length and depth.", "anchors": ["src/dyon_std/data.rs: load_data, expr, object, array, link, vec4, opt_w, comma"]}
{"id": "C68", "title": "A loaded program is the program that is written", "statement": "For every text that follows the grammar, the functions that a load makes from it are the ones that are written: the name of each function, its parameters, current objects, conditions on parameters and statements in order; operators grouped with their usual precedence from the left to the right; parentheses without effect; calls, properties, loops and branches as written. A text whose colours are colours and whose counting loops say where they end is never refused at this step, and the step never crashes.", "quantifier": "every text that follows the grammar, of any length and depth of nesting", "why_tests_cant": "Texts are unbounded in length and depth.", "anchors": ["src/ast/mod.rs: convert, Function::from_meta_data, Expression::from_meta_data", "src/ty.rs: Type::from_meta_data", "assets/syntax.txt"]}
{"id": "C69", "title": "A text may use the variables that are in scope", "statement": "A file of functions is refused for a variable if and only if the variable is not in scope where it is used. In scope are, from the inside to the outside: the variables of the loops around, the variables that statements before in the same block or an outer one declare with `:=`, and the arguments and current objects of the closure, or of the function if there is no closure; behind `grab 'n` the ones outside of n closures. A variable in scope exists when the place is executed.", "quantifier": "every text of functions, of any length and depth of nesting", "why_tests_cant": "Texts are unbounded in length and depth.", "anchors": ["src/lifetime/mod.rs: check_core", "src/lifetime/node.rs: convert_meta_data, simplify", "src/lifetime/normalize.rs: fix", "assets/syntax.txt"]}
{"id": "C70", "title": "Checking the types of a program ends", "statement": "Loading a program does not go on forever in the type checker: for every text the type checker gives an answer after finitely many rounds over the syntax tree.", "quantifier": "every program text and every set of host functions and imported modules", "why_tests_cant": "Termination on all inputs cannot be tested; the number of rounds depends on the program.", "anchors": ["src/lifetime/typecheck.rs: run", "src/lifetime/typecheck/refine.rs: declaration, prelude", "src/lifetime/mod.rs: check_core"]}
{"id": "C71", "title": "A function of a loaded module can be called by its name", "statement": "`call(m, name, args)` and `call_ret(m, name, args)` do what the call written in the module would do: the last function with that name in the module held by `m` runs with the given values, as if called there; its result is the answer of `call_ret`; afterwards the caller goes on in its own module and call, with its stack and variables as before. If `m` holds no module, there is no such function, the number of arguments differs or an argument does not live long enough, the answer is an error and nothing has changed except that the three arguments are gone. A function called in this way may call functions of the same module in the same way.", "quantifier": "every module, name, list of arguments, state, and any nesting of such calls", "why_tests_cant": "Quantifies over all programs, modules and depths of nesting.", "anchors": ["src/dyon_std/mod.rs: call, call_ret", "src/runtime/mod.rs: call_internal", "src/lib.rs: Module::find_function"]}
{"id": "C72", "title": "Library functions on text, objects and colours", "statement": "`trim` takes exactly the white space at the ends off, `trim_left` and `trim_right` at one end; `parse_number` gives some number or none, never an error; `chars` gives the characters in order, joined they are the text; `has(o, k)` holds exactly if `k` is among `keys(o)`, and `keys` gives each key of the object once; `typeof` names the kind of every value; `is_nan` holds for what is not equal to itself; the text of a colour stands for its components as numbers from 0 to 255. Arguments of another kind are errors, never crashes.", "quantifier": "every stack, every text, object, colour and value, given directly or through a variable", "why_tests_cant": "Texts and objects are unbounded; white space may be anywhere.", "anchors": ["src/dyon_std/mod.rs: trim, trim_left, trim_right, parse_number, chars, has, keys, _typeof, is_nan, str__color"]}
{"id": "C73", "title": "The host can call functions of a program, again and again", "statement": "A call made by the host (`Call::new(name).arg(a).arg(b)..`, also with `vec4` and `rust`, then `run`, `run_ret` or `run_vec4`) runs the last function with that name; its i-th parameter is the i-th argument; `run_ret` gives its result, converted to the type the host asks for, and a result of another kind is an error; errors in the function are errors of the call; unknown names and a wrong number of arguments are errors. After the call, failed or not, the run-time is as before it, so that later calls and runs do the same as on a fresh run-time.", "quantifier": "every program, state of the run-time, name, list of arguments and host type, any number of calls in sequence", "why_tests_cant": "Sequences of calls after failures, and all argument lists, cannot be enumerated.", "anchors": ["src/lib.rs: Call", "src/runtime/mod.rs: call_str, call_str_ret, call, run", "src/embed.rs: PushVariable, PopVariable", "src/vec4.rs", "src/mat4.rs"]}
{"id": "C74", "title": "Functions and structs of the host work in programs", "statement": "A function of the host declared with `dyon_fn!` gets, for each of its parameters, the argument of the call in the same place, converted to the type of the parameter; values, values in variables, structs declared with `dyon_obj!` (also structs in structs) and objects of the host can be passed; its result is converted back. Structs survive the way into the program and back, and the program sees exactly their fields. A value of another kind, an object of another type or a missing field is an error and the function is not run. Every such call ends if the function ends.", "quantifier": "every list of parameters, every argument expression and value, every struct, every state of the run-time", "why_tests_cant": "All lists of parameters and all values cannot be enumerated.", "anchors": ["src/macros.rs: dyon_fn, dyon_fn_pop, dyon_obj", "src/runtime/mod.rs: pop, call_return, call_void", "src/embed.rs: obj_field"]}
{"id": "C75", "title": "Modules made by a program are what their sources say", "statement": "`module(name, in_string, imports)` and `load(source, imports)`, with or without `tr` and `usetr`, give a module with exactly the transitive functions of the running module (unless `usetr` is false), the functions of the imports in the order of the list, and the functions of the text; functions that were taken over execute what they executed in their own module; host functions of the running module and of the imports are there; with `tr` all of its functions are transitive. A text that cannot be loaded gives an error value and the program goes on; arguments of another kind are errors.", "quantifier": "every history of modules, every list of imports, every text, values given directly or through variables", "why_tests_cant": "Modules made by modules made by modules, with any imports, cannot be enumerated.", "anchors": ["src/dyon_std/mod.rs: load__source_imports, load__source_imports_tr_usetr, module__in_string_imports, module__in_string_imports_tr_usetr", "src/module.rs: import, import_ext_prelude, import_tr_prelude", "src/lib.rs: load_str"]}
{"id": "C76", "title": "What a called name stands for in files with namespaces and imports", "statement": "In a module made of functions of the host, loaded files and imported modules, a name without alias calls the last function of that name in the module and the file, or else the last function of the host; `al::n` calls what the `use` lines of the file with that alias say about the module as it was before the file was loaded: the last listed function known as `n` (with its `mut` variants), or else the function `n` of the last namespace imported as a whole, of the host before those of files and of several the first. The functions of a file belong to its namespace. Loading further files and importing the module elsewhere never changes what a function calls.", "quantifier": "every sequence of adding host functions, loading files, importing modules and marking functions as transitive, every file with any `ns` and `use` lines, every called name", "why_tests_cant": "Histories of loads and imports and all combinations of names, aliases and namespaces cannot be enumerated.", "anchors": ["src/ast/mod.rs: convert, UseLookup::from_uses_module, Namespace, Uses, UseImport, Call::get_locals", "src/module.rs: find_function, import, import_tr_prelude, make_transitive", "assets/syntax.txt: ns, uses, use"]}
{"id": "C77", "title": "A called function changes only what it can reach", "statement": "Evaluating an expression, calling a function or calling a closure changes no variable that cannot be reached: reachable are the variables of the running function (for a call: its arguments and its result), the current objects, what closures have grabbed, waiting messages, and whatever these refer to through references. Everything else keeps its value, however deep the calls go, and also if the call ends in an error.", "quantifier": "every program, every expression or call in it, every state of the run-time, every variable of any caller", "why_tests_cant": "Needs every program and every nesting of calls; a test only sees the variables it looks at.", "anchors": ["src/runtime/mod.rs: expression, call_internal, call_closure, assign_specific, item, for loops", "src/dyon_std/mod.rs: functions that change their arguments", "src/grab.rs"]}
{"id": "C78", "title": "Loops without a range are refused unless their variables are indices", "statement": "A loop over numbers may be written without range (`for i { .. list[i] .. }`, also `sum`, `min`, `any`, `link` and the others). Loading refuses the file, at the first such loop, exactly if one of the loop's variables is nowhere used as an index: as the only thing in the brackets of an item, with the name meaning this loop's variable and not that of another loop or a local. A file that passes can be converted and the range is the length of a list that exists where the loop starts.", "quantifier": "every arena of nodes in which every variable has a declaration, every loop without range in it, every nesting of loops and closures", "why_tests_cant": "All placements of uses of a variable in all nestings of loops cannot be enumerated.", "anchors": ["src/lifetime/mod.rs: check (inferred, Report ranges that can not be inferred)", "src/lifetime/kind.rs: is_decl_loop", "src/ast/mod.rs: ForN::create", "src/ast/infer_len.rs: infer"]}
{"id": "C79", "title": "Operators and library functions are what their declared types say", "statement": "If the types of the arguments of an operator are known, the checker decides at load time. What it accepts does not fail on any values of these types, and the value has the type the checker gave the expression (a `sec[bool]` does carry a secret). What it refuses would fail on all values of these types. Functions of the standard library return values of the type they are declared with, and nothing if they are declared without; functions that have no other reason to fail never fail on arguments of the declared types.", "quantifier": "every operator and modelled library function, all argument types, all values of these types, given directly or through variables, on any stack", "why_tests_cant": "All values of all types, nested arrays and options included, cannot be enumerated; the declarations and the functions are written in different places.", "anchors": ["src/module.rs: Module::new", "src/ty.rs: all_ext, goes_with, bind_ty_vars", "src/lifetime/typecheck/refine.rs: prelude", "src/dyon_std/mod.rs: less .. dot, and_also, or_else, library functions"]}
{"id": "C80", "title": "What a called function cannot reach does not matter to it", "statement": "The outcome of an expression, of a call of a function or of a closure depends only on what can be reached (as in C77). In two states that differ only in variables that cannot be reached it gives the same value, the same error text, the same panic or no result in both, and afterwards the states again differ only in these variables. A function called without references, current objects, closures and waiting messages gives the same whatever the variables of its callers hold. (The marks of results still to come count as reachable: the operator `?` looks for such a mark below the running call.)", "quantifier": "every program, every expression or call in it, every pair of states that agree on what can be reached", "why_tests_cant": "Two runs in all pairs of states cannot be compared by tests.", "anchors": ["src/runtime/mod.rs: expression, call_internal, call_closure, item, propagate in try_msg and item", "src/dyon_std/mod.rs", "src/write.rs: write_variable"]}
{"id": "C81", "title": "Programs that pass the checks give what their types say", "statement": "A program with declared types that passes all checks at load time does not go wrong: when the host calls one of its functions with arguments of the declared types, the call ends with a value of the declared type and leaves the state of the run-time as it was, or it does not end; it does not stop with an error of types or variables, and it does not panic.", "quantifier": "every program of typed functions, calls and recursion of any depth, every function of it, all arguments of the declared types, every state between two calls", "why_tests_cant": "Needs every accepted program and every run of it.", "anchors": ["src/lifetime/typecheck.rs: run, check_fn, check_if", "src/lifetime/typecheck/refine.rs: prelude, declaration", "src/runtime/mod.rs: call_internal, call_lazy, if_expr, item", "src/module.rs: Module::new", "src/lib.rs: load"]}
{"id": "C82", "title": "A refused call is reported, with the functions that may be meant", "statement": "A call of an unknown function, or with a wrong number of arguments, makes loading fail with a message that names the function, and the numbers of arguments expected and found. If a function without alias is unknown, or a function of the file has other parameters, the message proposes exactly the known functions (of the file, of other modules and of the host) whose names begin with the name that was called. Making the message never crashes.", "quantifier": "every file, every call in it, every set of known functions, in every order in which the maps of names are walked", "why_tests_cant": "All names over all of Unicode and all sets of functions cannot be enumerated.", "anchors": ["src/lifetime/mod.rs: check (calls), suggestions"]}
{"id": "C83", "title": "What may be added to a variable, put into a vector, swizzled, grabbed and started", "statement": "In a file that passes the type checker, where the types are known: the two sides of `+=` and `-=` are values, and one of a named type (such as `kg f64`) meets only values of the same named type; the components of vector literals and the length in `[x; n]` are numbers; what is swizzled is a vector; what is grabbed is a value; a function of the file started with `go` has a result.", "quantifier": "every file in which the checker finds no error, every such expression in it, any number of rounds of type propagation", "why_tests_cant": "All programs and all orders in which types become known cannot be enumerated.", "anchors": ["src/lifetime/typecheck.rs: run (Kind::X, Kind::Grab, after type propagation)", "src/ty.rs: add_assign, goes_with"]}
{"id": "C84", "title": "What is saved in a file is loaded again", "statement": "`save(string: t, file: f)` and `save(data: v, file: f)` give `ok(f)` only if the whole text, or the text of the whole value, is in the file, and then `load(string: f)` and `load(data: f)` give the same text and the same data. If a save fails the result is an error, and the file is as before or has a beginning of what was to be saved. Other files are not changed. Loads end with a value or an error value. Reading a text by the rules of a syntax file gives one row for each report of the parser, in order.", "quantifier": "every text and value, every answer of the operating system to creating, opening, reading and each write, every size of the buffer and every way the text is cut in pieces", "why_tests_cant": "Failures of the disk at every byte cannot be produced by tests.", "anchors": ["src/dyon_std/mod.rs: save__string_file, load_string__file, save__data_file, load_data__file, load_data__string, load__meta_file", "src/dyon_std/data.rs: load_file", "src/dyon_std/meta.rs: load_meta_file, parse_syntax_data", "src/dyon_std/io.rs: io_error", "src/write.rs: write_variable"]}
{"id": "C85", "title": "What a program adds to the draw list is drawn", "statement": "The calls of drawing functions (`line`, `rectangle`, `ellipse`, `circle`, `polygon`, `text`, `image`, `clear`, and those that change the transform, blend, stencil, scissor and draw state) are drawn in the order of the calls, each with the arguments it was called with and under the transform and draw state left by the calls before it; `transform` starts again from that of the window, `rel_transform` goes on from the present one. `translate`, `scale`, `zoom`, `rotate` and `shear` move what is drawn after them as their names say, around a given point if there is one. Nothing else is drawn. What is drawn for the first entries of a list does not depend on later ones, and after an error nothing more is drawn. Entries that are no commands do nothing. Drawing any list ends normally or with an error.", "quantifier": "every sequence of drawing calls with any arguments, every draw list made in any way, every window transform and draw state, any fonts and textures", "why_tests_cant": "All sequences of calls, and draw lists that programs make by hand, cannot be enumerated.", "anchors": ["interactive/src/lib.rs: draw_2d", "interactive/src/graphics2d.dyon"]}
{"id": "C86", "title": "Pixels of images keep what is put into them", "statement": "`create_image` and `load_image` give a new number under which the image is found from then on; a created image has the asked size and only empty pixels. `image_size` gives width and height. Setting a pixel changes that pixel, to the color in steps of 1/255, and no other pixel of this or another image. Reading a pixel gives a vector with the color it was last set to. A position outside the image or an unknown image is an error that changes nothing.", "quantifier": "every set of images by number or as objects, every position and color, every sequence of creating, loading, setting and reading", "why_tests_cant": "All sizes, positions and histories cannot be enumerated.", "anchors": ["interactive/src/lib.rs: load_image, create_image__name_size, create_image__size, image_size, pxl__image_pos_color, pxl__image_pos", "src/vec4.rs: Into<[u32; 2]>", "src/macros.rs: dyon_fn"]}
{"id": "C87", "title": "Colours keep their bytes as text, as vectors and in images", "statement": "A colour literal (`#ff8001`, `#FF8001`, `#ff800180`) is a vector which `str(color: ..)` shows as the same bytes, in lower case and without opacity if it is full. The text shown for any vector, written as a literal, is shown as the same text. The byte shown for a component from 0 to 1 is less than one step of 1/255 below it and not noticeably above; a brighter component never has a smaller byte; components outside are shown as 0 or 255. Bytes, `f64` numbers and whole numbers that a host gives as a vector and takes back are the same. A pixel that is read and set elsewhere is copied without change.", "quantifier": "all bytes, all vectors with any bit patterns as components, all literals in lower and upper case, all images", "why_tests_cant": "All 2^32 values of a component, and the rounding of the operations on them, cannot be enumerated.", "anchors": ["src/dyon_std/mod.rs: str__color", "src/ast/mod.rs: Expression::from_meta_data (color)", "src/vec4.rs: From, Into", "interactive/src/lib.rs: pxl__image_pos_color, pxl__image_pos"]}
{"id": "C88", "title": "Observers of a function get its calls, whatever the threads do", "statement": "A channel made by `in f` gets every call of `f` that begins after the `in` expression ended, in the same thread or in one that was synchronised with it since (by a lock, a message, the start or end of a thread), and that finishes while the channel is kept, and gets it exactly once; it never gets a call twice, nor a call that finished before the channel was made. If a call finished before another began, the first is not behind the second in any channel. What threads take out of a channel by `next` and `wait_next` is what calls put into it, in that order, without loss or repetition, however many threads share it. Calls and `in` expressions do not wait for receivers and never deadlock. Channels that are not kept any more are forgotten by the next call. `wait_next` gives a call. `next` does not wait.", "quantifier": "every number of threads and channels, every interleaving of the steps of calls, `in` expressions, receives and drops, and every old value a relaxed read may give", "why_tests_cant": "Schedules of threads cannot be enumerated, and races show up rarely.", "anchors": ["src/runtime/mod.rs: in_expr, call_internal (senders)", "src/dyon_std/mod.rs: next, wait_next", "src/ast/mod.rs: Function.senders"]}
{"id": "C89", "title": "What is printed is shown in order, what is typed is read once", "statement": "`print(x)` prints the text that `str(x)` gives behind everything printed before, `println(x)` the same and a line break; `eprint` and `eprintln` do this on the error output. Before the program waits for input, all that was printed is on the screen. `read_line()` gives the next line with its line break, and an empty text only at the end of the input. `read_number(msg)` gives the number in the first line that is one, after printing `msg` once for each line before it, and leaves the later lines. Over any sequence of calls nothing of the input is left out or read twice. A call ends when the input ends, and trouble with the input or output is an error of the program, not a crash.", "quantifier": "every sequence of calls, every value, every input, every failure of the streams at every operation, and every moment at which the system shows text early", "why_tests_cant": "All inputs, sequences of calls and failures of the streams cannot be enumerated, and a call that does not end cannot be observed by a test.", "anchors": ["src/dyon_std/mod.rs: print, println, eprint, eprintln, read_line, read_number, _str", "src/write.rs: print_variable, eprint_variable, write_variable"]}
{"id": "C90", "title": "A program gets what the checker knows about a text", "statement": "`check(name, text, imports)` gives an error value if the text has a syntax error, and otherwise a list with one object for each node of the checker, in their order, whether or not the checker found an error. The text is checked against the functions of the host, the imports and, unless `usetr` is false, the transitive functions of the running module. An object has the kind, names, type, lifetime and other data of its node. A number in `children`, used as an index into the list, gives the object of a child, and `parent` of that object leads back. Nothing is lost: different nodes have different data. The call does not crash.", "quantifier": "every text, every outcome of parsing and checking, all nodes, every running module and list of imports, with and without the flag", "why_tests_cant": "All texts, trees of nodes and modules cannot be enumerated.", "anchors": ["src/dyon_std/mod.rs: check__in_string_imports, check__in_string_imports_usetr", "src/lib.rs: check_str", "src/lifetime/mod.rs: to_array", "src/ty.rs: Type::description"]}
{"id": "C91", "title": "Loading a file by its path", "statement": "`load(path)` asks the module lookup of the runtime, which the host may set, for the text at the path, and gives a module with the transitive functions of the running module and the functions of the text. A path that the lookup does not know and a text that is refused give an error value with the reason, and the program goes on; another argument than a text is an error. Both forms, `load(path)` and `load(source: path, imports: [])`, do the same for every path, and no path crashes the program.", "quantifier": "every path, every content of the disk, every lookup of the host, every running module, with and without support for files", "why_tests_cant": "All contents of the disk and all lookups a host may have cannot be enumerated.", "anchors": ["src/dyon_std/mod.rs: load, load__source_imports", "src/runtime/mod.rs: file_lookup_module, Runtime::get_module, module_lookup", "src/lib.rs: load"]}
{"id": "C92", "title": "Fetching from the web gives the whole answer or an error", "statement": "`load_string(url: ..)` gives the text of the body exactly if the server answers with status 200 and the whole body arrives and is a text, and an error value otherwise. `download(url: .., file: ..)` gives the name of the file exactly if such a body is in the file as a whole; without an answer with status 200, or if the file cannot be created, no file is changed; other files are never changed. The downloaded file is loaded as the text that `load_string` gives for the same answer. `load(meta: .., url: ..)` gives what the parser makes of the body by the rules of the grammar, or an error value. After an error the file has its old contents.", "quantifier": "every answer and failure of the network at every point, every state of the disk, every failure of the operating system at every write, every address and file name", "why_tests_cant": "Answers that break off at any byte and disks that fail at any write cannot be enumerated.", "anchors": ["src/dyon_std/mod.rs: load_string__url, load__meta_url, download__url_file", "src/dyon_std/meta.rs: load_text_file_from_url, load_meta_url, download_url_to_file"]}
{"id": "C93", "title": "Waiting for a number of seconds", "statement": "`sleep(v)` waits for `v` seconds, at most a small part (2^-23) of a nanosecond longer and little more than a nanosecond shorter. It does not wait for NaN, negative numbers and zero, and for numbers from 2^64 on and infinity it waits for 2^64 - 1 seconds. It does not crash for any number.", "quantifier": "all 2^64 numbers", "why_tests_cant": "All numbers cannot be enumerated, and waits of many years cannot be run.", "anchors": ["src/dyon_std/mod.rs: sleep"]}
{"id": "C94", "title": "The time does not go back", "statement": "While the clock of the system does not go back, `now()` never gives a smaller number than before, within a second, from one second to the next, and before as after 1970. From the year 1716 to 2223 it is less than a microsecond from the time of the clock.", "quantifier": "all pairs of times of the clock within 285 million years, to the nanosecond", "why_tests_cant": "All times cannot be enumerated, and a step back by rounding would be rare.", "anchors": ["src/dyon_std/mod.rs: now"]}
{"id": "C95", "title": "A grammar kept in a value parses like one in a file", "statement": "`syntax(name, text)` gives a grammar or an error value with the reason. `meta(grammar, name, text)` gives one row for each report of the parser, in order, from which the reports can be told, or an error value. If files with the same texts can be read, `load(meta: .., file: ..)` gives the same data and the same errors, and so does `load(meta: .., url: ..)` for an answer with the same text. Another value than a grammar is an error of the program.", "quantifier": "all grammars, names and texts, every parser, every disk, network and system that gives the texts, arguments written out and in variables", "why_tests_cant": "All grammars and texts cannot be enumerated.", "anchors": ["src/dyon_std/mod.rs: syntax__in_string, meta__syntax_in_string, load__meta_file, load__meta_url", "src/dyon_std/meta.rs: parse_syntax_data, load_meta_file, load_meta_url"]}
{"id": "C96", "title": "The arguments of the program arrive whole", "statement": "`args_os()` gives the arguments of the program, all of them, in order and byte for byte as texts. If one of them is not a text in UTF-8, it is an error of the program; it never gives changed arguments or only some of them.", "quantifier": "all lists of arguments, each any sequence of bytes", "why_tests_cant": "All arguments cannot be enumerated.", "anchors": ["src/dyon_std/mod.rs: args_os"]}
{"id": "C97", "title": "Colours survive the conversion between sRGB and linear", "statement": "`srgb_to_linear(color: v)` and `linear_to_srgb(color: v)` treat red, green and blue in the same way, each by itself, and keep alpha as it is. A component that is not brighter than another does not become brighter. A colour made of bytes that is converted to a linear one and back is shown with the same bytes; black stays black and white stays white.", "quantifier": "all vectors with all bit patterns of components, all bytes", "why_tests_cant": "All pairs of components cannot be enumerated.", "anchors": ["src/dyon_std/mod.rs: srgb_to_linear__color, linear_to_srgb__color"]}
{"id": "C98", "title": "Strings in links are freed with their last use", "statement": "The strings in the blocks of links, which are kept as raw pointers, are never freed while a block holds them and never freed twice, whatever blocks are made, copied, written and dropped in which order; and when no block holds a string any more, no reference of a block to it is left.", "quantifier": "every history of making, copying, writing and dropping any number of blocks with any strings, also at entries that are written again", "why_tests_cant": "A string that is freed too early or never shows only after certain histories, and often not at all.", "anchors": ["src/link.rs: Block::push, Block::clone, Block::drop"]}
