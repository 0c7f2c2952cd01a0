import Verif.Check.TypesLocal
import Verif.Check.LifetimeProps
import Verif.Check.CallsProps

/-!
# C60-C64: examples, and what the type checker lets through
-/

namespace Dyon.Check.Demo

open Spec

/-- A parameter with a type. -/
def argT (n : String) (t : Ty) : T := .mk { kind := .arg, names := [n], ty := some t } []

/-- A function with a written type (`void` for a function without `->`). -/
def fnT (n : String) (t : Ty) (kids : List T) : T := .mk { kind := .fn, names := [n], ty := some t } kids

/-- A host with one function `print(any)`; the alias `h` has `h::print`. -/
def hostEnv : Env :=
  ⟨⟨fun n => if n = "print" then some 0 else none, [⟨[.default], [.any], .void, [], []⟩], []⟩,
   fun a => if a = "h" then some fun n => if n = "print" then some (.loaded 0) else none else none⟩

/-- The file with its variables and calls linked. -/
def prepared (ts : List T) : Nodes := match (linked (file ts)).linkCalls hostEnv with
  | .ok ns => ns
  | .error _ => []

/-- Whether the types are accepted. -/
def accepted : TypeOut → Bool
  | .accept _ => true
  | _ => false

/-- The nodes with their types. -/
def typedNodes : TypeOut → Nodes
  | .accept ns => ns
  | _ => []

/-- The error. -/
def refused : TypeOut → Option TypeErr
  | .reject e => some e
  | _ => none

theorem accept_of {o : TypeOut} (h : accepted o = true) : o = .accept (typedNodes o) := by
  cases o <;> first | rfl | cases h

/-- Decidable form of `Tree`. -/
def isTree (ns : Nodes) : Bool :=
  (List.range ns.length).all fun i => (ns.at i).children.all fun c =>
    (ns.at c).parent = some i && decide (i < c) && decide (c < ns.length)

theorem tree_of {ns : Nodes} (h : isTree ns = true) : Tree ns := by
  intro i c hc
  by_cases hi : i < ns.length
  · simp only [isTree, List.all_eq_true, List.mem_range, Bool.and_eq_true, decide_eq_true_eq] at h
    obtain ⟨⟨h1, h2⟩, h3⟩ := h i hi c hc
    exact ⟨h1, h2, h3⟩
  · have : ns.at i = default := by
      simp only [Nodes.at, List.getD_eq_getElem?_getD, List.getElem?_eq_none (by omega : ns.length ≤ i)]
      rfl
    rw [this] at hc
    cases hc

/-- ```
fn g(a: f64, b: bool) -> f64 { return a }
k(c: f64) = c
fn f(n: f64) {
    x := g(n, true)
    y := x
    if true { print(y) } else { print(x) }
    for i 1 { z := i }
    print(x)
}
``` -/
def typedProg : Nodes := prepared [
  fnT "g" .f64 [argT "a" .f64, argT "b" .bool, nd .block [ret (item "a")]],
  fn "k" [argT "c" .f64, nd .expr [item "c"]],
  fnT "f" .void [argT "n" .f64, nd .block [
    decl "x" (call "g" [item "n", val .bool]),
    decl "y" (item "x"),
    nd .expr [nd .if' [nd .cond [val .bool], nd .trueBlock [call "print" [item "y"]],
      nd .elseBlock [call "print" [item "x"]]]],
    forN "i" [decl "z" (item "i")],
    call "print" [item "x"]]]]

/-- The nodes with their types. -/
def typedOut : Nodes := typedNodes (typedProg.typecheck hostEnv 12)

theorem typed_tree : Tree typedProg := tree_of (by decide +kernel)

theorem typed_accept : typedProg.typecheck hostEnv 12 = .accept typedOut :=
  accept_of (by decide +kernel)

/-- The second argument of `g(n, true)`. -/
example : Ty.bool.goesWith ((typedProg.at 25).innerType .bool) = true :=
  C60_argument typed_accept typed_tree (c := 22) (a := 25) (ch := 26) (j := 1) (P := .bool) (T := .bool)
    (by decide +kernel) (by decide +kernel) (by decide +kernel) (by decide +kernel) (by decide +kernel)
    ⟨[23], [], 0, by decide +kernel, by decide +kernel, by decide +kernel, by decide +kernel⟩
    (.declared (f := 0) (arg := 2) (by decide +kernel) (by decide +kernel) (by decide +kernel) (by decide +kernel))
    (by decide +kernel)

/-- The argument of `print(x)`. -/
example : Ty.any.goesWith ((typedProg.at 63).innerType .f64) = true :=
  C60_argument typed_accept typed_tree (c := 62) (a := 63) (ch := 64) (j := 0) (P := .any) (T := .f64)
    (by decide +kernel) (by decide +kernel) (by decide +kernel) (by decide +kernel) (by decide +kernel)
    ⟨[], [], 0, by decide +kernel, by decide +kernel, by decide +kernel, by decide +kernel⟩
    (.prelude (n := "print") (i := 0) (d := ⟨[.default], [.any], .void, [], []⟩) (by decide +kernel)
      (by decide +kernel) (by decide +kernel) (by decide +kernel) rfl rfl)
    (by decide +kernel)

/-- The function `g`: its type is `f64` and `return a` goes with it. -/
example : ∃ F, (typedOut.at 0).ty = some F ∧ F = .f64 ∧ F.goesWith .f64 = true := by
  obtain ⟨F, h1, h2, -, h3⟩ := C61_return typed_accept typed_tree (f := 0) (by decide +kernel) (by decide +kernel)
  refine ⟨F, h1, h2 _ (by decide +kernel), (h3 5 ?_ (Or.inl (by decide +kernel))).2 _ (by decide +kernel)
    (by decide +kernel)⟩
  exact .step (.step (.child (c := 3) (by decide +kernel)) (by decide +kernel) (c := 4) (by decide +kernel))
    (by decide +kernel) (by decide +kernel)

/-- The function `k`: its type is that of its body. -/
example : ∃ F, (typedOut.at 8).ty = some F ∧ F.goesWith .f64 = true := by
  obtain ⟨F, h1, -, h2, -⟩ := C61_return typed_accept typed_tree (f := 8) (by decide +kernel) (by decide +kernel)
  exact ⟨F, h1, h2 10 _ (by decide +kernel) (by decide +kernel)⟩

example : (∃ b, typedProg.child 0 .expr = some b) ∨ ∃ r, Within typedProg 0 r ∧ Returns typedProg r :=
  C61_some_return_partial typed_accept (f := 0) (P := .f64) (by decide +kernel) (by decide +kernel)
    (by decide +kernel) (by decide)

/-- The condition and the `else` of the `if`. -/
example : Ty.bool.goesWith .bool = true ∧ Ty.void.goesWith .void = true :=
  ⟨(C62_if typed_accept (i := 35) (c := 36) (T := .bool) (by decide +kernel) (by decide +kernel)
      (by decide +kernel) (by decide +kernel)).1 (by decide +kernel),
   ((C62_if typed_accept (i := 35) (c := 43) (T := .void) (by decide +kernel) (by decide +kernel)
      (by decide +kernel) (by decide +kernel)).2 .void (by decide +kernel)).2.2 (by decide +kernel)⟩

/-- The last statement of `f`. -/
example : Ty.void = .void ∨ Ty.void = .unreachable :=
  C63_unused typed_accept (b := 14) (s := 61) (by decide +kernel) (by decide +kernel)
    (Or.inr ⟨by decide +kernel, 12, by decide +kernel, by decide +kernel, by decide +kernel⟩)
    (by decide +kernel) (by decide +kernel)

/-- The brackets around the call of `g` and its argument. -/
example : (typedOut.at 19).ty = some ((typedProg.at 19).innerType .f64) :=
  C64_takes typed_accept typed_tree (i := 19) (c := 20) (T := .f64)
    (.around (by rw [show (typedProg.at 19).kind = .right by decide +kernel]; trivial) (by decide +kernel))
    (by decide +kernel) (Or.inl (by decide +kernel)) (by decide +kernel) (by decide +kernel)

example : (typedOut.at 24).ty = some ((typedProg.at 24).innerType .f64) :=
  C64_parameter typed_accept (u := 24) (d := 13) (by decide +kernel) (by decide +kernel) (by decide +kernel)
    (by decide +kernel) (by decide +kernel) (by decide +kernel)

example : (typedOut.at 60).ty = some .f64 :=
  C64_counter typed_accept (u := 60) (d := 49) (by decide +kernel) (by decide +kernel) (by decide +kernel)
    (by decide +kernel) (by decide +kernel)

example : (typedOut.at 40).ty = some .void :=
  C64_host typed_accept (c := 40) (i := 0) (n := "print") (d := ⟨[.default], [.any], .void, [], []⟩)
    (by decide +kernel) (by decide +kernel) (by decide +kernel) (by decide +kernel)
    (Or.inl ⟨by decide +kernel, rfl⟩) rfl rfl

example : (typedOut.at 22).ty = some .f64 :=
  C64_call typed_accept (c := 22) (f := 0) (by decide +kernel) (by decide +kernel) (by decide +kernel)
    (by decide +kernel) (by decide +kernel) (by decide +kernel) (by decide +kernel)

/-- The use of `y` in `print(y)`; `y := x` and `x := g(n, true)`. -/
example : ∃ L, (typedOut.at 42).ty = some ((typedProg.at 42).innerType L) ∧
    (L = .f64 ∨ Ty.f64.goesWith L = false) :=
  C64_local typed_accept typed_tree (a := 28) (l := 29) (it := 30) (r := 31) (u := 42)
    ⟨by decide +kernel, by decide +kernel, by decide +kernel, by decide +kernel, (by
      intro k hk
      by_cases hl : k < typedProg.length
      · have : ∀ k ∈ List.range typedProg.length, (typedProg.at k).parent = some 29 → k = 30 := by
          decide +kernel
        exact this k (List.mem_range.2 hl) hk
      · exfalso
        rw [show typedProg.at k = default by
          simp only [Nodes.at, List.getD_eq_getElem?_getD,
            List.getElem?_eq_none (by omega : typedProg.length ≤ k)]
          rfl] at hk
        cases hk),
     by decide +kernel, by decide +kernel, by decide +kernel, by decide +kernel, by decide +kernel,
     by decide +kernel, by decide +kernel, by decide, by decide +kernel, by decide +kernel⟩
    (by decide +kernel)

/-! ## What is rejected -/

/-- `fn g(a: f64) {}`, `fn f() { g("s") }`. -/
theorem wrong_argument_rejected :
    refused ((prepared [fnT "g" .void [argT "a" .f64, nd .block []],
      fnT "f" .void [nd .block [call "g" [val .str]]]]).typecheck hostEnv 12) = some (.mismatch 100 7) := by
  decide +kernel

/-- `fn f() -> f64 { return "s" }`. -/
theorem wrong_return_rejected :
    refused ((prepared [fnT "f" .f64 [nd .block [ret (val .str)]]]).typecheck hostEnv 12) =
      some (.mismatch 350 3) := by
  decide +kernel

/-- `fn f() -> f64 {}`. -/
theorem no_return_rejected :
    refused ((prepared [fnT "f" .f64 [nd .block []]]).typecheck hostEnv 12) = some (.mismatch 775 0) := by
  decide +kernel

/-! ## What is let through -/

/-- `fn f(c: bool) -> f64 { if c { return 1 } }` is accepted although the result is missing when
`c` is false. -/
theorem missing_return_accepted :
    accepted ((prepared [fnT "f" .f64 [argT "c" .bool, nd .block [nd .expr [nd .if' [nd .cond [item "c"],
      nd .trueBlock [ret (val .f64)]]]]]]).typecheck hostEnv 12) = true := by
  decide +kernel

/-- `fn g(a: f64) {}`, `fn f() { x := {p: "s"}; g(x.p) }` is accepted: the type of a property is
not known. -/
theorem property_argument_accepted :
    accepted ((prepared [fnT "g" .void [argT "a" .f64, nd .block []],
      fnT "f" .void [nd .block [decl "x" (obj [("p", val .str)]), call "g" [prop "x" "p"]]]]).typecheck
        hostEnv 12) = true := by
  decide +kernel

/-- `fn f() { x := 1; x = "s" }` is accepted: the right side of an assignment that does not fit
stays on the list without error. -/
theorem reassign_accepted :
    accepted ((prepared [fnT "f" .void [nd .block [decl "x" (val .f64),
      stmt .set (item "x") (val .str)]]]).typecheck hostEnv 12) = true := by
  decide +kernel

/-- A call `h::name(..)`. -/
def callAs (al name : String) (args : List T) : T :=
  nd .expr [.mk { kind := .call, «alias» := some al, names := [name] } (args.map fun a => nd .callArg [a])]

/-- `h::print(1, 2)`, with an argument too many, is linked, and then crashes the type checker: the
number of arguments is checked only for calls without alias. -/
theorem aliased_extra_argument_panics :
    refused ((prepared [fnT "f" .void [nd .block [callAs "h" "print" [val .f64, val .f64]]]]).typecheck
      hostEnv 12) = some (.panic 6) := by
  decide +kernel

/-- `fn f() { g := \(a: f64) = a; \g("s") }`: the arguments of a call of a closure are not
compared. -/
theorem closure_argument_accepted :
    accepted ((prepared [fnT "f" .void [nd .block [
      decl "g" (.mk { kind := .closure } [argT "a" .f64, nd .expr [item "a"]]),
      decl "x" (.mk { kind := .callClosure } [item "g", nd .callArg [val .str]])]]]).typecheck hostEnv 12) = true := by
  decide +kernel

/-! ## C59 and C65 -/

/-- An extra signature `(args) -> ret`. -/
def sig (args : List Ty) (r : Ty) : T :=
  .mk { kind := .ty } (args.map (fun t => .mk { kind := .tyArg, ty := some t } []) ++
    [.mk { kind := .tyRet, ty := some r } []])

/-- ```
fn g(a: any, b: bool) -> any
    (f64, bool) -> f64
{ return a }
fn f() { g(1, true); print(1); h::print(1) }
``` -/
def sigTrees : List T := [
  fnT "g" .any [argT "a" .any, argT "b" .bool, nd .block [ret (item "a")], sig [.f64, .bool] .f64],
  fnT "f" .void [nd .block [call "g" [val .f64, val .bool], call "print" [val .f64],
    callAs "h" "print" [val .f64]]]]

/-- The nodes of the file. -/
def sigProg : Nodes := linked (file sigTrees)

theorem sig_named : Named sigProg := by
  intro f hf hk
  have : ∀ f ∈ List.range sigProg.length, (sigProg.at f).kind = .fn → (sigProg.at f).name.isSome := by
    decide +kernel
  exact Option.isSome_iff_exists.1 (this f (List.mem_range.2 hf) hk)

theorem sig_linked : sigProg.linkCalls hostEnv = .ok (prepared sigTrees) := by
  have h : (match sigProg.linkCalls hostEnv with | .ok _ => true | .error _ => false) = true := by
    decide +kernel
  simp only [prepared]
  rw [show linked (file sigTrees) = sigProg from rfl]
  cases hx : sigProg.linkCalls hostEnv with
  | ok ns => rfl
  | error e => rw [hx] at h; cases h

/-- The three calls. -/
example : ∃ m, CallMeans hostEnv sigProg 15 m ∧ m.Linked (prepared sigTrees) 15 ∧
    ((sigProg.at 15).alias = none → Gives sigProg (sigProg.at 15).children (m.arity sigProg)) :=
  C59_resolved_partial sig_named sig_linked (by decide +kernel) (by decide +kernel)

example : CallMeans hostEnv sigProg 15 (.declared 0) ∧
    CallMeans hostEnv sigProg 21 (.imported ⟨[.default], [.any], .void, [], []⟩) ∧
    CallMeans hostEnv sigProg 25 (.imported ⟨[.default], [.any], .void, [], []⟩) := by
  refine ⟨.declared (n := "g") (by decide +kernel) (by decide +kernel) (by decide +kernel) (by decide +kernel)
    (by decide +kernel), .imported (n := "print") (i := 0) (by decide +kernel) (by decide +kernel) ?_ rfl rfl,
    .aliased (al := "h") (n := "print") (i := 0) (by decide +kernel) (by decide +kernel) rfl rfl⟩
  have : ∀ f ∈ List.range sigProg.length, (sigProg.at f).kind = .fn → (sigProg.at f).name ≠ some "print" := by
    decide +kernel
  exact fun f hf => this f (List.mem_range.2 hf)

example : FunctionsDistinct sigProg ∧ ∀ f < sigProg.length, (sigProg.at f).kind = .fn → ParamsDistinct sigProg f :=
  C59_distinct sig_named sig_linked

example : (prepared sigTrees).at 13 = sigProg.at 13 :=
  C59_others sig_named sig_linked (by decide +kernel)

theorem sig_params : ParamsFirst sigProg 0 := ⟨[3, 8], by decide +kernel⟩

example : ExtraFits sigProg 0 :=
  C65_accepted sig_linked (by decide +kernel) (by decide +kernel) sig_params

/-- Two signatures that do not fit. -/
theorem sig_refused :
    (prepared [fnT "g" .f64 [argT "a" .f64, nd .block [ret (item "a")], sig [.str] .f64]]).length = 0 ∧
    (prepared [fnT "g" .f64 [argT "a" .f64, nd .block [ret (item "a")], sig [] .f64]]).length = 0 := by
  decide +kernel

/-- **C59**, false in general: a call through an alias is linked with every number of arguments,
here none and three for the one parameter of `print`. -/
theorem C59_alias_arity :
    (prepared [fnT "f" .void [nd .block [callAs "h" "print" []]]]).length = 4 ∧
    (prepared [fnT "f" .void [nd .block [callAs "h" "print" [val .f64, val .f64, val .f64]]]]).length = 10 ∧
    (prepared [fnT "f" .void [nd .block [call "print" []]]]).length = 0 := by
  decide +kernel

end Dyon.Check.Demo
