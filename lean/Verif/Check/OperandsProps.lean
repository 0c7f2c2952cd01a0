import Verif.Check.Operands
import Verif.Check.TypesDemo

/-!
# C83 and the rest of C64: what may be added, swizzled, grabbed and started

`+=` and `-=`, components of vectors, swizzles, `grab` and `go` in files that the type checker accepts.
-/

namespace Dyon.Check

open Spec

/-- **C83**, `+=` and `-=`.  In an accepted file the types of both sides, where they are known, may be added (`Spec.Adds`): named types
only with the same named types, and nothing with nothing else. -/
theorem C83_add_assign {env : Env} {fuel : Nat} {ns out : Nodes} (h : ns.typecheck env fuel = .accept out) {i l r : Nat} {L R : Ty}
    (hi : i < ns.length) (hk : (ns.at i).kind = .assign) (ho : (ns.at i).op = some .add ∨ (ns.at i).op = some .sub)
    (hl : ns.child i .left = some l) (hr : ns.child i .right = some r) (hL : (out.at l).ty = some L) (hR : (out.at r).ty = some R) :
    Adds L R := by
  obtain ⟨hsh, hf⟩ := accept_final h hi
  have hop : (out.at i).op = (ns.at i).op := hsh.op i
  simp only [Nodes.final, hsh.kind, hk, Nodes.finalAssign, hop, hsh.child, hl, hr, hL, hR] at hf
  apply adds_of
  by_contra hne
  rcases ho with ho | ho <;> simp [ho, hne] at hf

/-- **C83**, vectors and fills.  In an accepted file the components of a vector literal, and the length in `[x; n]`, are numbers where
their types are known. -/
theorem C83_number {env : Env} {fuel : Nat} {ns out : Nodes} (h : ns.typecheck env fuel = .accept out) (htree : Tree ns) {i c : Nat} {T : Ty}
    (hk : Number (ns.at i).kind) (hch : (ns.at i).children = [c]) (hids : (ns.at c).itemIds = false) (hl : (ns.at c).kind ≠ .left)
    (hT : (out.at c).ty = some T) : ((ns.at i).innerType T).goesWith .f64 = true :=
  (accept_rule h htree (by simp [hch]) (by
    revert hk
    cases (ns.at i).kind <;> simp [Number]) hl (rule_number hk hch hids) hT).2

/-- **C83**, swizzles.  In an accepted file what is swizzled is a vector where its type is known. -/
theorem C83_swizzle {env : Env} {fuel : Nat} {ns out : Nodes} (h : ns.typecheck env fuel = .accept out) {i c : Nat} {T : Ty}
    (hi : i < ns.length) (hk : (ns.at i).kind = .swizzle) (hch : ns.child i .expr = some c) (hT : (out.at c).ty = some T) :
    ((ns.at c).innerType T).goesWith .vec4 = true := by
  obtain ⟨hsh, hf⟩ := accept_final h hi
  simp only [Nodes.final, hsh.kind, hk, Nodes.finalSwizzle, hsh.child, hch, hT, hsh.innerType, Option.map_some] at hf
  by_contra hne
  simp [hne] at hf

/-- **C83**, `grab`.  In an accepted file there is something to grab. -/
theorem C83_grab {env : Env} {fuel : Nat} {ns out : Nodes} (h : ns.typecheck env fuel = .accept out) (htree : Tree ns) {i c : Nat} {T : Ty}
    (hk : (ns.at i).kind = .grab) (hch : (ns.at i).children = [c]) (hids : (ns.at c).itemIds = false) (hl : (ns.at c).kind ≠ .left)
    (hr : (ns.at c).kind ≠ .ret) (hT : (out.at c).ty = some T) : T ≠ .void :=
  (accept_rule h htree (by simp [hch]) (by rw [hk]; decide) hl (rule_grab hk hch hids hr) hT).2

/-- **C83**, `go`.  In an accepted file a function of the file that is started with `go` has a result. -/
theorem C83_go {env : Env} {fuel : Nat} {ns out : Nodes} (h : ns.typecheck env fuel = .accept out) {i c f : Nat}
    (hi : i < ns.length) (hk : (ns.at i).kind = .go) (hch : (ns.at i).children = [c]) (hd : (ns.at c).declaration = some f) :
    ∃ T, (out.at f).ty = some T ∧ T ≠ .void := by
  obtain ⟨hsh, hf⟩ := accept_final h hi
  simp only [Nodes.final, hsh.kind, hk, Nodes.finalGo, hsh.children, hch, hsh.declaration, hd] at hf
  split at hf
  · cases hf
  · cases hf
  · rename_i t h1 h2
    cases ht : (out.at f).ty with
    | none => exact absurd ht h1
    | some T => exact ⟨T, rfl, fun h => h2 (by rw [ht, h])⟩

/-- **C64**, threads.  In an accepted file `go f(..)` has the type of a thread that gives what the call gives. -/
theorem C64_go {env : Env} {fuel : Nat} {ns out : Nodes} (h : ns.typecheck env fuel = .accept out) (htree : Tree ns) {i c : Nat} {T : Ty}
    (hk : (ns.at i).kind = .go) (hch : (ns.at i).children = [c]) (hl : (ns.at c).kind ≠ .left) (hT : (out.at c).ty = some T) :
    (out.at i).ty = some (.thread T) :=
  (accept_rule h htree (by simp [hch]) (by rw [hk]; decide) hl (rule_go hk hch) hT).1

/-- **C64**, `sift`.  In an accepted file a `sift` loop is an array of what its body gives. -/
theorem C64_sift {env : Env} {fuel : Nat} {ns out : Nodes} (h : ns.typecheck env fuel = .accept out) (htree : Tree ns) {i c : Nat} {T : Ty}
    (hk : (ns.at i).kind = .sift) (hch : ns.child i .block = some c) (hT : (out.at c).ty = some T) :
    (out.at i).ty = some (.array T) :=
  (accept_rule h htree (child_mem hch) (by rw [hk]; decide) (by
    have := List.find?_some hch
    have : (ns.at c).kind = .block := by simpa using this
    rw [this]; decide) (rule_sift hk hch) hT).1

end Dyon.Check

namespace Dyon.Check.Demo

open Spec

/-- The named type of a weight. -/
def kg : Ty := .adHoc "kg" .f64

/-- ```
fn g() -> f64 { return 1 }
fn f(v: vec4, a: kg f64, b: kg f64) {
    x := a
    x += b
    y := go g()
    z := (1, 2)
    w := xy v
    c := \(k: f64) = (grab b)
    s := sift i 2 { 1 }
}
``` -/
def unitProg : Nodes := prepared [
  fnT "g" .f64 [nd .block [ret (val .f64)]],
  fnT "f" .void [argT "v" .vec4, argT "a" kg, argT "b" kg, nd .block [
    decl "x" (item "a"),
    stmt .add (item "x") (item "b"),
    decl "y" (nd .go [.mk { kind := .call, names := ["g"] } []]),
    decl "z" (.mk { kind := .vec4, ty := some .vec4 } [nd .x [val .f64], nd .y [val .f64]]),
    decl "w" (nd .swizzle [nd .expr [item "v"]]),
    decl "c" (.mk { kind := .closure } [argT "k" .f64, nd .expr [grab 1 "b"]]),
    decl "s" (.mk { kind := .sift, names := ["i"] } [nd .end' [nd .expr [val .f64]], nd .block [nd .expr [val .f64]]])]]]

/-- The nodes with their types. -/
def unitOut : Nodes := typedNodes (unitProg.typecheck hostEnv 20)

theorem unit_tree : Tree unitProg := tree_of (by decide +kernel)

theorem unit_accept : unitProg.typecheck hostEnv 20 = .accept unitOut := accept_of (by decide +kernel)

/-- `x += b` -/
example : Adds kg kg :=
  C83_add_assign unit_accept (i := 19) (l := 20) (r := 22) (by decide +kernel) (by decide +kernel) (.inl (by decide +kernel))
    (by decide +kernel) (by decide +kernel) (by decide +kernel) (by decide +kernel)

/-- The second component of `(1, 2)`. -/
example : ((unitProg.at 42).innerType .f64).goesWith .f64 = true :=
  C83_number unit_accept unit_tree (i := 42) (c := 43)
    (by rw [show (unitProg.at 42).kind = .y by decide +kernel]; trivial) (by decide +kernel)
    (by decide +kernel) (by decide +kernel) (by decide +kernel)

/-- `xy v` -/
example : ((unitProg.at 51).innerType .vec4).goesWith .vec4 = true :=
  C83_swizzle unit_accept (i := 50) (c := 51) (by decide +kernel) (by decide +kernel) (by decide +kernel) (by decide +kernel)

/-- `(grab b)` -/
example : kg ≠ .void :=
  C83_grab unit_accept unit_tree (i := 62) (c := 63) (by decide +kernel) (by decide +kernel) (by decide +kernel) (by decide +kernel)
    (by decide +kernel) (by decide +kernel)

/-- `go g()` -/
example : (∃ T, (unitOut.at 0).ty = some T ∧ T ≠ .void) ∧ (unitOut.at 31).ty = some (.thread .f64) :=
  ⟨C83_go unit_accept (i := 31) (c := 32) (by decide +kernel) (by decide +kernel) (by decide +kernel) (by decide +kernel),
   C64_go unit_accept unit_tree (i := 31) (c := 32) (by decide +kernel) (by decide +kernel) (by decide +kernel) (by decide +kernel)⟩

/-- `sift i 2 { 1 }` -/
example : (unitOut.at 71).ty = some (.array .f64) :=
  C64_sift unit_accept unit_tree (i := 71) (c := 75) (by decide +kernel) (by decide +kernel) (by decide +kernel)

/-- Named types do not mix. -/
example : ¬ Adds kg .f64 ∧ ¬ Adds (.adHoc "m" .f64) kg ∧ ¬ Adds .f64 .void ∧ Adds .f64 .str := by
  refine ⟨fun h => ?_, fun h => ?_, fun h => ?_, .plain (by simp) (by simp) (by simp) (by simp)⟩ <;> simpa [kg, Ty.addAssign] using of_adds h

/-- `x := a  x += 1` with `a: kg f64`. -/
theorem add_refused : refused ((prepared [fnT "f" .void [argT "a" kg, nd .block [decl "x" (item "a"),
    stmt .add (item "x") (val .f64)]]]).typecheck hostEnv 20) = some (.mismatch 1000 11) := by
  decide +kernel

/-- `x := 1  x += "s"` is accepted (it fails at run time). -/
theorem add_plain_accepted : accepted ((prepared [fnT "f" .void [nd .block [decl "x" (val .f64),
    stmt .add (item "x") (val .str)]]]).typecheck hostEnv 20) = true := by
  decide +kernel

/-- `z := (1, "s")`. -/
theorem number_refused : refused ((prepared [fnT "f" .void [nd .block [
    decl "z" (.mk { kind := .vec4, ty := some .vec4 } [nd .x [val .f64], nd .y [val .str]])]]]).typecheck hostEnv 20) =
      some (.mismatch 700 11) := by
  decide +kernel

/-- `fn g() {}` and `y := go g()`. -/
theorem go_refused : refused ((prepared [fnT "g" .void [nd .block []], fnT "f" .void [nd .block [
    decl "y" (nd .go [.mk { kind := .call, names := ["g"] } []])]]]).typecheck hostEnv 20) = some (.mismatch 900 10) := by
  decide +kernel

/-- `w := xy 1`. -/
theorem swizzle_refused : refused ((prepared [fnT "f" .void [nd .block [
    decl "w" (nd .swizzle [nd .expr [val .f64]])]]]).typecheck hostEnv 20) = some (.mismatch 1200 9) := by
  decide +kernel

end Dyon.Check.Demo
