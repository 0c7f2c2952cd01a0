import Verif.Check.RefineProps

/-!
# C06, C64: examples of calls with extra signatures
-/

namespace Dyon.Check.Demo

open Spec

/-- An extra signature. -/
def sigT (args : List Ty) (ret : Ty) : T :=
  .mk { kind := .ty } (args.map (fun t => .mk { kind := .tyArg, ty := some t } []) ++ [.mk { kind := .tyRet, ty := some ret } []])

/-- A host with the function `twice(any) -> any` and the extra signatures `(vec4) -> vec4` and
`(f64) -> f64`. -/
def twiceDfn : Mod.Dfn := ⟨[.default], [.any], .any, [⟨[], [.vec4], .vec4⟩, ⟨[], [.f64], .f64⟩], []⟩

/-- The environment. -/
def twiceEnv : Env :=
  ⟨⟨fun n => if n = "twice" then some 0 else none, [twiceDfn], []⟩, fun _ => none⟩

/-- ```
fn h(a: any, b: any) -> any { return a }
    (str, f64) -> str
    (f64, f64) -> f64
fn f(n: f64) {
    x := h(n, 1)
    y := twice(n)  // with an expression around `n`, like the operands of `+`
}
``` -/
def refProg : Nodes := match (linked (file [
  fnT "h" .any [argT "a" .any, argT "b" .any, sigT [.str, .f64] .str, sigT [.f64, .f64] .f64,
    nd .block [ret (item "a")]],
  fnT "f" .void [argT "n" .f64, nd .block [
    decl "x" (call "h" [item "n", val .f64]),
    decl "y" (call "twice" [nd .expr [item "n"]])]]])).linkCalls twiceEnv with
  | .ok ns => ns
  | .error _ => []

/-- The nodes with their types. -/
def refOut : Nodes := typedNodes (refProg.typecheck twiceEnv 12)

theorem ref_tree : Tree refProg := tree_of (by decide +kernel)

theorem ref_accept : refProg.typecheck twiceEnv 12 = .accept refOut := accept_of (by decide +kernel)

/-- The extra signatures of `h`. -/
def hSigs : List Sig := [⟨[], [.str, .f64], .str⟩, ⟨[], [.f64, .f64], .f64⟩]

theorem h_sigs : List.Forall₂ (Signature refProg)
    ((refProg.at 0).children.filter fun k => (refProg.at k).kind = .ty) hSigs := by
  have : ((refProg.at 0).children.filter fun k => decide ((refProg.at k).kind = .ty)) = [3, 7] := by decide +kernel
  rw [this]
  exact .cons ⟨by decide +kernel, by decide +kernel, 6, by decide +kernel, by decide +kernel⟩
    (.cons ⟨by decide +kernel, by decide +kernel, 10, by decide +kernel, by decide +kernel⟩ .nil)

theorem use_known (e : Nat) (h : (refProg.at e).innerType .f64 = .f64 ∧ (refProg.at e).ty = none ∧
    (refProg.at e).kind = .item ∧ (refProg.at e).children = [] ∧ (refProg.at e).declaration = some 17) :
    KnownType twiceEnv refProg e .f64 := by
  have := KnownType.parameter (env := twiceEnv) (ns := refProg) (e := e) (d := 17) (P := .f64) h.2.1 h.2.2.1 h.2.2.2.1
    h.2.2.2.2 (by decide +kernel) (by decide +kernel)
  rw [h.1] at this
  exact this

theorem h_args : List.Forall₂ (KnownType twiceEnv refProg) [28, 30] [.f64, .f64] :=
  .cons (use_known 28 (by decide +kernel))
    (.cons (.literal (by decide +kernel) (by decide +kernel) (by decide +kernel)) .nil)

theorem h_found : refinePrelude ([Ty.f64, Ty.f64].map some) hSigs = .found .f64 := by with_unfolding_all rfl

/-- `h(n, 1)` is an `f64`: the second signature. -/
example : (refOut.at 26).ty = some .f64 := by
  have := C64_refined ref_accept ref_tree (c := 26) (f := 0) (P := .any) (es := [28, 30]) (sigs := hSigs) (by decide +kernel)
    (by decide +kernel) (by decide +kernel) (by decide +kernel) (by decide +kernel) (by decide +kernel) h_sigs
    (by unfold Arguments; decide +kernel) h_args
  rwa [h_found] at this

example : (∃ before sig after, hSigs = before ++ sig :: after ∧ (∀ s ∈ before, s.accepts [.f64, .f64] = false) ∧
      sig.accepts [.f64, .f64] = true ∧ (refOut.at 26).ty = some sig.ret) ∨
    (hSigs = [] ∧ (refOut.at 26).ty = some .any) :=
  C64_overload ref_accept ref_tree (c := 26) (f := 0) (P := .any) (es := [28, 30]) (sigs := hSigs) (by decide +kernel)
    (by decide +kernel) (by decide +kernel) (by decide +kernel) (by decide +kernel) (by decide +kernel) h_sigs
    (by unfold Arguments; decide +kernel) h_args (by decide) (by decide +kernel)

/-- `twice(n)` is an `f64`. -/
example : (refOut.at 38).ty = some .f64 := by
  have hn := KnownType.around (e := 40) (by decide +kernel) (by decide +kernel) (by decide +kernel)
    (use_known 41 (by decide +kernel))
  have hi : (refProg.at 40).innerType .f64 = .f64 := by decide +kernel
  rw [hi] at hn
  have := C64_host_refined ref_accept ref_tree (c := 38) (i := 0) (n := "twice") (d := twiceDfn) (es := [40])
    (ts := [.f64]) (by decide +kernel) (by decide +kernel) (by decide +kernel) (by decide +kernel) (by decide +kernel)
    (Or.inl ⟨by decide +kernel, rfl⟩) rfl (by simp [twiceDfn]) (by unfold Arguments; decide +kernel) (.cons hn .nil)
  have hf : refinePrelude ([Ty.f64].map some) twiceDfn.ext = .found .f64 := by with_unfolding_all rfl
  rwa [hf] at this

/-- The type of `n` is not known yet, and then it is. -/
example : refProg.refineDecl [none, some .f64] 0 [3, 7] = .delayed ∧
    refProg.refineDecl [some .f64, some .f64] 0 [3, 7] = .found (some .f64) := by
  have h : List.Forall₂ (Signature refProg) [3, 7] hSigs := by
    have : ((refProg.at 0).children.filter fun k => decide ((refProg.at k).kind = .ty)) = [3, 7] := by decide +kernel
    exact this ▸ h_sigs
  have h2 := C06_declared h [some .f64, some .f64]
  have h3 : refinePrelude [some .f64, some .f64] hSigs = .found .f64 := h_found
  rw [h3] at h2
  exact ⟨C06_declared h _, h2⟩

/-- A `bool` fits neither signature, whatever the second type is. -/
example : refinePrelude [some .bool, none] hSigs = .delayed ∨
    refinePrelude [some .bool, none] hSigs = refinePrelude [some .bool, some .f64] hSigs :=
  C06_early (.cons (Or.inr rfl) (.cons (Or.inl rfl) .nil)) hSigs

/-- ```
fn h(a: any, b: any) -> any { return a }
    (str, f64) -> str
fn f(n: f64) { x := h(n, 1) }
```
is refused. -/
def refBad : Nodes := match (linked (file [
  fnT "h" .any [argT "a" .any, argT "b" .any, sigT [.str, .f64] .str, nd .block [ret (item "a")]],
  fnT "f" .void [argT "n" .f64, nd .block [decl "x" (call "h" [item "n", val .f64])]]])).linkCalls twiceEnv with
  | .ok ns => ns
  | .error _ => []

example : ∃ c, refused (refBad.typecheck twiceEnv 12) = some (.mismatch 230 c) := ⟨22, by decide +kernel⟩

end Dyon.Check.Demo
