import Verif.Check.EndBuild
import Verif.Check.TextProps
import Verif.Check.TypesDemo
import Verif.Check.Mutable
import Verif.Check.Lifetime

/-!
# C70: the type checker ends

`typecheck.rs:54-656` visits nodes again and again until a round changes nothing.  Types are not
only made more precise: a node can lose a type it had, when the type comes from another signature
of a function.  Here: the loop ends on every program, if no left side of an assignment is followed
by `?`; and it does not end on a program of three lines where one is.
-/

namespace Dyon.Check

open Spec
open Front (Src FnSrc FnArg Cst TySrc BodySrc)

namespace Spec

/-- The type checker ends: from some number of rounds on the answer is the same, and it is an
answer. -/
def TypeCheckEnds (env : Env) (ns : Nodes) : Prop :=
  ∃ n out, out ≠ .running ∧ ∀ fuel, n ≤ fuel → ns.typecheck env fuel = out

/-- The type checker goes on forever. -/
def TypeCheckRuns (env : Env) (ns : Nodes) : Prop := ∀ fuel, ns.typecheck env fuel = .running

end Spec

theorem propagate_more {env : Env} : ∀ {fuel : Nat} {ns : Nodes} {todo : List Nat} {errs : List (Nat × TypeErr)},
    propagate env fuel ns todo errs ≠ .running → ∀ fuel', fuel ≤ fuel' →
      propagate env fuel' ns todo errs = propagate env fuel ns todo errs
  | 0, ns, todo, errs, h, fuel', _ => absurd rfl h
  | fuel + 1, ns, todo, errs, h, 0, hl => absurd hl (by omega)
  | fuel + 1, ns, todo, errs, h, fuel' + 1, hl => by
    rw [propagate] at h
    rw [propagate, propagate]
    cases hr : round env ⟨ns, [], errs, false⟩ todo with
    | error e => rfl
    | ok s =>
      rw [hr] at h
      simp only at h ⊢
      split
      · rename_i hc
        rw [if_pos hc] at h
        exact propagate_more h fuel' (by omega)
      · rfl

theorem ends_of {env : Env} {ns : Nodes} (h : ∃ fuel, propagate env fuel ns (List.range ns.length) [] ≠ .running) :
    TypeCheckEnds env ns := by
  obtain ⟨fuel, h⟩ := h
  refine ⟨fuel, ns.typecheck env fuel, ?_, fun fuel' hl => ?_⟩
  · unfold Nodes.typecheck
    cases h1 : propagate env fuel ns (List.range ns.length) [] with
    | running => exact absurd h1 h
    | failed e => simp
    | done ns errs =>
      cases errs with
      | cons x xs => simp
      | nil =>
        simp only
        split <;> simp
  · unfold Nodes.typecheck
    rw [propagate_more h fuel' hl]

/-- **C70.** The type checker ends on every file whose nodes are as the grammar has them (`Grammar`),
whose variables, functions and calls could be linked, and in which no left side of an assignment is
followed by `?`. -/
theorem C70_ends_partial {env : Env} {ns ns1 ns2 : Nodes} (hg : Grammar ns) (hp : NoTry ns)
    (h1 : ns.linkAll = .ok ns1) (h2 : ns1.linkFns env = .ok ns2) : TypeCheckEnds env ns2 :=
  ends_of (propagate_ends (formed_of hg hp h1 h2))

section
variable [FloatOps] [Data.Lex]

/-- **C70.** The same for program text: if nodes could be made of the functions of a file, variables
and calls could be linked, and no left side of an assignment is followed by `?` (`PlainLeft`), then
the type checker ends. -/
theorem C70_text_partial (env : Env) (fs : List FnSrc) (hs : ∀ f ∈ fs, ∀ k ∈ sigs f.body, SigOf k)
    (hp : ∀ f ∈ fs, PlainLeft f.tree) {ts : List Tr} {ns ns1 ns2 : Nodes} (hb : built (fs.map FnSrc.tree) = .ok ts)
    (ha : Arranged ns ts) (h1 : ns.linkAll = .ok ns1) (h2 : ns1.linkFns env = .ok ns2) : TypeCheckEnds env ns2 := by
  obtain ⟨hg, hn⟩ := grammar_of ha (built_gt (cs := fs.map FnSrc.tree)
    (fun c hc => by
      obtain ⟨f, hf, rfl⟩ := List.mem_map.1 hc
      exact ok_fn f (hs f hf))
    (fun c hc => by
      obtain ⟨f, hf, rfl⟩ := List.mem_map.1 hc
      exact hp f hf) hb)
  exact C70_ends_partial hg hn h1 h2

end

/-! ## Examples -/

namespace EndDemo
variable [FloatOps] [Data.Lex]
open TextDemo (v letv call fn)

/-- `fn foo(x) -> any { true }  (f64) -> opt` -/
def foo : FnSrc :=
  { name := "foo", args := [{ name := "x" }], currents := [],
    body := .returns (some .any) [.bool true] [[.node .tyArg TySrc.f64.tree, .node .tyRet TySrc.opt.tree]] }

/-- A file with `foo` and `fn main(a: f64) { e }`. -/
def files (e : Src) : List FnSrc :=
  [foo, { name := "main", args := [{ name := "a", ty := some .f64 }], currents := [], body := .block [e] [] }]

theorem files_sigs (e : Src) : ∀ f ∈ files e, ∀ k ∈ sigs f.body, SigOf k := by
  intro f hf k hk
  simp only [files, List.mem_cons, List.not_mem_nil, or_false] at hf
  rcases hf with rfl | rfl
  · simp only [foo, sigs, List.mem_cons, List.not_mem_nil, or_false] at hk
    subst hk
    exact ⟨[], [.f64], .opt, rfl⟩
  · simp [sigs] at hk

omit [FloatOps] [Data.Lex] in
/-- A node without operators. -/
def nd (k : Kind) (names : List String) (ty : Option Ty) (kids : List Tr) : Tr := .mk { kind := k, names := names, ty := ty } [] kids

/-- The nodes of a file, with an assignment in `main`. -/
def trees (asg : Tr) : List Tr :=
  [nd .fn ["foo"] (some .any) [nd .arg ["x"] none [],
      nd .block [] none [nd .expr [] (some .bool) []],
      nd .ty [] none [nd .tyArg [] (some .f64) [], nd .tyRet [] (some (.option .any)) []]],
    nd .fn ["main"] (some .void) [nd .arg ["a"] (some .f64) [], nd .block [] none [nd .expr [] none [asg]]]]

/-- `foo(a)` -/
def fooA : Tr := nd .call ["foo"] none [nd .callArg [] none [nd .item ["a"] none []]]

/-- An assignment to `x`. -/
def asg (left right : Tr) : Tr := .mk { kind := .assign, op := some .assign } [] [left, right]

/-- What the checker makes of nodes before it checks types. -/
def linkedOf (ts : List Tr) : Except Unit Nodes :=
  match (arena ts).linkAll with
  | .error _ => .error ()
  | .ok ns => match ns.linkFns Demo.hostEnv with
    | .error _ => .error ()
    | .ok ns => .ok ns

theorem linkedOf_ok {ts : List Tr} {ns : Nodes} (h : linkedOf ts = .ok ns) : ∃ ns1,
    (arena ts).linkAll = .ok ns1 ∧ ns1.linkFns Demo.hostEnv = .ok ns := by
  unfold linkedOf at h
  split at h
  · cases h
  · rename_i ns1 h2
    split at h
    · cases h
    · rename_i ns2 h3
      cases h
      exact ⟨ns1, h2, h3⟩

def okNodes : Except Unit Nodes → Nodes
  | .ok ns => ns
  | .error _ => []
def isOk : Except Unit Nodes → Bool
  | .ok _ => true
  | .error _ => false
theorem okNodes_of {x : Except Unit Nodes} (h : isOk x = true) : x = .ok (okNodes x) := by
  cases x with
  | ok ns => rfl
  | error e => cases h

/-- `x := foo(a)?` -/
def plain : Src := letv "x" (.try_ (call "foo" [v "a"]))

/-- The nodes of `x := foo(a)?`. -/
def plainTr : List Tr := trees (asg (nd .left [] none [nd .item ["x"] none []])
  (.mk { kind := .right, tryFlag := true } [] [fooA]))

theorem plain_built : built ((files plain).map FnSrc.tree) = .ok plainTr := rfl

/-- The hypotheses of C70 hold of the file with `x := foo(a)?`. -/
example : ∃ ns1 ns2, built ((files plain).map FnSrc.tree) = .ok plainTr ∧ (arena plainTr).linkAll = .ok ns1 ∧
    ns1.linkFns Demo.hostEnv = .ok ns2 ∧ TypeCheckEnds Demo.hostEnv ns2 := by
  obtain ⟨ns1, h2, h3⟩ := linkedOf_ok (okNodes_of (x := linkedOf plainTr) (by decide +kernel))
  refine ⟨ns1, _, plain_built, h2, h3, C70_text_partial _ (files plain) (files_sigs plain) ?_ plain_built
    (arena_arranged plainTr) h2 h3⟩
  intro f hf
  simp only [files, List.mem_cons, List.not_mem_nil, or_false] at hf
  rcases hf with rfl | rfl <;>
    simp [PlainLeft, PlainLefts, FnSrc.tree, foo, plain, letv, v, call, Src.tree, FnArg.tree, BodySrc.tree, TySrc.tree, Front.ItemSrc.tree,
      Front.Callee.tree, Front.flag, Front.strOpt, Front.tyOpt, Front.trees, Front.treeIds]

/-! ## The type checker does not end on every program -/

/-- `(x)? := foo(a)` -/
def endless : Src := .assign (.try_ (.paren (v "x"))) .assign (call "foo" [v "a"])

/-- The nodes of `(x)? := foo(a)`. -/
def endlessTr : List Tr := trees (asg (.mk { kind := .left, tryFlag := true } [] [nd .item ["x"] none []])
  (nd .right [] none [fooA]))

theorem endless_built : built ((files endless).map FnSrc.tree) = .ok endlessTr := rfl

omit [FloatOps] [Data.Lex]

deriving instance DecidableEq for Node

/-- Nodes, the list of nodes to visit and errors between two rounds. -/
abbrev Between := Nodes × List Nat × List (Nat × TypeErr)

/-- One more round, if another one follows. -/
def more (env : Env) (s : Between) : Option Between :=
  match round env ⟨s.1, [], s.2.2, false⟩ s.2.1 with
  | .error _ => none
  | .ok s => if s.changed then
      some (s.nodes, (List.range s.nodes.length).filter fun i => i ∈ s.next, s.errs) else none

/-- Several rounds. -/
def mores (env : Env) : Nat → Between → Option Between
  | 0, s => some s
  | n + 1, s => match more env s with
    | some s => mores env n s
    | none => none

theorem mores_runs {env : Env} : ∀ {n : Nat} {s s' : Between}, mores env n s = some s' → ∀ fuel,
    (∀ fuel' ≤ fuel, propagate env fuel' s'.1 s'.2.1 s'.2.2 = .running) →
      propagate env (n + fuel) s.1 s.2.1 s.2.2 = .running ∧ ∀ f ≤ n, propagate env f s.1 s.2.1 s.2.2 = .running
  | 0, s, s', h, fuel, hr => by
    cases h
    refine ⟨by rw [Nat.zero_add]; exact hr fuel (Nat.le_refl _), fun f hf => ?_⟩
    cases Nat.le_zero.1 hf
    rfl
  | n + 1, s, s', h, fuel, hr => by
    rw [mores] at h
    cases hm : more env s with
    | none => rw [hm] at h; cases h
    | some s1 =>
      rw [hm] at h
      obtain ⟨h1, h2⟩ := mores_runs h fuel hr
      have step : ∀ f, propagate env (f + 1) s.1 s.2.1 s.2.2 = propagate env f s1.1 s1.2.1 s1.2.2 := by
        intro f
        rw [propagate]
        unfold more at hm
        cases hrd : round env ⟨s.1, [], s.2.2, false⟩ s.2.1 with
        | error e => rw [hrd] at hm; cases hm
        | ok st =>
          rw [hrd] at hm
          simp only at hm ⊢
          split at hm
          · rename_i hc
            cases hm
            rw [if_pos hc]
          · cases hm
      refine ⟨?_, fun f hf => ?_⟩
      · rw [show n + 1 + fuel = (n + fuel) + 1 by omega, step]
        exact h1
      · cases f with
        | zero => rfl
        | succ f => rw [step]; exact h2 f (by omega)

/-- Rounds that come back to where they were. -/
theorem cycle_runs {env : Env} {n : Nat} {s : Between} (h : mores env (n + 1) s = some s) (fuel : Nat) :
    propagate env fuel s.1 s.2.1 s.2.2 = .running := by
  induction fuel using Nat.strongRecOn with
  | ind fuel ih =>
    by_cases hf : fuel ≤ n + 1
    · exact (mores_runs h 0 (fun f hf => by cases Nat.le_zero.1 hf; rfl)).2 fuel hf
    · have := (mores_runs h (fuel - (n + 1)) (fun f hf => ih f (by omega))).1
      rwa [show n + 1 + (fuel - (n + 1)) = fuel by omega] at this

/-- The nodes of the file with `(x)? := foo(a)` before types are checked. -/
def endlessNodes : Nodes := okNodes (linkedOf endlessTr)

/-- After five rounds the checker comes back to the same state every three rounds. -/
theorem endless_cycle : ∃ s, mores Demo.hostEnv 5 (endlessNodes, List.range endlessNodes.length, []) = some s ∧
    mores Demo.hostEnv 3 s = some s := by
  have h : ((mores Demo.hostEnv 5 (endlessNodes, List.range endlessNodes.length, [])).elim false fun s =>
      mores Demo.hostEnv 3 s == some s) = true := by decide +kernel
  cases h1 : mores Demo.hostEnv 5 (endlessNodes, List.range endlessNodes.length, []) with
  | none => rw [h1] at h; cases h
  | some s =>
    rw [h1] at h
    exact ⟨s, rfl, by simpa using h⟩

theorem endless_runs : TypeCheckRuns Demo.hostEnv endlessNodes := by
  obtain ⟨s, h1, h2⟩ := endless_cycle
  intro fuel
  have : propagate Demo.hostEnv fuel endlessNodes (List.range endlessNodes.length) [] = .running := by
    by_cases hf : fuel ≤ 5
    · exact (mores_runs h1 0 (fun f hf => by cases Nat.le_zero.1 hf; rfl)).2 fuel hf
    · have := (mores_runs h1 (fuel - 5) (fun f _ => cycle_runs h2 f)).1
      rwa [show 5 + (fuel - 5) = fuel by omega] at this
  unfold Nodes.typecheck
  rw [this]

/-- **Finding (C70).** The type checker does not end on the file
`fn foo(x) -> any { true }  (f64) -> opt  fn main(a: f64) { (x)? := foo(a) }`, of which nodes can be made
and which the checks of variables, calls, `mut` and lifetimes accept. -/
theorem C70_endless [FloatOps] [Data.Lex] : ∃ ns1 ns2, built ((files endless).map FnSrc.tree) = .ok endlessTr ∧
    (arena endlessTr).linkAll = .ok ns1 ∧ ns1.linkFns Demo.hostEnv = .ok ns2 ∧ ns2.requiresMut = none ∧
    ns2.checkLifetimes = .accept ∧ TypeCheckRuns Demo.hostEnv ns2 := by
  obtain ⟨ns1, h2, h3⟩ := linkedOf_ok (okNodes_of (x := linkedOf endlessTr) (by decide +kernel))
  exact ⟨ns1, _, endless_built, h2, h3, (by decide +kernel), (by decide +kernel), endless_runs⟩

end EndDemo
end Dyon.Check
