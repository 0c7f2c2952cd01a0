import Verif.Check.TextLemmas
import Verif.Check.Layout
import Verif.Front.ConvertProps

/-!
# C69: which variables a program text may use

`Verif/Check/Text.lean` states the scopes (`fitsFn`) on the text of a program, that is on the
functions, statements and expressions as written (`Verif/Front/Source.lean`).  The theorems here say
that the checker (`Verif/Check/Build.lean` for the nodes, `Verif/Check/Resolve.lean` for the search
of declarations) accepts exactly the files that respect the scopes.
-/

namespace Dyon.Check

open Spec
open Front (Src FnSrc FnArg Cst)

section
variable [FloatOps] [Data.Lex]

/-- **C69.** Of a file of functions, of which the checker could make nodes, the checker finds a
declaration for every variable if and only if every variable of every function may be used where
it is. -/
theorem C69_scopes_partial (fs : List FnSrc) (hs : ∀ f ∈ fs, ∀ k ∈ sigs f.body, SigOf k) {ts : List Tr} {ns : Nodes}
    (hb : built (fs.map FnSrc.tree) = .ok ts) (ha : Arranged ns ts) :
    (∃ ns', ns.linkAll = .ok ns') ↔ ∀ f ∈ fs, fitsFn f := by
  unfold built at hb
  cases h1 : rawFile (fs.map FnSrc.tree) with
  | error e => rw [h1] at hb; cases hb
  | ok ts0 =>
    rw [h1] at hb
    obtain ⟨g1, g2⟩ := rawFile_ok hs h1 hb
    rw [linkAll_fileOk ha g1, g2]

/-- **C69.** The same for the arena in which nodes are stored in the order of the text. -/
theorem C69_stored_partial (fs : List FnSrc) (hs : ∀ f ∈ fs, ∀ k ∈ sigs f.body, SigOf k) {ts : List Tr}
    (hb : built (fs.map FnSrc.tree) = .ok ts) :
    (∃ ns', (arena ts).linkAll = .ok ns') ↔ ∀ f ∈ fs, fitsFn f :=
  C69_scopes_partial fs hs hb (arena_arranged ts)

end

/-! ## Examples -/

namespace TextDemo
variable [FloatOps] [Data.Lex]

def v (x : String) : Src := .item (.mk false x false [])
/-- `x := e` -/
def letv (x : String) (e : Src) : Src := .assign (v x) .assign e
/-- `f(e)` -/
def call (f : String) (es : List Src) : Src := .call (.plain none f es)
/-- A function with arguments and a block. -/
def fn (as : List String) (es : List Src) : FnSrc :=
  { name := "main", args := as.map fun a => { name := a }, currents := [], body := .block es [] }

/-- `fn main(a) { b := a; for x in b { c := x; print(c) }; f := \(y) = y + (grab a); print(\f(b)) }` -/
def good : FnSrc := fn ["a"] [letv "b" (v "a"),
  .forIn .forIn none "x" (v "b") [letv "c" (v "x"), call "print" [v "c"]],
  letv "f" (.closure [{ name := "y" }] [] (.add (.mk (.plain (v "y")) []) [(.add, .mk (.plain (.grab none (v "a"))) [])])),
  call "print" [.callClosure (.mk false "f" false []) [v "b"]]]

example : ∃ ts ns', built [good.tree] = .ok ts ∧ (arena ts).linkAll = .ok ns' := by
  obtain ⟨ts, h⟩ : ∃ ts, built [good.tree] = .ok ts := ⟨_, rfl⟩
  obtain ⟨ns', h'⟩ := (C69_stored_partial [good] (by simp [good, fn, sigs]) h).2 (by
    intro f hf
    cases List.mem_singleton.1 hf
    simp [good, fn, fitsFn, fitsBody, fnScope, fitsSeq, Spec.fits, letv, v, call, fitsItem, fitsIds, isVar, plainItem, usable,
      seen, itemName, after, declared, leftName, fitsCallee, fitsProd, fitsOpd, fitsMul, fitsAdd, grabLevel])
  exact ⟨ts, ns', h, h'⟩

/-- `fn main() { if a { b := a } ; print(b) }`-like: a variable of an inner block is not seen behind it. -/
def inner : FnSrc := fn ["a"] [.block [letv "b" (v "a")], call "print" [v "b"]]

example : ∃ ts, built [inner.tree] = .ok ts ∧ ¬ ∃ ns', (arena ts).linkAll = .ok ns' := by
  obtain ⟨ts, h⟩ : ∃ ts, built [inner.tree] = .ok ts := ⟨_, rfl⟩
  refine ⟨ts, h, fun h' => ?_⟩
  have := (C69_stored_partial [inner] (by simp [inner, fn, sigs]) h).1 h' _ (List.mem_singleton.2 rfl)
  simp [inner, fn, fitsFn, fitsBody, fnScope, fitsSeq, Spec.fits, letv, v, call, fitsItem, fitsIds, isVar, plainItem, usable,
      seen, itemName, after, declared, fitsCallee] at this

/-! ## Findings -/

/-- What the checker says about a file of one function. -/
def Accepted (f : FnSrc) : Prop := ∃ ts ns', built [f.tree] = .ok ts ∧ (arena ts).linkAll = .ok ns'

theorem accepted {f : FnSrc} (h : ∃ ts, built [f.tree] = .ok ts) (hs : sigs f.body = []) (hf : fitsFn f) : Accepted f := by
  obtain ⟨ts, h⟩ := h
  obtain ⟨ns', h'⟩ := (C69_stored_partial [f] (by simp [hs]) h).2 (by simpa using hf)
  exact ⟨ts, ns', h, h'⟩

/-- `for x in x { }` -/
def ownRange : Src := .forIn .forIn none "x" (v "x") []

/-- **Finding (C69).** A loop variable may be used in the expression that the loop goes over:
`for x in x { }` is accepted although there is no `x`. -/
theorem C69_own_range_accepted : Accepted (fn [] [ownRange]) := by
  refine accepted ⟨_, rfl⟩ rfl ?_
  simp [fn, ownRange, fitsFn, fitsBody, fnScope, fitsSeq, Spec.fits, v, fitsItem, fitsIds, usable, seen, itemName, after,
    declared]

/-- `for i [i, i) { }` -/
def ownCount : Src := .forN .forN none [.range "i" (v "i") (v "i")] []

theorem C69_own_count_accepted : Accepted (fn [] [ownCount]) := by
  refine accepted ⟨_, rfl⟩ rfl ?_
  simp [fn, ownCount, fitsFn, fitsBody, fnScope, fitsSeq, Spec.fits, v, fitsItem, fitsIds, usable, seen, itemName, after,
    declared, fitsVars, varNames, ranges, afters]

open Dyon.Demo in
/-- The converted loop gets no slot for its `x`, and running it panics. -/
theorem C69_own_range_panics [VecMath] (file : String) : ∃ e, Front.toExpr file ownRange.tree = .ok e ∧
    (∀ k, (getLocals k e [] []).1 = e) ∧
    ∃ msg, eval (cfg []) 7 e .right { empty with calls := [⟨"main", 0, none, 0, 0, 0⟩] } = .panic msg :=
  ⟨_, (Front.C68_expression file ownRange).trans rfl, fun _ => rfl, _, rfl⟩

/-- `fn main() { f() := true; print(f) }` -/
def callLeft : FnSrc := fn [] [.assign (call "f" []) .assign (.bool true), call "print" [v "f"]]

/-- **Finding (C69).** The name of a function on the left side of `:=` counts as a variable behind
it. -/
theorem C69_call_declares : Accepted callLeft := by
  refine accepted ⟨_, rfl⟩ rfl ?_
  have e : Front.Spec.nameWith "f" (muts []) = "f" := rfl
  simp [callLeft, fn, call, fitsFn, fitsBody, fnScope, fitsSeq, Spec.fits, v, fitsItem, fitsIds, usable, seen, itemName,
    after, declared, leftName, fitsCallee, calleeName, isVar, e]

/-- `fn main(a) { f := \(x) = (grab 'n a) }` -/
def highGrab (n : F64) : FnSrc := fn ["a"] [letv "f" (.closure [{ name := "x" }] [] (.grab (some n) (v "a")))]

/-- **Finding (C69).** An argument of the function may be grabbed with a level that is higher than
the number of closures, here `grab '5 a`. -/
theorem C69_high_grab : Accepted (highGrab 0x4014000000000000#64) := by
  refine accepted ⟨_, rfl⟩ rfl ?_
  have : grabLevel (some 0x4014000000000000#64) = 5 := by decide +kernel
  simp [highGrab, fn, letv, fitsFn, fitsBody, fnScope, fitsSeq, Spec.fits, v, fitsItem, fitsIds, usable, seen, itemName,
      isVar, plainItem, this, after, declared, leftName]

/-- `\f(mut x)` -/
def mutClosure : FnSrc := fn ["f", "x"] [.callClosure (.mk false "f" false []) [.mutItem (.mk false "x" false [])]]

/-- **Finding (C69).** A call of a closure with a `mut` argument and no words makes the checker
panic. -/
theorem C69_mut_closure_panics : built [mutClosure.tree] = .error .panic := rfl

/-- A grab level that is less than one is refused. -/
theorem C69_low_grab : built [(highGrab 0).tree] = .error .grabLevel := rfl

end TextDemo

end Dyon.Check
