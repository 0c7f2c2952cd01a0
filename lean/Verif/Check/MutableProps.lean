import Verif.Check.Mutable
import Verif.Check.ResolveProps
import Verif.Check.Demo
import Verif.Eval.Demo

/-!
# C56: arguments that are not `mut` are not changed

`C56_assign` and `C56_call` say what the checker guarantees of an accepted file.  The English
claim goes further, and is false: `:=` with a property on the left inserts into the object of an
argument, and the checker does not look at it (`C56_insert_accepted`, `C56_insert_changes`).
-/

namespace Dyon.Check

namespace Spec

/-- The assignment `a` changes the variable of the item `i`: `x = ..`, `x.y = ..`, `x += ..`, but
not `x := ..`. -/
def Changes (ns : Nodes) (a i : Nat) : Prop :=
  a < ns.length ∧ (∃ op, (ns.at a).op = some op ∧ op ≠ .assign) ∧
    ∃ l, (ns.at a).children.head? = some l ∧ (ns.at l).children.head? = some i

/-- The item `i` is passed as `mut` argument `n` to a call. -/
def PassedMut (ns : Nodes) (n i : Nat) : Prop :=
  (∃ c < ns.length, (ns.at c).kind = .call ∧ n ∈ (ns.at c).children) ∧
    (ns.at n).kind = .callArg ∧ (ns.at n).mutable = true ∧
    (ns.at n).children.head? = some i ∧ (ns.at i).kind = .item

/-- `j` is an argument or current object that is declared without `mut`. -/
def ReadOnly (ns : Nodes) (j : Nat) : Prop :=
  ((ns.at j).kind = .arg ∨ (ns.at j).kind = .current) ∧ (ns.at j).mutable = false

end Spec

open Spec

theorem immutable_iff (ns : Nodes) (i : Nat) :
    ns.immutable i = true ↔ ∃ d, (ns.at i).declaration = some d ∧ ReadOnly ns d := by
  unfold Nodes.immutable ReadOnly
  cases (ns.at i).declaration <;> simp

theorem mutated_iff (ns : Nodes) (i : Nat) : i ∈ ns.mutated ↔ ∃ a, Changes ns a i := by
  unfold Nodes.mutated Changes
  simp only [List.mem_filterMap, List.mem_filter, List.mem_range, Nodes.leftItem]
  refine exists_congr fun a => ?_
  rw [and_assoc]
  refine and_congr_right fun _ => and_congr ?_ ?_
  · cases (ns.at a).op <;> simp
  · cases (ns.at a).children.head? <;> simp

theorem passed_mutArgs {ns : Nodes} {n i : Nat} (h : PassedMut ns n i) :
    i ∈ ns.mutArgs.filterMap ns.reference := by
  obtain ⟨⟨c, hc, hk, hn⟩, hk', hm, hch, hi⟩ := h
  simp only [List.mem_filterMap, Nodes.mutArgs, List.mem_flatMap, List.mem_filter, List.mem_range]
  exact ⟨n, ⟨c, ⟨hc, by simp [hk]⟩, hn, by simp [hk', hm]⟩, by simp [Nodes.reference, hk', hch, hi]⟩

theorem Alike.mutable {ns ns' : Nodes} (h : Alike ns ns') (k : Nat) :
    (ns.at k).mutable = (ns'.at k).mutable := by
  have := congrArg Node.mutable (h k)
  exact this

theorem Alike.length {ns ns' : Nodes} {is : List Nat} (h : ns.linkItems is = .ok ns') :
    ns'.length = ns.length := by
  induction is generalizing ns with
  | nil => cases h; rfl
  | cons i is ih =>
    rw [Nodes.linkItems] at h
    cases hr : ns.resolve i with
    | error e => rw [hr] at h; simp at h
    | ok r =>
      rw [hr] at h
      cases r with
      | none => exact ih h
      | some j =>
        rw [← setDecl_length ns i j]
        exact ih h

/-- C56: in an accepted file no argument or current object declared without `mut` is assigned to,
as a whole or in part, with `=`, `+=` and the like. -/
theorem C56_assign {ns ns' : Nodes} (h : ns.linkAll = .ok ns') (hm : ns'.requiresMut = none)
    {a i : Nat} {x : String} {j : Nat} (hc : Changes ns a i) (hu : Uses ns i x)
    (hf : Forest ns) (hj : Means ns i x j) : ¬ ReadOnly ns j := by
  intro hr
  obtain ⟨ha, _, _⟩ := linkItems_ok (items_nodup ns) (items_lt ns) h
  obtain ⟨j', hd, hm'⟩ := C55_accepted h hu
  obtain rfl := C55_unique hf hu hj hm'
  simp only [Nodes.requiresMut, Option.or_eq_none_iff, List.find?_eq_none] at hm
  have := hm.1 i ((mutated_iff ns' i).2 ⟨a, ?_⟩)
  · rw [immutable_iff] at this
    exact this ⟨j, hd, by simpa only [ReadOnly, ha.kind, ha.mutable] using hr⟩
  · simpa only [Changes, Alike.length h, ha.op, ha.children] using hc

/-- C56: in an accepted file no argument or current object declared without `mut` is passed on as
`mut` argument. -/
theorem C56_call {ns ns' : Nodes} (h : ns.linkAll = .ok ns') (hm : ns'.requiresMut = none)
    {n i : Nat} {x : String} {j : Nat} (hc : PassedMut ns n i) (hu : Uses ns i x)
    (hf : Forest ns) (hj : Means ns i x j) : ¬ ReadOnly ns j := by
  intro hr
  obtain ⟨ha, _, _⟩ := linkItems_ok (items_nodup ns) (items_lt ns) h
  obtain ⟨j', hd, hm'⟩ := C55_accepted h hu
  obtain rfl := C55_unique hf hu hj hm'
  simp only [Nodes.requiresMut, Option.or_eq_none_iff, List.find?_eq_none] at hm
  have := hm.2 i (passed_mutArgs (n := n) ?_)
  · rw [immutable_iff] at this
    exact this ⟨j, hd, by simpa only [ReadOnly, ha.kind, ha.mutable] using hr⟩
  · simpa only [PassedMut, Alike.length h, ha.kind, ha.mutable, ha.children] using hc

/-- C56: only such a use is refused: the item of the message changes or passes on, as `mut`, a
variable declared without `mut`. -/
theorem C56_rejects {ns : Nodes} {i : Nat} (hm : ns.requiresMut = some i) :
    ∃ j, (ns.at i).declaration = some j ∧ ReadOnly ns j ∧
      ((∃ a, Changes ns a i) ∨ ∃ n, PassedMut ns n i) := by
  simp only [Nodes.requiresMut, Option.or_eq_some_iff] at hm
  rcases hm with hm | ⟨_, hm⟩
  · obtain ⟨j, h1, h2⟩ := (immutable_iff ns i).1 (List.find?_some hm)
    exact ⟨j, h1, h2, Or.inl ((mutated_iff ns i).1 (List.mem_of_find?_eq_some hm))⟩
  · obtain ⟨j, h1, h2⟩ := (immutable_iff ns i).1 (List.find?_some hm)
    have := List.mem_of_find?_eq_some hm
    simp only [List.mem_filterMap, Nodes.mutArgs, List.mem_flatMap, List.mem_filter,
      List.mem_range, Bool.and_eq_true, decide_eq_true_eq] at this
    obtain ⟨n, ⟨c, ⟨hc, hk⟩, hn, hk', hmut⟩, hr⟩ := this
    refine ⟨j, h1, h2, Or.inr ⟨n, ⟨⟨c, hc, hk, hn⟩, hk', hmut, ?_⟩⟩⟩
    simp only [Nodes.reference, hk'] at hr
    cases hch : (ns.at n).children.head? with
    | none => rw [hch] at hr; simp at hr
    | some m =>
      rw [hch] at hr
      simp at hr
      obtain ⟨h3, rfl⟩ := hr
      exact ⟨rfl, h3⟩

/-! ## Examples -/

namespace Demo

/-- ```
fn f(mut a, b) {
    a.x = b
    g(mut a)
}
``` -/
def mutProg : Nodes := file [fn "f(mut,_)" [argMut "a", arg "b", nd .block [
  stmt .set (prop "a" "x") (item "b"),
  .mk { kind := .expr } [.mk { kind := .call, names := ["g(mut)"] }
    [.mk { kind := .callArg, mutable := true } [item "a"]]]]]]

theorem mutProg_forest : Forest mutProg := forest_of (by decide)

unseal Nodes.search in
/-- The variables are linked: `a` to argument 1, `b` to argument 2. -/
theorem mutProg_linked : ∃ ns', mutProg.linkAll = .ok ns' ∧ ns'.requiresMut = none ∧
    (ns'.at 7).declaration = some 1 ∧ (ns'.at 11).declaration = some 2 ∧
    (ns'.at 15).declaration = some 1 :=
  ⟨_, rfl, by decide, by decide, by decide, by decide⟩

theorem mutProg_uses (i : Nat) (x : String) (hi : i < mutProg.length)
    (hk : (mutProg.at i).kind = .item) (hn : (mutProg.at i).name = some x) (hr : x ≠ "return")
    (hd : ∀ a ∈ List.range mutProg.length, (mutProg.at a).op ≠ some .assign) : Uses mutProg i x :=
  ⟨hi, hk, hn, hr, fun ⟨a, _, ha, hop, _⟩ => hd a (List.mem_range.2 ha) hop⟩

/-- The hypotheses of `C56_assign` hold of `a.x = b`, and `a` is indeed `mut`. -/
example : ¬ ReadOnly mutProg 1 := by
  obtain ⟨ns', h1, h2, h3, _⟩ := mutProg_linked
  have hu : Uses mutProg 7 "a" :=
    mutProg_uses 7 "a" (by decide) (by decide) (by decide) (by decide) (by decide)
  obtain ⟨j, hj, hm⟩ := C55_accepted h1 hu
  rw [h3] at hj
  cases hj
  exact C56_assign h1 h2 (a := 5) ⟨by decide, ⟨.set, by decide, by decide⟩, 6, by decide, by decide⟩
    hu mutProg_forest hm

/-- The same of `g(mut a)`. -/
example : ¬ ReadOnly mutProg 1 := by
  obtain ⟨ns', h1, h2, _, _, h3⟩ := mutProg_linked
  have hu : Uses mutProg 15 "a" :=
    mutProg_uses 15 "a" (by decide) (by decide) (by decide) (by decide) (by decide)
  obtain ⟨j, hj, hm⟩ := C55_accepted h1 hu
  rw [h3] at hj
  cases hj
  exact C56_call h1 h2 (n := 14)
    ⟨⟨13, by decide, by decide, by decide⟩, by decide, by decide, by decide, by decide⟩
    hu mutProg_forest hm

unseal Nodes.search in
/-- Without `mut` the file is refused. -/
example : ∃ ns', (file [fn "f" [arg "a", nd .block [stmt .set (prop "a" "x") (val .f64)]]]).linkAll =
    .ok ns' ∧ ns'.requiresMut = some 6 := ⟨_, rfl, by decide⟩

/-- `fn f(a) { a.x := "new" }` -/
def insertProg : Nodes := file [fn "f" [arg "a", nd .block [
  stmt .assign (prop "a" "x") (val .str)]]]

unseal Nodes.search in
/-- Finding: `a.x := ..` is accepted although `a` is not `mut`. -/
theorem C56_insert_accepted : ∃ ns', insertProg.linkAll = .ok ns' ∧ ns'.requiresMut = none ∧
    (ns'.at 6).declaration = some 1 ∧ ReadOnly ns' 1 :=
  ⟨_, rfl, by decide, by decide, by decide, by decide⟩

open Dyon.Demo in
/-- ```
fn main() -> {
    o := {}
    f(o)
    return clone(o)
}
fn f(a) { a.x := "new" }
``` -/
def insertRun : List Func :=
  [Dyon.Demo.fn "main" [] true
    [Dyon.Demo.decl "o" (.object []), .call (.loaded 1) "f" [var "o" 1],
      .ret (.call (.ret (lib .clone)) "clone" [var "o" 1])],
   Dyon.Demo.fn "f" ["a"] false
    [.assign .assign (.item (.mk "a" (some 1) false false [.str "x"] [])) (str "new")]]

section
variable [FloatOps] [VecMath]

/-- The object an outcome stands for. -/
def objectOf : Ev R → Option Val
  | .ok (v, _) _ => v
  | _ => none

/-- Finding: it changes the object of the caller. -/
theorem C56_insert_changes :
    objectOf (eval (Dyon.Demo.cfg insertRun) 9 (.call (.loaded 0) "main" []) .right
      Dyon.Demo.empty) = some (.object [("x", .str "new")]) := by
  set_option smartUnfolding false in exact rfl

end

end Demo

end Dyon.Check
