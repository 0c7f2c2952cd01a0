import Verif.Builtin.Sigs
import Verif.Sound.Checked
import Verif.Check.TypesDemo
import Verif.Sound.Findings

/-!
# C81, the side of the checker: operators, results of functions
-/

namespace Dyon.Sound

open Check Check.Spec Spec

/-- A decidable form of `Flat`. -/
def isFlat : Ty → Bool
  | .f64 | .bool | .str | .vec4 | .mat4 | .link => true
  | _ => false

theorem isFlat_iff {T : Ty} : isFlat T = true ↔ Flat T := by
  constructor
  · intro h
    cases T <;> first | exact absurd h Bool.false_ne_true | constructor
  · intro h
    cases h <;> rfl

/-- Everything that is vague. -/
def vagues : List (Option Ty) :=
  [none, some .any, some .f64, some .bool, some .str, some .vec4, some .mat4, some .link]

theorem mem_vagues {t : Option Ty} (h : Vague t) : t ∈ vagues := by
  cases h with
  | none => simp [vagues]
  | any => simp [vagues]
  | flat h => cases h <;> simp [vagues]

/-- The two parts of `Honest`, for the types of arguments `ts`. -/
def honestAt (ext : List Sig) (ts : List (Option Ty)) : Bool :=
  match refinePrelude ts ext with
  | .found r => isFlat r && ts.all fun t => t.any isFlat
  | .delayed => !ts.all fun t => t.any isFlat
  | _ => true

theorem allFlat_iff {ts : List (Option Ty)} :
    (ts.all fun t => t.any isFlat) = true ↔ ∀ t ∈ ts, ∃ T, Flat T ∧ t = some T := by
  rw [List.all_eq_true]
  refine forall₂_congr fun t _ => ?_
  cases t with
  | none => simp
  | some T => simp [isFlat_iff]

theorem honest_of {d : Mod.Dfn} (h : d.ext ≠ []) (hr : d.ret = .any)
    (hall : ∀ ts : List (Option Ty), ts.length = d.tys.length → (∀ t ∈ ts, t ∈ vagues) → honestAt d.ext ts = true) : Honest d := by
  refine .ext h hr (fun ts r hl hv hf => ?_) (fun ts hl hv hf => ?_)
  · have := hall ts hl fun t ht => mem_vagues (hv t ht)
    simp only [honestAt, hf, Bool.and_eq_true] at this
    exact ⟨isFlat_iff.1 this.1, allFlat_iff.1 this.2⟩
  · have := hall ts hl fun t ht => mem_vagues (by obtain ⟨T, hT, rfl⟩ := hv t ht; exact .flat hT)
    simp only [honestAt, hf, allFlat_iff.2 hv] at this
    exact absurd this (by decide)

/-- The declarations of the binary operators determine the types of their results. -/
theorem honest_binop (op : BinFn) {lts d1 d2} : Honest ⟨lts, [d1, d2], .any, op.ext, []⟩ := by
  refine honest_of (by cases op <;> simp [BinFn.ext, orderSigs, equalSigs]) rfl fun ts hl hv => ?_
  have key : ∀ a ∈ vagues, ∀ b ∈ vagues, honestAt op.ext [a, b] = true := by
    cases op <;> decide +kernel
  match ts, hl with
  | [a, b], _ => exact key a (hv a (by simp)) b (hv b (by simp))

/-- So do those of the unary operators. -/
theorem honest_unop (op : UnFn) {lts d1} : Honest ⟨lts, [d1], .any, op.ext, []⟩ := by
  refine honest_of (by cases op <;> simp [UnFn.ext]) rfl fun ts hl hv => ?_
  have key : ∀ a ∈ vagues, honestAt op.ext [a] = true := by
    cases op <;> decide +kernel
  match ts, hl with
  | [a], _ => exact key a (hv a (by simp))

/-- **C81**, results. In an accepted file, where `return e` is in a function with a declared type of the six, `e` has this
type: the type that it is found to have by the rules of `TypedNode`. -/
theorem C81_result_partial {env : Check.Env} {ns out : Nodes} {fuel f r : Nat} {R : Ty} (h : ns.typecheck env fuel = .accept out)
    (ht : Tree ns) (hf : f < ns.length) (hk : (ns.at f).kind = .fn) (hR : (ns.at f).ty = some R) (hflat : Flat R)
    (hw : Within ns f r) (hr : (ns.at r).kind = .ret) (hi : Frag env ns r) (hlt : r < ns.length) : TypedNode env ns r R := by
  obtain ⟨T, hT, e, t⟩ := C81_checked_partial h ht hi hlt
  obtain ⟨F, -, h2, -, h4⟩ := C61_return h ht hf hk
  have := h2 R hR
  subst this
  have := (h4 r hw (Or.inl hr)).2 T (by rw [hr]; decide) e
  rw [flat_goesWith hflat hT this]
  exact t

namespace Half
open Check.EndDemo (nd okNodes okNodes_of)
open Lost (box it)

/-- What the host declares of `/`, module.rs:301-313. -/
def table : List Mod.External :=
  [⟨[], "div", .binop 0, ⟨[.default, .default], [.any, .any], .any, BinFn.div.ext, []⟩⟩]

/-- What the checker knows of it. -/
def env : Check.Env := ⟨(⟨fun _ => none, [], []⟩ : Mod.Prelude).addExternals table, fun _ => none⟩

/-- The nodes of `fn half(x: f64) -> f64 { return x / 2 }` -/
def trees : List Check.Tr :=
  [nd .fn ["half"] (some .f64) [nd .arg ["x"] (some .f64) [], box .block [box .expr [box .ret [box .expr [nd .call ["div"] none
    [box .callArg [box .expr [it "x"]], box .callArg [nd .expr [] (some .f64) []]]]]]]]]

/-- The nodes before types are checked. -/
def nodes : Check.Nodes := okNodes (linked env trees)

/-- The operator, the `return` around it. -/
theorem frag : Frag env nodes 4 := by
  refine .wrap (c := 5) (by rw [show (nodes.at 4).kind = .ret by decide +kernel]; exact .ret) (by decide +kernel)
    (by decide +kernel) (by decide +kernel) (by decide +kernel) ?_
  refine .wrap (c := 6) (by rw [show (nodes.at 5).kind = .expr by decide +kernel]; exact .expr) (by decide +kernel)
    (by decide +kernel) (by decide +kernel) (by decide +kernel) ?_
  have e : (nodes.at 6).children = [7, 10] := by decide +kernel
  refine .host (f := 0) (d := ⟨[.default, .default], [.any, .any], .any, BinFn.div.ext, []⟩) (by decide +kernel) (by decide +kernel)
    ⟨by decide +kernel, ⟨"div", by decide +kernel⟩, by decide +kernel, rfl⟩ (honest_binop .div) (by rw [e]; rfl) (by rw [e]; decide)
    (by rw [e]; decide +kernel) ?_
  rw [e]
  intro a ha
  simp only [List.mem_cons, List.not_mem_nil, or_false] at ha
  rcases ha with rfl | rfl
  · refine .wrap (c := 8) (by rw [show (nodes.at 7).kind = .callArg by decide +kernel]; exact .arg) (by decide +kernel)
      (by decide +kernel) (by decide +kernel) (by decide +kernel) ?_
    refine .wrap (c := 9) (by rw [show (nodes.at 8).kind = .expr by decide +kernel]; exact .expr) (by decide +kernel)
      (by decide +kernel) (by decide +kernel) (by decide +kernel) ?_
    exact .var (d := 1) (T := .f64) (by decide +kernel) (by decide +kernel) (by decide +kernel) (by decide +kernel)
      (by decide +kernel) (by decide +kernel) (by decide +kernel) .f64
  · refine .wrap (c := 11) (by rw [show (nodes.at 10).kind = .callArg by decide +kernel]; exact .arg) (by decide +kernel)
      (by decide +kernel) (by decide +kernel) (by decide +kernel) ?_
    exact .lit (T := .f64) (by decide +kernel) (by decide +kernel) (by decide +kernel) .f64

/-- The function `half` meets the conditions: `x / 2` has the type `f64` by the signatures of `/`. -/
example : TypedNode env nodes 4 .f64 :=
  C81_result_partial (f := 0) (Check.Demo.accept_of (o := nodes.typecheck env 12) (by decide +kernel))
    (Check.Demo.tree_of (by decide +kernel)) (by decide +kernel) (by decide +kernel) (by decide +kernel) .f64
    (.step (r := 3) (.step (r := 2) (.child (by decide +kernel)) (by decide +kernel) (by decide +kernel)) (by decide +kernel)
      (by decide +kernel)) (by decide +kernel) frag
    (by decide +kernel)

end Half

end Dyon.Sound
