import Verif.Eval.CallProps
import Verif.Eval.PlaceProps
import Verif.Eval.Demo

/-!
# C58: `x op= e` and `x = x op e`

The operators of the language are implemented twice: the binary operators in
`dyon_std/mod.rs` and the compound assignments in `Runtime::assign`.
-/

namespace Dyon

variable [FloatOps] [VecMath]

section Spec

/-- The binary operator of a compound assignment. -/
def binaryOf : AssignOp → Option (Val → Val → OpRes)
  | .add => some Op.add
  | .sub => some Op.sub
  | .mul => some Op.mul
  | .div => some Op.div
  | .rem => some Op.rem
  | .pow => some Op.pow
  | .set => none
  | .assign => none

/-- Equal but for the secrets that come with numbers and booleans. -/
def SameButSecret : Val → Val → Prop
  | .f64 x _, .f64 y _ => x = y
  | .bool x _, .bool y _ => x = y
  | v, w => v = w

/-- No explanation is attached to the value. -/
def NoSecret : Val → Prop
  | .f64 _ s => s = none
  | .bool _ s => s = none
  | _ => True

/-- The types for which a compound assignment is there for an operator. -/
inductive Compound : AssignOp → Val → Val → Prop
  | num {op x y s t} : binaryOf op ≠ none → Compound op (.f64 x s) (.f64 y t)
  | vec {op x y} : binaryOf op ≠ none → Compound op (.vec4 x) (.vec4 y)
  | scale {op x y t} : binaryOf op ≠ none → Compound op (.vec4 x) (.f64 y t)
  | matAdd {x y} : Compound .add (.mat4 x) (.mat4 y)
  | matSub {x y} : Compound .sub (.mat4 x) (.mat4 y)
  | matMul {x y} : Compound .mul (.mat4 x) (.mat4 y)
  | str {x y} : Compound .add (.str x) (.str y)
  | link {x y} : Compound .add (.link x) (.link y)

end Spec

/-! ## The two tables -/

/-- **C58.** Where a compound assignment and its operator are both defined, they give the
same value (up to the secret). -/
theorem C58_value_partial {op : AssignOp} {g} {x y v w : Val} (hg : binaryOf op = some g) (hv : g x y = .ok v)
    (hw : assignOp op x y = .ok w) : SameButSecret v w := by
  cases op <;> simp only [binaryOf, Option.some.injEq, reduceCtorEq] at hg <;> subst hg <;>
    cases x <;> cases y <;>
    simp only [Op.add, Op.sub, Op.mul, Op.div, Op.rem, Op.pow, assignOp, assignF64, assignVec4,
      assignVec4F64, assignSet, assignRet, Except.ok.injEq, AssignRes.ok.injEq, reduceCtorEq, if_true, if_false] at hv hw <;>
    first
      | (subst hv; subst hw; first | rfl | exact trivial)
      | trivial

/-- **C58.** With values that carry no secret the two results are equal. -/
theorem C58_equal {op : AssignOp} {g} {x y v w : Val} (hg : binaryOf op = some g) (hx : NoSecret x)
    (hy : NoSecret y) (hv : g x y = .ok v) (hw : assignOp op x y = .ok w) : v = w := by
  cases op <;> simp only [binaryOf, Option.some.injEq, reduceCtorEq] at hg <;> subst hg <;>
    cases x <;> cases y <;>
    simp only [Op.add, Op.sub, Op.mul, Op.div, Op.rem, Op.pow, assignOp, assignF64, assignVec4,
      assignVec4F64, assignSet, assignRet, Except.ok.injEq, AssignRes.ok.injEq, reduceCtorEq, if_true, if_false,
      NoSecret] at hv hw hx hy <;>
    first
      | (subst hv; subst hw; subst hx; subst hy; rfl)
      | (subst hv; subst hw; rfl)
      | trivial

/-- **C58.** Compound assignment is there for the listed types, and so is the operator. -/
theorem C58_defined {op : AssignOp} {x y : Val} (h : Compound op x y) :
    ∃ g v w, binaryOf op = some g ∧ g x y = .ok v ∧ assignOp op x y = .ok w := by
  cases h with
  | @num op x y s t h =>
    cases op <;> first | exact absurd rfl h | exact ⟨_, _, _, rfl, rfl, rfl⟩
  | @vec op x y h =>
    cases op <;> first | exact absurd rfl h | exact ⟨_, _, _, rfl, rfl, rfl⟩
  | @scale op x y t h =>
    cases op <;> first | exact absurd rfl h | exact ⟨_, _, _, rfl, rfl, rfl⟩
  | matAdd => exact ⟨_, _, _, rfl, rfl, rfl⟩
  | matSub => exact ⟨_, _, _, rfl, rfl, rfl⟩
  | matMul => exact ⟨_, _, _, rfl, rfl, rfl⟩
  | str => exact ⟨_, _, _, rfl, rfl, rfl⟩
  | link => exact ⟨_, _, _, rfl, rfl, rfl⟩

/-- **C58.** Links have two more: `l += s` puts a scalar at the end, `l -= k` puts the link
`k` in front. -/
theorem C58_link {l k : List Link.Scalar} {x : F64} {b : Bool} {s : String} {sec} :
    assignOp .add (.link l) (.f64 x sec) = .ok (.link (l ++ [.f64 x])) ∧
    assignOp .add (.link l) (.bool b sec) = .ok (.link (l ++ [.bool b])) ∧
    assignOp .add (.link l) (.str s) = .ok (.link (l ++ [.str s])) ∧
    assignOp .add (.link l) (.link k) = .ok (.link (l ++ k)) ∧
    assignOp .sub (.link l) (.link k) = .ok (.link (k ++ l)) := ⟨rfl, rfl, rfl, rfl, rfl⟩

/-- **C58.** Plain assignment keeps nothing of the old value. -/
theorem C58_set {x y w : Val} (hw : assignOp .set x y = .ok w) : w = y := by
  cases x <;> cases y <;>
    simp [assignOp, assignF64, assignVec4, assignVec4F64, assignSet, assignRet] at hw <;>
    first | exact hw.symm | trivial

/-- **C58**, finding: the secret of the sum of `x + y` is the one of `x`, that of `x += y` is
the one of `y`: what `why` and `where` explain about `x` is lost. -/
theorem C58_secret_differs : ∃ x y v w : Val, Op.add x y = .ok v ∧ assignOp .add x y = .ok w ∧ v ≠ w :=
  ⟨.f64 F64.zero (some [.f64 F64.zero none]), .f64 F64.zero none, _, _, rfl, rfl, by
    intro h; injection h with _ h; cases h⟩

/-- **C58**, finding: booleans have `+`, `-`, `*` and `^`, but no compound assignment: the
interpreter stops with `unimplemented!`. -/
theorem C58_bool_panics {op : AssignOp} (h : binaryOf op ≠ none) {a b : Bool} {s t} :
    assignOp op (.bool a s) (.bool b t) = .panic "not implemented" := by
  cases op <;> first | rfl | exact absurd rfl h

/-- **C58**, finding: `m + x` and `m += x` differ for a matrix and a number: the second is an
error. -/
theorem C58_matrix_number {m : Mat4} {x : F64} {s} :
    (∃ v, Op.add (.mat4 m) (.f64 x s) = .ok v) ∧
    assignOp .add (.mat4 m) (.f64 x s) = .err "Expected assigning to a number" := ⟨⟨_, rfl⟩, rfl⟩

/-! ## In a program -/

section
variable {c : ECfg} {n : Nat} {op : AssignOp} {right : Expr} {s t : St}
  {name : String} {sid : Option Nat} {i : Nat} {b x d v w : Val}

/-- The assignment of a value to a variable. -/
theorem assign_variable {side} (hop : op ≠ .assign) (hr : eval c n right .right s = .ok (some b, .cont) t)
    (hv : eval c n (plainVar name sid) (.leftInsert false) t = .ok (some (.ref i), .cont) t)
    (hx : t.stack[i]? = some x) (hd : Spec.target t.stack b = some d)
    (hself : b ≠ .ref i) (hw : assignOp op x d = .ok w) :
    eval c (n + 1) (.assign op (plainVar name sid) right) side s =
      .ok (none, .cont) { t with stack := t.stack.set i w } := by
  have e1 : eval c (n + 1) (.assign op (plainVar name sid) right) side s =
      assignSetE (eval c n) op (plainVar name sid) right s := by
    show assignE (eval c n) op (plainVar name sid) right s = _
    unfold assignE
    rw [if_neg hop]
  rw [e1]
  unfold assignSetE
  rw [want_ok hr, want_ok hv]
  refine (EM.bind_ok (show targetOf (.ref i) t = .ok ⟨i, []⟩ t from rfl)).trans ?_
  unfold assignTo
  have hq : readPlace t.stack ⟨i, []⟩ = some x := by
    simp [readPlace, hx, Val.atPath]
  rw [EM.bind_ok (target_deref hd), EM.bind_ok (readE_some hq)]
  have s1 : selfAppend op ⟨i, []⟩ b x = false := by
    unfold selfAppend
    split
    · rename_i j _
      exact decide_eq_false fun hh => hself (by cases hh; rfl)
    · rfl
  have s2 : selfContain op ⟨i, []⟩ b = false := by
    unfold selfContain
    split <;> simp
  simp only [s1, s2, hw]
  show (writeE ⟨i, []⟩ w >>= fun _ => noneR) _ = _
  rw [EM.bind_ok (writeE_some hq)]
  simp only [writePlace, hx, Val.setPath]
  rfl

/-- Setting a variable to the result of an operator applied to it. -/
theorem set_ok_of_compound {g} (h : Compound op x d) (hg : binaryOf op = some g) (hv : g x d = .ok v) :
    assignOp .set x v = .ok v := by
  cases h <;> rename_i h <;> (try cases op) <;> cases hg <;> cases hv <;> rfl

/-- **C58.** For the types for which there is a compound assignment, the statement
`x op= e` and the statement `x = x op e` both succeed and leave the same state, except for the
value of `x`, which is the same up to the secret.  (`hs`, `ht`: before and after `e`
the variable `x` is in slot `i`; `hself`: `e` is not the variable itself.) -/
theorem C58_statement_partial {g k nm side} (h : Compound op x d) (hg : binaryOf op = some g)
    (hk : c.binopFn k = g)
    (hr : eval c n right .right s = .ok (some b, .cont) t)
    (hs : ∀ sd, eval c n (plainVar name sid) sd s = .ok (some (.ref i), .cont) s)
    (ht : ∀ sd, eval c n (plainVar name sid) sd t = .ok (some (.ref i), .cont) t)
    (ht' : ∀ sd, eval c (n + 1) (plainVar name sid) sd t = .ok (some (.ref i), .cont) t)
    (hx : t.stack[i]? = some x) (hd : Spec.target t.stack b = some d) (hself : b ≠ .ref i) :
    ∃ v w, eval c (n + 1) (.assign op (plainVar name sid) right) side s =
        .ok (none, .cont) { t with stack := t.stack.set i w } ∧
      eval c (n + 2) (.assign .set (plainVar name sid)
        (.call (.binop k) nm [plainVar name sid, right])) side s =
        .ok (none, .cont) { t with stack := t.stack.set i v } ∧
      SameButSecret v w ∧ (NoSecret x → NoSecret d → v = w) := by
  obtain ⟨g', v, w, hg', hv, hw⟩ := C58_defined h
  obtain rfl : g = g' := by rw [hg] at hg'; exact Option.some.inj hg'
  have hop : op ≠ .assign := by rintro rfl; cases hg
  have hnr : ∀ j, v ≠ .ref j := by
    intro j hj
    subst hj
    cases h <;> rename_i h <;> (try cases op) <;> cases hg <;> cases hv
  refine ⟨v, w, assign_variable hop hr (ht _) hx hd hself hw, ?_, C58_value_partial hg hv hw,
    fun h1 h2 => C58_equal hg h1 h2 hv hw⟩
  refine assign_variable (b := v) (d := v) (by decide) ?_ (ht' _) hx ?_ (hnr i) (set_ok_of_compound h hg hv)
  · show callBinop c (eval c n) k [plainVar name sid, right] s = _
    unfold callBinop
    simp only
    rw [want_ok (hs _), want_ok hr]
    refine (EM.bind_ok (show derefE (.ref i) t = .ok x t from slotE_some hx)).trans ?_
    refine (EM.bind_ok (target_deref hd)).trans ?_
    rw [hk, hv]
    rfl
  · cases v <;> first | rfl | exact absurd rfl (hnr _)

end

namespace Demo

set_option maxHeartbeats 4000000 in
example (st : St) (hst : st = { empty with
      calls := [⟨"main", 0, none, 0, 0, 0⟩], stack := [.f64 (F64.ofNat 1) none], locals := [("x", 0)] }) :
    ∃ v w, eval (cfg []) 4 (.assign .add (plainVar "x" (some 1)) (num 2)) .right st =
        .ok (none, .cont) { st with stack := st.stack.set 0 w } ∧
      eval (cfg []) 5 (.assign .set (plainVar "x" (some 1))
        (.call (.binop 6) "add" [plainVar "x" (some 1), num 2])) .right st =
        .ok (none, .cont) { st with stack := st.stack.set 0 v } ∧
      SameButSecret v w ∧ (NoSecret (.f64 (F64.ofNat 1) none) → NoSecret (.f64 (F64.ofNat 2) none) → v = w) := by
  subst hst
  exact C58_statement_partial (x := .f64 (F64.ofNat 1) none) (d := .f64 (F64.ofNat 2) none) (b := .f64 (F64.ofNat 2) none)
    (.num (by simp [binaryOf])) rfl rfl rfl
    (fun _ => rfl) (fun _ => rfl) (fun _ => rfl) rfl rfl (by simp)

end Demo

end Dyon
