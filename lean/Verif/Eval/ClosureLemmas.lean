import Verif.Eval.Grows
import Verif.Eval.CallProps
import Verif.Eval.PlaceLemmas

/-!
# Closures: the grab expressions of a body, and the body with values in their place

The specification for C30 (`Grabs`, `Fill`, `GrabAll`) and its lemmas.
-/

namespace Dyon
namespace Spec

/-! ## Specification -/

/-- Puts the values of a list into something, one after the other; gives also the values
left over. -/
abbrev FM (α : Type) := List Val → α × List Val
/-- Takes none. -/
def fpure {α} (a : α) : FM α := fun vs => (a, vs)
/-- First one, then the other. -/
def fbind {α β} (m : FM α) (f : α → FM β) : FM β := fun vs => f (m vs).1 (m vs).2

mutual
/-- The expressions under the `grab`s of a level in a closure body, in the order they are
evaluated.  A nested closure counts one level more; other `grab`s are not entered. -/
def grabs (level : Nat) : Expr → List Expr
  | .grab l e => if l = level then [e] else []
  | .ret e => grabs level e
  | .try_ e => grabs level e
  | .retVoid => []
  | .brk _ => []
  | .cont _ => []
  | .const _ => []
  | .closure _ _ _ _ e => grabs (level + 1) e
  | .item it => grabsItem level it
  | .block es => grabsList level es
  | .assign _ l r => grabs level l ++ grabs level r
  | .ite c t elifs els => grabs level c ++ (grabsList level t ++ (grabsConds level elifs ++
      (grabsBlocks level elifs ++ grabsOptList level els)))
  | .go _ args => grabsList level args
  | .call _ _ args => grabsList level args
  | .callClosure it args => grabsItem level it ++ grabsList level args
  | .forN _ _ start stop body _ => grabsOpt level start ++ (grabs level stop ++ grabsList level body)
  | .vec4 args => grabsList level args
  | .mat4 args => grabsList level args
  | .link items => grabsList level items
  | .object kvs => grabsKVs level kvs
  | .array items => grabsList level items
  | .arrayFill f m => grabs level f ++ grabs level m
  | .for_ i c s b _ => grabs level i ++ (grabs level c ++ (grabs level s ++ grabsList level b))
  | .forIn _ _ iter body _ => grabs level iter ++ grabsList level body
  | .swizzle _ e => grabs level e
  | .tryExpr e => grabs level e
  | .in_ _ => []
/-- Of a list of expressions. -/
def grabsList (level : Nat) : List Expr → List Expr
  | [] => []
  | e :: es => grabs level e ++ grabsList level es
/-- Of the values of an object. -/
def grabsKVs (level : Nat) : List (String × Expr) → List Expr
  | [] => []
  | (_, e) :: es => grabs level e ++ grabsKVs level es
/-- Of the conditions of `else if`. -/
def grabsConds (level : Nat) : List (Expr × List Expr) → List Expr
  | [] => []
  | (c, _) :: es => grabs level c ++ grabsConds level es
/-- Of the blocks of `else if`. -/
def grabsBlocks (level : Nat) : List (Expr × List Expr) → List Expr
  | [] => []
  | (_, b) :: es => grabsList level b ++ grabsBlocks level es
/-- Of the `else` block. -/
def grabsOptList (level : Nat) : Option (List Expr) → List Expr
  | none => []
  | some es => grabsList level es
/-- Of the start of a loop. -/
def grabsOpt (level : Nat) : Option Expr → List Expr
  | none => []
  | some e => grabs level e
/-- Of the computed properties of a variable. -/
def grabsItem (level : Nat) : Item → List Expr
  | .mk _ _ _ _ ids _ => grabsIds level ids
/-- Of properties. -/
def grabsIds (level : Nat) : List Id → List Expr
  | [] => []
  | .str _ :: r => grabsIds level r
  | .num _ :: r => grabsIds level r
  | .expr e :: r => grabs level e ++ grabsIds level r
end

mutual
/-- The closure body with the `k`-th `grab` of the level replaced by the `k`-th value; all
else stays. -/
def fill (level : Nat) : Expr → FM Expr
  | .grab l e => fun vs => if l = level then
      match vs with
      | v :: r => (.const v, r)
      | [] => (.grab l e, [])
    else (.grab l e, vs)
  | .ret e => fbind (fill level e) fun e' => fpure (.ret e')
  | .try_ e => fbind (fill level e) fun e' => fpure (.try_ e')
  | .retVoid => fpure .retVoid
  | .brk l => fpure (.brk l)
  | .cont l => fpure (.cont l)
  | .const v => fpure (.const v)
  | .closure args cur r f e => fbind (fill (level + 1) e) fun e' => fpure (.closure args cur r f e')
  | .item it => fbind (fillItem level it) fun it' => fpure (.item it')
  | .block es => fbind (fillList level es) fun es' => fpure (.block es')
  | .assign op l r =>
    fbind (fill level l) fun l' => fbind (fill level r) fun r' => fpure (.assign op l' r')
  | .ite c t elifs els =>
    fbind (fill level c) fun c' => fbind (fillList level t) fun t' =>
    fbind (fillConds level elifs) fun cs' => fbind (fillBlocks level elifs) fun bs' =>
    fbind (fillOptList level els) fun els' => fpure (.ite c' t' (cs'.zip bs') els')
  | .go name args => fbind (fillList level args) fun a => fpure (.go name a)
  | .call f name args => fbind (fillList level args) fun a => fpure (.call f name a)
  | .callClosure it args =>
    fbind (fillItem level it) fun it' => fbind (fillList level args) fun a => fpure (.callClosure it' a)
  | .forN k name start stop body label =>
    fbind (fillOpt level start) fun start' => fbind (fill level stop) fun stop' =>
    fbind (fillList level body) fun body' => fpure (.forN k name start' stop' body' label)
  | .vec4 args => fbind (fillList level args) fun a => fpure (.vec4 a)
  | .mat4 args => fbind (fillList level args) fun a => fpure (.mat4 a)
  | .link items => fbind (fillList level items) fun a => fpure (.link a)
  | .object kvs => fbind (fillKVs level kvs) fun a => fpure (.object a)
  | .array items => fbind (fillList level items) fun a => fpure (.array a)
  | .arrayFill f m =>
    fbind (fill level f) fun f' => fbind (fill level m) fun m' => fpure (.arrayFill f' m')
  | .for_ i c s b label =>
    fbind (fill level i) fun i' => fbind (fill level c) fun c' => fbind (fill level s) fun s' =>
    fbind (fillList level b) fun b' => fpure (.for_ i' c' s' b' label)
  | .forIn k name iter body label =>
    fbind (fill level iter) fun iter' => fbind (fillList level body) fun body' =>
    fpure (.forIn k name iter' body' label)
  | .swizzle sel e => fbind (fill level e) fun e' => fpure (.swizzle sel e')
  | .tryExpr e => fbind (fill level e) fun e' => fpure (.tryExpr e')
  | .in_ f => fpure (.in_ f)
/-- In a list of expressions. -/
def fillList (level : Nat) : List Expr → FM (List Expr)
  | [] => fpure []
  | e :: es => fbind (fill level e) fun e' => fbind (fillList level es) fun es' => fpure (e' :: es')
/-- In the values of an object. -/
def fillKVs (level : Nat) : List (String × Expr) → FM (List (String × Expr))
  | [] => fpure []
  | (k, e) :: es =>
    fbind (fill level e) fun e' => fbind (fillKVs level es) fun es' => fpure ((k, e') :: es')
/-- In the conditions of `else if`. -/
def fillConds (level : Nat) : List (Expr × List Expr) → FM (List Expr)
  | [] => fpure []
  | (c, _) :: es => fbind (fill level c) fun c' => fbind (fillConds level es) fun es' => fpure (c' :: es')
/-- In the blocks of `else if`. -/
def fillBlocks (level : Nat) : List (Expr × List Expr) → FM (List (List Expr))
  | [] => fpure []
  | (_, b) :: es =>
    fbind (fillList level b) fun b' => fbind (fillBlocks level es) fun es' => fpure (b' :: es')
/-- In the `else` block. -/
def fillOptList (level : Nat) : Option (List Expr) → FM (Option (List Expr))
  | none => fpure none
  | some es => fbind (fillList level es) fun es' => fpure (some es')
/-- In the start of a loop. -/
def fillOpt (level : Nat) : Option Expr → FM (Option Expr)
  | none => fpure none
  | some e => fbind (fill level e) fun e' => fpure (some e')
/-- In the computed properties of a variable. -/
def fillItem (level : Nat) : Item → FM Item
  | .mk name sid cur t ids tids =>
    fbind (fillIds level ids) fun ids' => fpure (.mk name sid cur t ids' tids)
/-- In properties. -/
def fillIds (level : Nat) : List Id → FM (List Id)
  | [] => fpure []
  | .str s :: r => fbind (fillIds level r) fun r' => fpure (.str s :: r')
  | .num x :: r => fbind (fillIds level r) fun r' => fpure (.num x :: r')
  | .expr e :: r => fbind (fill level e) fun e' => fbind (fillIds level r) fun r' => fpure (.expr e' :: r')
end

/-- The expressions are evaluated one after the other; of each result a deep clone over the
stack of that moment is taken. -/
inductive GrabAll (n : Nat) (ev : Evl) (side : Side) : List Expr → St → List Val → St → Prop
  | nil {st} : GrabAll n ev side [] st [] st
  | cons {e es st x st1 v vs st2} : ev e side st = .ok (some x, .cont) st1 →
      deepClone st1.stack n x = .ok v → GrabAll n ev side es st1 vs st2 →
      GrabAll n ev side (e :: es) st (v :: vs) st2

end Spec

open Spec

/-! ## Evaluation of the grabs -/

theorem GrabAll.append {n ev side gs hs st vs st1 ws st2} (h : GrabAll n ev side gs st vs st1)
    (h' : GrabAll n ev side hs st1 ws st2) : GrabAll n ev side (gs ++ hs) st (vs ++ ws) st2 := by
  induction h with
  | nil => exact h'
  | cons a b _ ih => exact .cons a b (ih h')

theorem GrabAll.split {n ev side} {gs hs : List Expr} {st us st2} (h : GrabAll n ev side (gs ++ hs) st us st2) :
    ∃ vs ws st1, us = vs ++ ws ∧ GrabAll n ev side gs st vs st1 ∧ GrabAll n ev side hs st1 ws st2 := by
  induction gs generalizing st us with
  | nil => exact ⟨[], us, st, rfl, .nil, h⟩
  | cons g gs ih =>
    cases h with
    | cons a b r =>
      obtain ⟨vs, ws, st1, rfl, h1, h2⟩ := ih r
      exact ⟨_, ws, st1, rfl, .cons a b h1, h2⟩

theorem GrabAll.length {n ev side gs st vs st1} (h : GrabAll n ev side gs st vs st1) :
    vs.length = gs.length := by
  induction h with
  | nil => rfl
  | cons _ _ _ ih => simp [ih]

/-- The grabbing computation evaluates the expressions and gives what the filling gives for
their values. -/
structure Splits {α} (n : Nat) (ev : Evl) (side : Side) (m : GM α) (gs : List Expr) (f : FM α) : Prop where
  fwd : ∀ {st a st'}, m st = .ok (.inr a) st' →
    ∃ vs, GrabAll n ev side gs st vs st' ∧ ∀ rest, f (vs ++ rest) = (a, rest)
  bwd : ∀ {st vs st'}, GrabAll n ev side gs st vs st' →
    ∃ a, m st = .ok (.inr a) st' ∧ ∀ rest, f (vs ++ rest) = (a, rest)

section
variable {n : Nat} {ev : Evl} {side : Side}

theorem Splits.pure {α} (a : α) : Splits n ev side (gpure a) [] (fpure a) where
  fwd h := by cases h; exact ⟨[], .nil, fun _ => rfl⟩
  bwd h := by cases h; exact ⟨a, rfl, fun _ => rfl⟩

theorem Splits.bind {α β} {m : GM α} {k : α → GM β} {gs hs f} {g : α → FM β} (hm : Splits n ev side m gs f)
    (hk : ∀ a, Splits n ev side (k a) hs (g a)) : Splits n ev side (gbind m k) (gs ++ hs) (fbind f g) where
  fwd {st b st'} h := by
    obtain ⟨x, s1, h1, h2⟩ := EM.bind_inv h
    cases x with
    | inl x => cases h2
    | inr a =>
      obtain ⟨vs, g1, f1⟩ := hm.fwd h1
      obtain ⟨ws, g2, f2⟩ := (hk a).fwd h2
      exact ⟨vs ++ ws, GrabAll.append g1 g2, fun rest => by
        rw [List.append_assoc, fbind, f1]; exact f2 rest⟩
  bwd h := by
    obtain ⟨vs, ws, st1, rfl, h1, h2⟩ := GrabAll.split h
    obtain ⟨a, e1, f1⟩ := hm.bwd h1
    obtain ⟨b, e2, f2⟩ := (hk a).bwd h2
    refine ⟨b, ?_, fun rest => by rw [List.append_assoc, fbind, f1]; exact f2 rest⟩
    rw [gbind, EM.bind_ok e1]
    exact e2

theorem Splits.bind1 {α β} {m : GM α} {k : α → β} {gs f} (hm : Splits n ev side m gs f) :
    Splits n ev side (gbind m fun a => gpure (k a)) gs (fbind f fun a => fpure (k a)) := by
  have := Splits.bind (k := fun a => gpure (k a)) hm (fun a => Splits.pure (k a))
  rwa [List.append_nil] at this

theorem Splits.here (e : Expr) (level : Nat) :
    Splits n ev side (grabHere n ev side e) [e] (fill level (.grab level e)) where
  fwd {st b st'} h := by
    rw [grabHere, wantK] at h
    obtain ⟨x, s1, h1, h2⟩ := EM.bind_inv h
    rcases x with ⟨_ | x, fl⟩
    · cases fl <;> cases h2
    · cases fl with
      | cont =>
        simp only at h2
        obtain ⟨w, s2, h3, h4⟩ := EM.bind_inv h2
        rw [cloneE] at h3
        cases hd : deepClone s1.stack n x with
        | ok w' =>
          rw [hd] at h3
          cases h3
          cases h4
          exact ⟨[w], .cons h1 hd .nil, fun rest => by simp [fill]⟩
        | panic => rw [hd] at h3; cases h3
        | running => rw [hd] at h3; cases h3
      | ret => cases h2
      | _ => cases h2
  bwd h := by
    cases h with
    | cons a b r =>
      cases r
      refine ⟨.const _, ?_, fun rest => by simp [fill]; rfl⟩
      rw [grabHere, wantK, EM.bind_ok a]
      simp only
      rw [EM.bind_ok (a := _) (show cloneE n _ _ = .ok _ _ by rw [cloneE, b])]
      rfl

mutual
theorem splits_expr (level : Nat) : ∀ e : Expr,
    Splits n ev side (grabExpr n ev side level e) (grabs level e) (fill level e)
  | .grab l e => by
    by_cases h : l = level
    · subst h
      have := Splits.here (n := n) (ev := ev) (side := side) e l
      simpa only [grabExpr, grabs, if_true] using this
    · have : fill level (.grab l e) = fpure (.grab l e) := by
        funext vs; simp only [fill, if_neg h]; rfl
      simp only [grabExpr, grabs, if_neg h, this]
      exact .pure _
  | .ret e => by simp only [grabExpr, grabs, fill]; exact .bind1 (splits_expr _ e)
  | .try_ e => by simp only [grabExpr, grabs, fill]; exact .bind1 (splits_expr _ e)
  | .retVoid => by simp only [grabExpr, grabs, fill]; exact .pure _
  | .brk l => by simp only [grabExpr, grabs, fill]; exact .pure _
  | .cont l => by simp only [grabExpr, grabs, fill]; exact .pure _
  | .const v => by simp only [grabExpr, grabs, fill]; exact .pure _
  | .closure args cur r f e => by simp only [grabExpr, grabs, fill]; exact .bind1 (splits_expr _ e)
  | .item it => by simp only [grabExpr, grabs, fill]; exact .bind1 (splits_item _ it)
  | .block es => by simp only [grabExpr, grabs, fill]; exact .bind1 (splits_list _ es)
  | .assign op l r => by
    simp only [grabExpr, grabs, fill]
    exact .bind (splits_expr _ l) fun _ => .bind1 (splits_expr _ r)
  | .ite c t elifs els => by
    simp only [grabExpr, grabs, fill]
    exact .bind (splits_expr _ c) fun _ => .bind (splits_list _ t) fun _ => .bind (splits_conds _ elifs) fun _ =>
      .bind (splits_blocks _ elifs) fun _ => .bind1 (splits_optList _ els)
  | .go name args => by simp only [grabExpr, grabs, fill]; exact .bind1 (splits_list _ args)
  | .call f name args => by simp only [grabExpr, grabs, fill]; exact .bind1 (splits_list _ args)
  | .callClosure it args => by
    simp only [grabExpr, grabs, fill]
    exact .bind (splits_item _ it) fun _ => .bind1 (splits_list _ args)
  | .forN k name start stop body label => by
    simp only [grabExpr, grabs, fill]
    exact .bind (splits_opt _ start) fun _ => .bind (splits_expr _ stop) fun _ => .bind1 (splits_list _ body)
  | .vec4 args => by simp only [grabExpr, grabs, fill]; exact .bind1 (splits_list _ args)
  | .mat4 args => by simp only [grabExpr, grabs, fill]; exact .bind1 (splits_list _ args)
  | .link items => by simp only [grabExpr, grabs, fill]; exact .bind1 (splits_list _ items)
  | .object kvs => by simp only [grabExpr, grabs, fill]; exact .bind1 (splits_kvs _ kvs)
  | .array items => by simp only [grabExpr, grabs, fill]; exact .bind1 (splits_list _ items)
  | .arrayFill f m => by
    simp only [grabExpr, grabs, fill]
    exact .bind (splits_expr _ f) fun _ => .bind1 (splits_expr _ m)
  | .for_ i c s b label => by
    simp only [grabExpr, grabs, fill]
    exact .bind (splits_expr _ i) fun _ => .bind (splits_expr _ c) fun _ => .bind (splits_expr _ s) fun _ =>
      .bind1 (splits_list _ b)
  | .forIn k name iter body label => by
    simp only [grabExpr, grabs, fill]
    exact .bind (splits_expr _ iter) fun _ => .bind1 (splits_list _ body)
  | .swizzle sel e => by simp only [grabExpr, grabs, fill]; exact .bind1 (splits_expr _ e)
  | .tryExpr e => by simp only [grabExpr, grabs, fill]; exact .bind1 (splits_expr _ e)
  | .in_ f => by simp only [grabExpr, grabs, fill]; exact .pure _
theorem splits_list (level : Nat) : ∀ es : List Expr,
    Splits n ev side (grabList n ev side level es) (grabsList level es) (fillList level es)
  | [] => by simp only [grabList, grabsList, fillList]; exact .pure _
  | e :: es => by
    simp only [grabList, grabsList, fillList]
    exact .bind (splits_expr _ e) fun _ => .bind1 (splits_list _ es)
theorem splits_kvs (level : Nat) : ∀ es : List (String × Expr),
    Splits n ev side (grabKVs n ev side level es) (grabsKVs level es) (fillKVs level es)
  | [] => by simp only [grabKVs, grabsKVs, fillKVs]; exact .pure _
  | (k, e) :: es => by
    simp only [grabKVs, grabsKVs, fillKVs]
    exact .bind (splits_expr _ e) fun _ => .bind1 (splits_kvs _ es)
theorem splits_conds (level : Nat) : ∀ es : List (Expr × List Expr),
    Splits n ev side (grabConds n ev side level es) (grabsConds level es) (fillConds level es)
  | [] => by simp only [grabConds, grabsConds, fillConds]; exact .pure _
  | (e, b) :: es => by
    simp only [grabConds, grabsConds, fillConds]
    exact .bind (splits_expr _ e) fun _ => .bind1 (splits_conds _ es)
theorem splits_blocks (level : Nat) : ∀ es : List (Expr × List Expr),
    Splits n ev side (grabBlocks n ev side level es) (grabsBlocks level es) (fillBlocks level es)
  | [] => by simp only [grabBlocks, grabsBlocks, fillBlocks]; exact .pure _
  | (e, b) :: es => by
    simp only [grabBlocks, grabsBlocks, fillBlocks]
    exact .bind (splits_list _ b) fun _ => .bind1 (splits_blocks _ es)
theorem splits_optList (level : Nat) : ∀ es : Option (List Expr),
    Splits n ev side (grabOptList n ev side level es) (grabsOptList level es) (fillOptList level es)
  | none => by simp only [grabOptList, grabsOptList, fillOptList]; exact .pure _
  | some es => by simp only [grabOptList, grabsOptList, fillOptList]; exact .bind1 (splits_list _ es)
theorem splits_opt (level : Nat) : ∀ e : Option Expr,
    Splits n ev side (grabOpt n ev side level e) (grabsOpt level e) (fillOpt level e)
  | none => by simp only [grabOpt, grabsOpt, fillOpt]; exact .pure _
  | some e => by simp only [grabOpt, grabsOpt, fillOpt]; exact .bind1 (splits_expr _ e)
theorem splits_item (level : Nat) : ∀ it : Item,
    Splits n ev side (grabItem n ev side level it) (grabsItem level it) (fillItem level it)
  | .mk name sid cur t ids tids => by
    simp only [grabItem, grabsItem, fillItem]; exact .bind1 (splits_ids _ ids)
theorem splits_ids (level : Nat) : ∀ ids : List Id,
    Splits n ev side (grabIds n ev side level ids) (grabsIds level ids) (fillIds level ids)
  | [] => by simp only [grabIds, grabsIds, fillIds]; exact .pure _
  | .str s :: r => by simp only [grabIds, grabsIds, fillIds]; exact .bind1 (splits_ids _ r)
  | .num x :: r => by simp only [grabIds, grabsIds, fillIds]; exact .bind1 (splits_ids _ r)
  | .expr e :: r => by
    simp only [grabIds, grabsIds, fillIds]
    exact .bind (splits_expr _ e) fun _ => .bind1 (splits_ids _ r)
end

end

/-! ## The filled body -/

/-- With enough values the filling takes `k` and the result has the property. -/
def Fills {α} (f : FM α) (k : Nat) (P : α → Prop) : Prop :=
  ∀ vs : List Val, k ≤ vs.length → P (f vs).1 ∧ (f vs).2 = vs.drop k

theorem Fills.pure {α} {a : α} {P : α → Prop} (h : P a) : Fills (fpure a) 0 P := fun _ _ => ⟨h, rfl⟩

theorem Fills.bind {α β} {f : FM α} {g : α → FM β} {k l : Nat} {P : α → Prop} {Q : β → Prop}
    (hf : Fills f k P) (hg : ∀ a, P a → Fills (g a) l Q) : Fills (fbind f g) (k + l) Q := by
  intro vs h
  obtain ⟨h1, h2⟩ := hf vs (by omega)
  obtain ⟨h3, h4⟩ := hg _ h1 (vs.drop k) (by simp; omega)
  rw [fbind, h2]
  exact ⟨h3, by rw [h4, List.drop_drop]⟩

theorem Fills.bind1 {α β} {f : FM α} {g : α → β} {k : Nat} {P : α → Prop} {Q : β → Prop}
    (hf : Fills f k P) (hg : ∀ a, P a → Q (g a)) : Fills (fbind f fun a => fpure (g a)) k Q :=
  Fills.bind hf fun a ha => Fills.pure (hg a ha)

/-- What is left of the grabs of a level when those of another (or the same) have been
filled. -/
def leftOver (m level : Nat) (gs : List Expr) : List Expr := if m = level then [] else gs

theorem leftOver_append {m level} (a b : List Expr) :
    leftOver m level (a ++ b) = leftOver m level a ++ leftOver m level b := by
  unfold leftOver; split <;> rfl
theorem leftOver_nil {m level} : leftOver m level [] = [] := by
  unfold leftOver; split <;> rfl
theorem leftOver_succ {m level} (a : List Expr) : leftOver (m + 1) (level + 1) a = leftOver m level a := by
  simp [leftOver]

mutual
theorem fills_expr (m level : Nat) : ∀ e : Expr,
    Fills (fill level e) (grabs level e).length (fun a => grabs m a = leftOver m level (grabs m e))
  | .grab l e => by
    intro vs h
    by_cases hl : l = level
    · subst hl
      simp only [grabs, if_true, List.length_singleton] at h
      cases vs with
      | nil => simp at h
      | cons v r =>
        simp only [fill, if_true, grabs, List.length_singleton, List.drop_succ_cons, List.drop_zero, and_true]
        unfold leftOver
        split
        · rfl
        · next hm => rw [if_neg (Ne.symm hm)]
    · simp only [fill, if_neg hl, grabs, List.length_nil, List.drop_zero, and_true]
      unfold leftOver
      by_cases hm : m = level
      · rw [if_pos hm, hm, if_neg hl]
      · rw [if_neg hm]
  | .ret e => by simp only [fill, grabs]; exact (fills_expr m _ e).bind1 fun _ h => by simp only [grabs, h]
  | .try_ e => by simp only [fill, grabs]; exact (fills_expr m _ e).bind1 fun _ h => by simp only [grabs, h]
  | .retVoid => by simp only [fill, grabs]; exact .pure (by simp only [grabs, leftOver_nil])
  | .brk l => by simp only [fill, grabs]; exact .pure (by simp only [grabs, leftOver_nil])
  | .cont l => by simp only [fill, grabs]; exact .pure (by simp only [grabs, leftOver_nil])
  | .const v => by simp only [fill, grabs]; exact .pure (by simp only [grabs, leftOver_nil])
  | .closure args cur r f e => by
    simp only [fill, grabs]
    exact (fills_expr (m + 1) _ e).bind1 fun _ h => by simp only [grabs, h, leftOver_succ]
  | .item it => by simp only [fill, grabs]; exact (fills_item m _ it).bind1 fun _ h => by simp only [grabs, h]
  | .block es => by simp only [fill, grabs]; exact (fills_list m _ es).bind1 fun _ h => by simp only [grabs, h]
  | .assign op l r => by
    simp only [fill, grabs, List.length_append]
    exact (fills_expr m _ l).bind fun _ h => (fills_expr m _ r).bind1 fun _ h' => by
      simp only [grabs, h, h', leftOver_append]
  | .ite c t elifs els => by
    simp only [fill, grabs, List.length_append]
    exact (fills_expr m _ c).bind fun _ h1 => (fills_list m _ t).bind fun _ h2 =>
      (fills_conds m _ elifs).bind fun _ h3 => (fills_blocks m _ elifs).bind fun _ h4 =>
      (fills_optList m _ els).bind1 fun _ h5 => by
        simp only [grabs, h1, h2, h5, leftOver_append, h3.2 _ (h4.1.trans h3.1.symm),
          h4.2 _ (h3.1.trans h4.1.symm)]
  | .go name args => by simp only [fill, grabs]; exact (fills_list m _ args).bind1 fun _ h => by simp only [grabs, h]
  | .call f name args => by
    simp only [fill, grabs]; exact (fills_list m _ args).bind1 fun _ h => by simp only [grabs, h]
  | .callClosure it args => by
    simp only [fill, grabs, List.length_append]
    exact (fills_item m _ it).bind fun _ h => (fills_list m _ args).bind1 fun _ h' => by
      simp only [grabs, h, h', leftOver_append]
  | .forN k name start stop body label => by
    simp only [fill, grabs, List.length_append]
    exact (fills_opt m _ start).bind fun _ h1 => (fills_expr m _ stop).bind fun _ h2 =>
      (fills_list m _ body).bind1 fun _ h3 => by simp only [grabs, h1, h2, h3, leftOver_append]
  | .vec4 args => by simp only [fill, grabs]; exact (fills_list m _ args).bind1 fun _ h => by simp only [grabs, h]
  | .mat4 args => by simp only [fill, grabs]; exact (fills_list m _ args).bind1 fun _ h => by simp only [grabs, h]
  | .link items => by simp only [fill, grabs]; exact (fills_list m _ items).bind1 fun _ h => by simp only [grabs, h]
  | .object kvs => by simp only [fill, grabs]; exact (fills_kvs m _ kvs).bind1 fun _ h => by simp only [grabs, h]
  | .array items => by simp only [fill, grabs]; exact (fills_list m _ items).bind1 fun _ h => by simp only [grabs, h]
  | .arrayFill f k => by
    simp only [fill, grabs, List.length_append]
    exact (fills_expr m _ f).bind fun _ h => (fills_expr m _ k).bind1 fun _ h' => by
      simp only [grabs, h, h', leftOver_append]
  | .for_ i c s b label => by
    simp only [fill, grabs, List.length_append]
    exact (fills_expr m _ i).bind fun _ h1 => (fills_expr m _ c).bind fun _ h2 => (fills_expr m _ s).bind fun _ h3 =>
      (fills_list m _ b).bind1 fun _ h4 => by simp only [grabs, h1, h2, h3, h4, leftOver_append]
  | .forIn k name iter body label => by
    simp only [fill, grabs, List.length_append]
    exact (fills_expr m _ iter).bind fun _ h => (fills_list m _ body).bind1 fun _ h' => by
      simp only [grabs, h, h', leftOver_append]
  | .swizzle sel e => by simp only [fill, grabs]; exact (fills_expr m _ e).bind1 fun _ h => by simp only [grabs, h]
  | .tryExpr e => by simp only [fill, grabs]; exact (fills_expr m _ e).bind1 fun _ h => by simp only [grabs, h]
  | .in_ f => by simp only [fill, grabs]; exact .pure (by simp only [grabs, leftOver_nil])
theorem fills_list (m level : Nat) : ∀ es : List Expr,
    Fills (fillList level es) (grabsList level es).length
      (fun a => grabsList m a = leftOver m level (grabsList m es))
  | [] => by simp only [fillList, grabsList]; exact .pure (by simp only [grabsList, leftOver_nil])
  | e :: es => by
    simp only [fillList, grabsList, List.length_append]
    exact (fills_expr m _ e).bind fun _ h => (fills_list m _ es).bind1 fun _ h' => by
      simp only [grabsList, h, h', leftOver_append]
theorem fills_kvs (m level : Nat) : ∀ es : List (String × Expr),
    Fills (fillKVs level es) (grabsKVs level es).length
      (fun a => grabsKVs m a = leftOver m level (grabsKVs m es))
  | [] => by simp only [fillKVs, grabsKVs]; exact .pure (by simp only [grabsKVs, leftOver_nil])
  | (k, e) :: es => by
    simp only [fillKVs, grabsKVs, List.length_append]
    exact (fills_expr m _ e).bind fun _ h => (fills_kvs m _ es).bind1 fun _ h' => by
      simp only [grabsKVs, h, h', leftOver_append]
theorem fills_conds (m level : Nat) : ∀ es : List (Expr × List Expr),
    Fills (fillConds level es) (grabsConds level es).length (fun a => a.length = es.length ∧
      ∀ bs : List (List Expr), bs.length = a.length →
        grabsConds m (a.zip bs) = leftOver m level (grabsConds m es))
  | [] => by
    simp only [fillConds, grabsConds]
    exact .pure ⟨rfl, fun bs h => by simp only [List.zip_nil_left, grabsConds, leftOver_nil]⟩
  | (e, b) :: es => by
    simp only [fillConds, grabsConds, List.length_append]
    refine (fills_expr m _ e).bind fun _ h => (fills_conds m _ es).bind1 fun _ h' => ⟨by simp [h'.1], fun bs hb => ?_⟩
    cases bs with
    | nil => simp at hb
    | cons b bs =>
      simp only [List.zip_cons_cons, grabsConds, h, h'.2 bs (by simpa using hb), leftOver_append]
theorem fills_blocks (m level : Nat) : ∀ es : List (Expr × List Expr),
    Fills (fillBlocks level es) (grabsBlocks level es).length (fun b => b.length = es.length ∧
      ∀ as : List Expr, as.length = b.length →
        grabsBlocks m (as.zip b) = leftOver m level (grabsBlocks m es))
  | [] => by
    simp only [fillBlocks, grabsBlocks]
    exact .pure ⟨rfl, fun bs h => by simp only [List.zip_nil_right, grabsBlocks, leftOver_nil]⟩
  | (e, b) :: es => by
    simp only [fillBlocks, grabsBlocks, List.length_append]
    refine (fills_list m _ b).bind fun _ h => (fills_blocks m _ es).bind1 fun _ h' => ⟨by simp [h'.1], fun as hb => ?_⟩
    cases as with
    | nil => simp at hb
    | cons a as =>
      simp only [List.zip_cons_cons, grabsBlocks, h, h'.2 as (by simpa using hb), leftOver_append]
theorem fills_optList (m level : Nat) : ∀ es : Option (List Expr),
    Fills (fillOptList level es) (grabsOptList level es).length
      (fun a => grabsOptList m a = leftOver m level (grabsOptList m es))
  | none => by simp only [fillOptList, grabsOptList]; exact .pure (by simp only [grabsOptList, leftOver_nil])
  | some es => by
    simp only [fillOptList, grabsOptList]
    exact (fills_list m _ es).bind1 fun _ h => by simp only [grabsOptList, h]
theorem fills_opt (m level : Nat) : ∀ e : Option Expr,
    Fills (fillOpt level e) (grabsOpt level e).length
      (fun a => grabsOpt m a = leftOver m level (grabsOpt m e))
  | none => by simp only [fillOpt, grabsOpt]; exact .pure (by simp only [grabsOpt, leftOver_nil])
  | some e => by
    simp only [fillOpt, grabsOpt]
    exact (fills_expr m _ e).bind1 fun _ h => by simp only [grabsOpt, h]
theorem fills_item (m level : Nat) : ∀ it : Item,
    Fills (fillItem level it) (grabsItem level it).length
      (fun a => grabsItem m a = leftOver m level (grabsItem m it))
  | .mk name sid cur t ids tids => by
    simp only [fillItem, grabsItem]
    exact (fills_ids m _ ids).bind1 fun _ h => by simp only [grabsItem, h]
theorem fills_ids (m level : Nat) : ∀ ids : List Id,
    Fills (fillIds level ids) (grabsIds level ids).length
      (fun a => grabsIds m a = leftOver m level (grabsIds m ids))
  | [] => by simp only [fillIds, grabsIds]; exact .pure (by simp only [grabsIds, leftOver_nil])
  | .str s :: r => by
    simp only [fillIds, grabsIds]
    exact (fills_ids m _ r).bind1 fun _ h => by simp only [grabsIds, h]
  | .num x :: r => by
    simp only [fillIds, grabsIds]
    exact (fills_ids m _ r).bind1 fun _ h => by simp only [grabsIds, h]
  | .expr e :: r => by
    simp only [fillIds, grabsIds, List.length_append]
    exact (fills_expr m _ e).bind fun _ h => (fills_ids m _ r).bind1 fun _ h' => by
      simp only [grabsIds, h, h', leftOver_append]
end

/-! ## Nothing to fill -/

theorem fbind_eq {α β} {f : FM α} {a : α} {g : α → FM β} (h : f = fpure a) : fbind f g = g a := by
  subst h; rfl

/-- A list of pairs from its halves. -/
theorem zip_fst_snd {α β} : ∀ l : List (α × β), (l.map Prod.fst).zip (l.map Prod.snd) = l
  | [] => rfl
  | _ :: l => by simp [zip_fst_snd l]

mutual
theorem fill_none (level : Nat) : ∀ e : Expr, grabs level e = [] → fill level e = fpure e
  | .grab l e => by
    intro h
    by_cases hl : l = level
    · simp [grabs, hl] at h
    · funext vs; simp only [fill, if_neg hl]; rfl
  | .ret e => fun h => by simp only [grabs] at h; simp only [fill]; rw [fbind_eq (fill_none _ e h)]
  | .try_ e => fun h => by simp only [grabs] at h; simp only [fill]; rw [fbind_eq (fill_none _ e h)]
  | .retVoid => fun _ => by simp only [fill]
  | .brk l => fun _ => by simp only [fill]
  | .cont l => fun _ => by simp only [fill]
  | .const v => fun _ => by simp only [fill]
  | .closure args cur r f e => fun h => by simp only [grabs] at h; simp only [fill]; rw [fbind_eq (fill_none _ e h)]
  | .item it => fun h => by simp only [grabs] at h; simp only [fill]; rw [fbind_eq (fillItem_none _ it h)]
  | .block es => fun h => by simp only [grabs] at h; simp only [fill]; rw [fbind_eq (fillList_none _ es h)]
  | .assign op l r => fun h => by
    simp only [grabs, List.append_eq_nil_iff] at h
    simp only [fill]; rw [fbind_eq (fill_none _ l h.1), fbind_eq (fill_none _ r h.2)]
  | .ite c t elifs els => fun h => by
    simp only [grabs, List.append_eq_nil_iff] at h
    simp only [fill]
    rw [fbind_eq (fill_none _ c h.1), fbind_eq (fillList_none _ t h.2.1), fbind_eq (fillConds_none _ elifs h.2.2.1),
      fbind_eq (fillBlocks_none _ elifs h.2.2.2.1), fbind_eq (fillOptList_none _ els h.2.2.2.2), zip_fst_snd]
  | .go name args => fun h => by simp only [grabs] at h; simp only [fill]; rw [fbind_eq (fillList_none _ args h)]
  | .call f name args => fun h => by simp only [grabs] at h; simp only [fill]; rw [fbind_eq (fillList_none _ args h)]
  | .callClosure it args => fun h => by
    simp only [grabs, List.append_eq_nil_iff] at h
    simp only [fill]; rw [fbind_eq (fillItem_none _ it h.1), fbind_eq (fillList_none _ args h.2)]
  | .forN k name start stop body label => fun h => by
    simp only [grabs, List.append_eq_nil_iff] at h
    simp only [fill]
    rw [fbind_eq (fillOpt_none _ start h.1), fbind_eq (fill_none _ stop h.2.1), fbind_eq (fillList_none _ body h.2.2)]
  | .vec4 args => fun h => by simp only [grabs] at h; simp only [fill]; rw [fbind_eq (fillList_none _ args h)]
  | .mat4 args => fun h => by simp only [grabs] at h; simp only [fill]; rw [fbind_eq (fillList_none _ args h)]
  | .link items => fun h => by simp only [grabs] at h; simp only [fill]; rw [fbind_eq (fillList_none _ items h)]
  | .object kvs => fun h => by simp only [grabs] at h; simp only [fill]; rw [fbind_eq (fillKVs_none _ kvs h)]
  | .array items => fun h => by simp only [grabs] at h; simp only [fill]; rw [fbind_eq (fillList_none _ items h)]
  | .arrayFill f m => fun h => by
    simp only [grabs, List.append_eq_nil_iff] at h
    simp only [fill]; rw [fbind_eq (fill_none _ f h.1), fbind_eq (fill_none _ m h.2)]
  | .for_ i c s b label => fun h => by
    simp only [grabs, List.append_eq_nil_iff] at h
    simp only [fill]
    rw [fbind_eq (fill_none _ i h.1), fbind_eq (fill_none _ c h.2.1), fbind_eq (fill_none _ s h.2.2.1),
      fbind_eq (fillList_none _ b h.2.2.2)]
  | .forIn k name iter body label => fun h => by
    simp only [grabs, List.append_eq_nil_iff] at h
    simp only [fill]; rw [fbind_eq (fill_none _ iter h.1), fbind_eq (fillList_none _ body h.2)]
  | .swizzle sel e => fun h => by simp only [grabs] at h; simp only [fill]; rw [fbind_eq (fill_none _ e h)]
  | .tryExpr e => fun h => by simp only [grabs] at h; simp only [fill]; rw [fbind_eq (fill_none _ e h)]
  | .in_ f => fun _ => by simp only [fill]
theorem fillList_none (level : Nat) : ∀ es : List Expr, grabsList level es = [] → fillList level es = fpure es
  | [] => fun _ => by simp only [fillList]
  | e :: es => fun h => by
    simp only [grabsList, List.append_eq_nil_iff] at h
    simp only [fillList]; rw [fbind_eq (fill_none _ e h.1), fbind_eq (fillList_none _ es h.2)]
theorem fillKVs_none (level : Nat) : ∀ es : List (String × Expr), grabsKVs level es = [] → fillKVs level es = fpure es
  | [] => fun _ => by simp only [fillKVs]
  | (k, e) :: es => fun h => by
    simp only [grabsKVs, List.append_eq_nil_iff] at h
    simp only [fillKVs]; rw [fbind_eq (fill_none _ e h.1), fbind_eq (fillKVs_none _ es h.2)]
theorem fillConds_none (level : Nat) : ∀ es : List (Expr × List Expr), grabsConds level es = [] →
    fillConds level es = fpure (es.map Prod.fst)
  | [] => fun _ => by simp only [fillConds, List.map_nil]
  | (e, b) :: es => fun h => by
    simp only [grabsConds, List.append_eq_nil_iff] at h
    simp only [fillConds, List.map_cons]; rw [fbind_eq (fill_none _ e h.1), fbind_eq (fillConds_none _ es h.2)]
theorem fillBlocks_none (level : Nat) : ∀ es : List (Expr × List Expr), grabsBlocks level es = [] →
    fillBlocks level es = fpure (es.map Prod.snd)
  | [] => fun _ => by simp only [fillBlocks, List.map_nil]
  | (e, b) :: es => fun h => by
    simp only [grabsBlocks, List.append_eq_nil_iff] at h
    simp only [fillBlocks, List.map_cons]; rw [fbind_eq (fillList_none _ b h.1), fbind_eq (fillBlocks_none _ es h.2)]
theorem fillOptList_none (level : Nat) : ∀ es : Option (List Expr), grabsOptList level es = [] →
    fillOptList level es = fpure es
  | none => fun _ => by simp only [fillOptList]
  | some es => fun h => by
    simp only [grabsOptList] at h; simp only [fillOptList]; rw [fbind_eq (fillList_none _ es h)]
theorem fillOpt_none (level : Nat) : ∀ e : Option Expr, grabsOpt level e = [] → fillOpt level e = fpure e
  | none => fun _ => by simp only [fillOpt]
  | some e => fun h => by simp only [grabsOpt] at h; simp only [fillOpt]; rw [fbind_eq (fill_none _ e h)]
theorem fillItem_none (level : Nat) : ∀ it : Item, grabsItem level it = [] → fillItem level it = fpure it
  | .mk name sid cur t ids tids => fun h => by
    simp only [grabsItem] at h; simp only [fillItem]; rw [fbind_eq (fillIds_none _ ids h)]
theorem fillIds_none (level : Nat) : ∀ ids : List Id, grabsIds level ids = [] → fillIds level ids = fpure ids
  | [] => fun _ => by simp only [fillIds]
  | .str s :: r => fun h => by simp only [grabsIds] at h; simp only [fillIds]; rw [fbind_eq (fillIds_none _ r h)]
  | .num x :: r => fun h => by simp only [grabsIds] at h; simp only [fillIds]; rw [fbind_eq (fillIds_none _ r h)]
  | .expr e :: r => fun h => by
    simp only [grabsIds, List.append_eq_nil_iff] at h
    simp only [fillIds]; rw [fbind_eq (fill_none _ e h.1), fbind_eq (fillIds_none _ r h.2)]
end

end Dyon
