import Verif.Front.PlainShape

/-!
# Numbers for the variable of `vec4 i e`
-/

namespace Dyon.Plain

open Front (Src Prod' Opd ItemSrc IdSrc Var Callee FnSrc BodySrc)
open Front.Spec (app)
open Syn (BinOp callName number numberList numberIds)

variable [FloatOps] [Data.Lex] {file : String} {find : String → FnIndex} {k : Ctx}
variable {ar : Int → Nat}

mutual
/-- The converted expression has no statements. -/
def flatE : Expr → Bool
  | .const _ => true
  | .item it => flatI it
  | .call _ _ args => flatEs args
  | .array es => flatEs es
  | .swizzle _ e | .try_ e => flatE e
  | _ => false
/-- Lists. -/
def flatEs : List Expr → Bool
  | [] => true
  | e :: es => flatE e && flatEs es
/-- Items. -/
def flatI : Item → Bool
  | .mk _ _ _ _ ids _ => flatIs ids
/-- Properties. -/
def flatIs : List Id → Bool
  | [] => true
  | .expr e :: r => flatE e && flatIs r
  | _ :: r => flatIs r
end

theorem addRest_flat {rest : List (BinOp × Prod')} {l e : Expr} (h : Front.Spec.addRest file l rest = some e)
    (hl : flatE l = true) (hr : ∀ r ∈ rest, ∀ p, Front.Spec.product file r.2 = some p → flatE p = true) :
    flatE e = true := by
  induction rest generalizing l with
  | nil => simp only [Front.Spec.addRest, Option.some.injEq] at h; subst h; exact hl
  | cons r rest ih =>
    simp only [Front.Spec.addRest, Option.bind_eq_bind, Option.bind_eq_some_iff] at h
    obtain ⟨x, hx, h⟩ := h
    exact ih h (by simp [app, flatE, flatEs, hl, hr r (by simp) x hx]) fun r' h' => hr r' (by simp [h'])

theorem mulRest_flat {rest : List (BinOp × Opd)} {l e : Expr} (h : Front.Spec.mulRest file l rest = some e)
    (hl : flatE l = true) (hr : ∀ r ∈ rest, ∀ p, Front.Spec.operand file r.2 = some p → flatE p = true) :
    flatE e = true := by
  induction rest generalizing l with
  | nil => simp only [Front.Spec.mulRest, Option.some.injEq] at h; subst h; exact hl
  | cons r rest ih =>
    simp only [Front.Spec.mulRest, Option.bind_eq_bind, Option.bind_eq_some_iff] at h
    obtain ⟨x, hx, h⟩ := h
    exact ih h (by simp [app, flatE, flatEs, hl, hr r (by simp) x hx]) fun r' h' => hr r' (by simp [h'])

mutual
theorem flat_conv : ∀ (s : Src) {e}, Front.Spec.expr file s = some e → flat s = true → flatE e = true
  | .text _, e, h, _ => by parts h; subst h; rfl
  | .num _, e, h, _ => by parts h; subst h; rfl
  | .bool _, e, h, _ => by parts h; subst h; rfl
  | .color _, e, h, _ => by parts h; obtain ⟨_, _, _, _, _, rfl⟩ := h; rfl
  | .array items, e, h, hf => by
    parts h
    obtain ⟨es, hes, rfl⟩ := h
    exact flats_conv items hes hf
  | .compare l op r, e, h, hf => by
    parts h
    obtain ⟨l', hl, r', hr, rfl⟩ := h
    simp only [flat, Bool.and_eq_true] at hf
    simp [app, flatE, flatEs, flat_conv l hl hf.1, flat_conv r hr hf.2]
  | .add first rest, e, h, hf => by
    parts h
    obtain ⟨p, hp, h⟩ := h
    simp only [flat, Bool.and_eq_true] at hf
    exact addRest_flat h (flatProd_conv first hp hf.1) (flatAdd_conv rest hf.2)
  | .paren e, _, h, hf => by parts h; exact flat_conv e h hf
  | .not e, _, h, hf => by
    parts h
    obtain ⟨e', he, rfl⟩ := h
    simp [app, flatE, flatEs, flat_conv e he hf]
  | .norm e, _, h, hf => by
    parts h
    obtain ⟨e', he, rfl⟩ := h
    simp [app, flatE, flatEs, flat_conv e he hf]
  | .try_ e, _, h, hf => by
    parts h
    obtain ⟨e', he, rfl⟩ := h
    have := flat_conv e he hf
    exact this
  | .swizzle _ _ _ _ e, _, h, hf => by
    parts h
    obtain ⟨e', he, rfl⟩ := h
    have := flat_conv e he hf
    exact this
  | .call c, _, h, hf => by
    parts h
    obtain ⟨name, args, hc, rfl⟩ := h
    have := flatCallee_conv c hc hf
    exact this
  | .item it, _, h, hf => by
    parts h
    obtain ⟨it', hit, rfl⟩ := h
    have := flatItem_conv it hit hf
    exact this
  | .mutItem it, _, h, hf => by
    parts h
    obtain ⟨it', hit, rfl⟩ := h
    have := flatItem_conv it hit hf
    exact this
  | .in_ _ _, _, _, hf | .closure _ _ _, _, _, hf | .object _, _, _, hf
  | .arrayFill _ _, _, _, hf | .forIn _ _ _ _ _, _, _, hf | .forN _ _ _ _, _, _, hf
  | .for_ _ _ _ _ _, _, _, hf | .loop _ _, _, _, hf | .ite _ _ _ _, _, _, hf | .brk _, _, _, hf
  | .cont _, _, _, hf | .block _, _, _, hf | .assign _ _ _, _, _, hf
  | .ret _, _, _, hf | .retVoid, _, _, hf | .mat4 _ _ _ _, _, _, hf
  | .vec4 _ _ _ _, _, _, hf | .link _, _, _, hf | .grab _ _, _, _, hf | .tryExpr _, _, _, hf
  | .go _, _, _, hf | .callClosure _ _, _, _, hf
  | .namedCallClosure _ _, _, _, hf | .unloop _ _ _, _, _, hf => by cases hf
theorem flats_conv : ∀ (ss : List Src) {es}, Front.Spec.exprs file ss = some es → flats ss = true → flatEs es = true
  | [], es, h, _ => by parts h; subst h; rfl
  | s :: ss, _, h, hf => by
    parts h
    obtain ⟨e, he, es, hes, rfl⟩ := h
    simp only [flats, Bool.and_eq_true] at hf
    simp [flatEs, flat_conv s he hf.1, flats_conv ss hes hf.2]
theorem flatWords_conv : ∀ (ss : List (String × Src)) {es}, Front.Spec.worded file ss = some es → flatWords ss = true →
    flatEs es = true
  | [], es, h, _ => by parts h; subst h; rfl
  | (_, s) :: ss, _, h, hf => by
    parts h
    obtain ⟨e, he, es, hes, rfl⟩ := h
    simp only [flatWords, Bool.and_eq_true] at hf
    simp [flatEs, flat_conv s he hf.1, flatWords_conv ss hes hf.2]
theorem flatAdd_conv : ∀ (rest : List (BinOp × Prod')), flatAdd rest = true →
    ∀ r ∈ rest, ∀ p, Front.Spec.product file r.2 = some p → flatE p = true
  | [], _, r, hr, _, _ => by simp at hr
  | (op, q) :: rest, hf, r, hr, p, hp => by
    simp only [flatAdd, Bool.and_eq_true] at hf
    rcases List.mem_cons.1 hr with rfl | hr
    · exact flatProd_conv q hp hf.1
    · exact flatAdd_conv rest hf.2 r hr p hp
theorem flatProd_conv : ∀ (p : Prod') {e}, Front.Spec.product file p = some e → flatProd p = true → flatE e = true
  | .mk first rest, e, h, hf => by
    parts h
    obtain ⟨p, hp, h⟩ := h
    simp only [flatProd, Bool.and_eq_true] at hf
    exact mulRest_flat h (flatOpd_conv first hp hf.1) (flatMul_conv rest hf.2)
theorem flatMul_conv : ∀ (rest : List (BinOp × Opd)), flatMul rest = true →
    ∀ r ∈ rest, ∀ p, Front.Spec.operand file r.2 = some p → flatE p = true
  | [], _, r, hr, _, _ => by simp at hr
  | (op, q) :: rest, hf, r, hr, p, hp => by
    simp only [flatMul, Bool.and_eq_true] at hf
    rcases List.mem_cons.1 hr with rfl | hr
    · exact flatOpd_conv q hp hf.1
    · exact flatMul_conv rest hf.2 r hr p hp
theorem flatOpd_conv : ∀ (o : Opd) {e}, Front.Spec.operand file o = some e → flatOpd o = true → flatE e = true
  | .neg p, _, h, hf => by
    parts h
    obtain ⟨e', he, rfl⟩ := h
    simp [app, flatE, flatEs, flatProd_conv p he hf]
  | .pow l r, _, h, hf => by
    parts h
    obtain ⟨l', hl, r', hr, rfl⟩ := h
    simp only [flatOpd, Bool.and_eq_true] at hf
    simp [app, flatE, flatEs, flat_conv l hl hf.1, flat_conv r hr hf.2]
  | .plain e, _, h, hf => by parts h; exact flat_conv e h hf
theorem flatItem_conv : ∀ (it : ItemSrc) {it'}, Front.Spec.item file it = some it' → flatItem it = true → flatI it' = true
  | .mk _ _ _ ids, _, h, hf => by
    parts h
    obtain ⟨ids', hids, rfl⟩ := h
    exact flatIds_conv ids hids hf
theorem flatIds_conv : ∀ (ids : List IdSrc) {ids'}, Front.Spec.ids file ids = some ids' → flatIds ids = true →
    flatIs ids' = true
  | [], _, h, _ => by parts h; subst h; rfl
  | .str _ _ :: r, _, h, hf => by
    parts h
    obtain ⟨i, rfl, r', hr, rfl⟩ := h
    have := flatIds_conv r hr hf
    exact this
  | .num _ _ :: r, _, h, hf => by
    parts h
    obtain ⟨i, rfl, r', hr, rfl⟩ := h
    have := flatIds_conv r hr hf
    exact this
  | .expr e _ :: r, _, h, hf => by
    parts h
    obtain ⟨i, ⟨e', he, rfl⟩, r', hr, rfl⟩ := h
    simp only [flatIds, Bool.and_eq_true] at hf
    simp [flatIs, flat_conv e he hf.1, flatIds_conv r hr hf.2]
theorem flatCallee_conv : ∀ (c : Callee) {name args}, Front.Spec.callee file c = some (name, args) →
    flatCallee c = true → flatEs args = true
  | .plain _ _ args, _, _, h, hf => by
    parts h
    obtain ⟨es, hes, rfl, rfl⟩ := h
    exact flats_conv args hes hf
  | .named _ _ args, _, _, h, hf => by
    parts h
    obtain ⟨es, hes, rfl, rfl⟩ := h
    exact flatWords_conv args hes hf
end

/-! ## Scopes -/

/-- The names of one scope but `n` are in the other. -/
def But (n : String) (E' E : Env) : Prop := ∀ x, x ≠ n → some x ∈ E' → some x ∈ E

omit [FloatOps] [Data.Lex] in
theorem But.app {n : String} {E' E : Env} (h : But n E' E) (z : Env) : But n (E' ++ z) (E ++ z) := by
  intro x hx hm
  rcases List.mem_append.1 hm with hm | hm
  · exact List.mem_append_left _ (h x hx hm)
  · exact List.mem_append_right _ hm

omit [FloatOps] [Data.Lex] in
theorem number_shape (n : String) (v : F64) : ∀ {e : Expr}, flatE e = true →
    ((number n v e).looked find).width = (e.looked find).width ∧
    ((number n v e).looked find).isSwizzle = (e.looked find).isSwizzle ∧
    Valued k ((number n v e).looked find) = Valued k (e.looked find)
  | .const _, _ => ⟨rfl, rfl, rfl⟩
  | .item (.mk m _ _ _ ids _), _ => by
    unfold number
    split <;> exact ⟨rfl, rfl, rfl⟩
  | .call f m args, _ => by
    refine ⟨rfl, rfl, ?_⟩
    simp only [number, Expr.looked]
    cases find m <;> simp [Valued]
  | .array _, _ => ⟨rfl, rfl, rfl⟩
  | .swizzle _ _, _ => ⟨rfl, rfl, rfl⟩
  | .try_ _, _ => ⟨rfl, rfl, rfl⟩

omit [FloatOps] [Data.Lex] in
theorem number_args (n : String) (v : F64) : ∀ {es : List Expr}, flatEs es = true →
    argLen (lookedList find (numberList n v es)) = argLen (lookedList find es) ∧
    vecArgsOk k (lookedList find (numberList n v es)) = vecArgsOk k (lookedList find es) ∧
    (numberList n v es).length = es.length
  | [], _ => ⟨rfl, rfl, rfl⟩
  | e :: es, h => by
    simp only [flatEs, Bool.and_eq_true] at h
    obtain ⟨a, b, c⟩ := number_shape (find := find) (k := k) n v h.1
    obtain ⟨a', b', c'⟩ := number_args n v h.2
    simp only [argLen] at a' ⊢
    simp [numberList, lookedList, vecArgsOk, a, a', b, b', c, c']

omit [FloatOps] [Data.Lex] in
theorem lookedList_length (es : List Expr) : (lookedList find es).length = es.length := by
  induction es with
  | nil => rfl
  | cons e es ih => simp [lookedList, ih]

mutual
theorem number_scoped (n : String) (v : F64) : ∀ (e : Expr) {E' E : Env} {os}, flatE e = true →
    (e.looked find).Scoped k ar E' os → But n E' E → ((number n v e).looked find).Scoped k ar E os
  | .const _, _, _, _, _, _, _ => trivial
  | .item (.mk m _ _ _ ids _), E', E, os, hf, hs, hb => by
    unfold number
    split
    · trivial
    · exact ⟨hb _ (by assumption) hs.1, numberIds_scoped n v ids hf hs.2 hb⟩
  | .call f m args, E', E, os, hf, hs, hb => by
    simp only [number, Expr.looked] at hs ⊢
    obtain ⟨h1, h2⟩ := hs
    obtain ⟨a, b, c⟩ := number_args (find := find) (k := k) n v (es := args) hf
    refine ⟨?_, ?_⟩
    · cases hx : find m <;> rw [hx] at h1 <;> dsimp only at h1 ⊢ <;>
        first
        | exact numberAll_scoped n v args hf h1 hb
        | exact numberArgs_scoped n v args hf h1 (hb.app _)
    · cases hx : find m <;> rw [hx] at h2 <;> dsimp only at h2 ⊢
      rw [a, b]
      exact h2
  | .array es, _, _, _, hf, hs, hb => numberAll_scoped n v es hf hs hb
  | .swizzle _ e, _, _, _, hf, hs, hb => by
    have := number_scoped n v e hf hs hb
    exact this
  | .try_ e, _, _, _, hf, hs, hb => by
    have := number_scoped n v e hf hs hb
    exact this
  | .link _, _, _, _, hf, _, _ | .object _, _, _, _, hf, _, _ | .arrayFill _ _, _, _, _, hf, _, _
  | .ret _, _, _, _, hf, _, _ | .retVoid, _, _, _, hf, _, _ | .brk _, _, _, _, hf, _, _
  | .cont _, _, _, _, hf, _, _ | .block _, _, _, _, hf, _, _ | .go _ _, _, _, _, hf, _, _
  | .assign _ _ _, _, _, _, hf, _, _ | .vec4 _, _, _, _, hf, _, _ | .mat4 _, _, _, _, hf, _, _
  | .for_ _ _ _ _ _, _, _, _, hf, _, _ | .forN _ _ _ _ _ _, _, _, _, hf, _, _
  | .forIn _ _ _ _ _, _, _, _, hf, _, _ | .ite _ _ _ _, _, _, _, hf, _, _
  | .closure _ _ _ _ _, _, _, _, hf, _, _ | .callClosure _ _, _, _, _, hf, _, _
  | .grab _ _, _, _, _, hf, _, _ | .tryExpr _, _, _, _, hf, _, _ | .in_ _, _, _, _, hf, _, _ => by cases hf
theorem numberAll_scoped (n : String) (v : F64) : ∀ (es : List Expr) {E' E : Env} {os}, flatEs es = true →
    SAll k ar (lookedList find es) E' os → But n E' E → SAll k ar (lookedList find (numberList n v es)) E os
  | [], _, _, _, _, _, _ => trivial
  | e :: es, _, _, _, hf, hs, hb => by
    simp only [flatEs, Bool.and_eq_true] at hf
    exact ⟨number_scoped n v e hf.1 hs.1 hb, numberAll_scoped n v es hf.2 hs.2 hb⟩
theorem numberArgs_scoped (n : String) (v : F64) : ∀ (es : List Expr) {E' E : Env} {os}, flatEs es = true →
    SArgs k ar (lookedList find es) E' os → But n E' E → SArgs k ar (lookedList find (numberList n v es)) E os
  | [], _, _, _, _, _, _ => trivial
  | e :: es, _, _, _, hf, hs, hb => by
    simp only [flatEs, Bool.and_eq_true] at hf
    refine ⟨number_scoped n v e hf.1 hs.1 hb, ?_⟩
    rw [(number_shape (find := find) (k := k) n v hf.1).1]
    exact numberArgs_scoped n v es hf.2 hs.2 (hb.app _)
theorem numberIds_scoped (n : String) (v : F64) : ∀ (ids : List Id) {E' E : Env} {os}, flatIs ids = true →
    SIds k ar (lookedIds find ids) E' os → But n E' E → SIds k ar (lookedIds find (numberIds n v ids)) E os
  | [], _, _, _, _, _, _ => trivial
  | .expr e :: r, _, _, _, hf, hs, hb => by
    simp only [flatIs, Bool.and_eq_true] at hf
    exact ⟨number_scoped n v e hf.1 hs.1 hb, numberIds_scoped n v r hf.2 hs.2 (hb.app _)⟩
  | .str _ :: r, _, _, _, hf, hs, hb => by
    have := numberIds_scoped n v r hf hs hb
    exact this
  | .num _ :: r, _, _, _, hf, hs, hb => by
    have := numberIds_scoped n v r hf hs hb
    exact this
end

mutual
theorem number_wf (n : String) (v : F64) : ∀ (e : Expr), flatE e = true →
    (e.looked find).WF k → ((number n v e).looked find).WF k
  | .const _, _, _ => trivial
  | .item (.mk m _ _ _ ids _), hf, hs => by
    unfold number
    split
    · trivial
    · exact numberIds_wf n v ids hf hs
  | .call f m args, hf, hs => by
    simp only [number, Expr.looked, Expr.WF] at hs ⊢
    obtain ⟨h1, h2⟩ := hs
    obtain ⟨a, b, c⟩ := number_args (find := find) (k := k) n v (es := args) hf
    refine ⟨numberList_wf n v args hf h1, ?_⟩
    cases hx : find m <;> rw [hx] at h2 <;> dsimp only at h2 ⊢ <;>
      simp only [lookedList_length, c] at h2 ⊢ <;> exact h2
  | .array es, hf, hs => by
    have := numberList_wf n v es hf hs
    exact this
  | .swizzle _ e, hf, hs => by
    have := number_wf n v e hf hs
    exact this
  | .try_ e, hf, hs => by
    have := number_wf n v e hf hs
    exact this
  | .link _, hf, _ | .object _, hf, _ | .arrayFill _ _, hf, _
  | .ret _, hf, _ | .retVoid, hf, _ | .brk _, hf, _
  | .cont _, hf, _ | .block _, hf, _ | .go _ _, hf, _
  | .assign _ _ _, hf, _ | .vec4 _, hf, _ | .mat4 _, hf, _
  | .for_ _ _ _ _ _, hf, _ | .forN _ _ _ _ _ _, hf, _
  | .forIn _ _ _ _ _, hf, _ | .ite _ _ _ _, hf, _
  | .closure _ _ _ _ _, hf, _ | .callClosure _ _, hf, _
  | .grab _ _, hf, _ | .tryExpr _, hf, _ | .in_ _, hf, _ => by cases hf
theorem numberList_wf (n : String) (v : F64) : ∀ (es : List Expr), flatEs es = true →
    WFs k (lookedList find es) → WFs k (lookedList find (numberList n v es))
  | [], _, _ => trivial
  | e :: es, hf, hs => by
    simp only [flatEs, Bool.and_eq_true] at hf
    exact ⟨number_wf n v e hf.1 hs.1, numberList_wf n v es hf.2 hs.2⟩
theorem numberIds_wf (n : String) (v : F64) : ∀ (ids : List Id), flatIs ids = true →
    WFids k (lookedIds find ids) → WFids k (lookedIds find (numberIds n v ids))
  | [], _, _ => trivial
  | .expr e :: r, hf, hs => by
    simp only [flatIs, Bool.and_eq_true] at hf
    exact ⟨number_wf n v e hf.1 hs.1, numberIds_wf n v r hf.2 hs.2⟩
  | .str _ :: r, hf, hs => by
    have := numberIds_wf n v r hf hs
    exact this
  | .num _ :: r, hf, hs => by
    have := numberIds_wf n v r hf hs
    exact this
end

end Dyon.Plain
