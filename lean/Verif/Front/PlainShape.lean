import Verif.Front.Plain
import Verif.Front.ConvertLemmas

/-!
# What a converted expression looks like
-/

namespace Dyon.Plain

open Front (Src Prod' Opd ItemSrc IdSrc Var Callee FnSrc BodySrc)
open Front.Spec (app)
open Syn (BinOp callName)
open Check.Spec (declared plainItem itemName varNames grabLevel closureName)

variable [FloatOps] [Data.Lex] {file : String} {find : String → FnIndex} {k : Ctx} {C : String → Called}
variable {ar : Int → Nat}

/-- What a callee stands for. -/
def calledOf (k : Ctx) (ar : Int → Nat) : FnIndex → Called
  | .none => .nothing
  | .loaded f => .own (ar f) (k.rets f)
  | .void f => .host (k.voidAr f) false
  | .ret f => .host (k.retAr f) true
  | .lazy f _ => .host (k.retAr f) true
  | .binop _ => .op
  | .unop _ => .op

omit [FloatOps] [Data.Lex] in
theorem valued_call {f : FnIndex} {n args} : Valued k (.call f n args) = (calledOf k ar f).gives := by
  cases f <;> simp [Valued, calledOf, Called.gives]

/-- What the surroundings see of an expression. -/
structure Shape (k : Ctx) (C : String → Called) (s : Src) (e : Expr) : Prop where
  sw : e.isSwizzle = (comps s).isSome
  width : e.width = (comps s).getD 1
  valued : Valued k e = gives C s
  leaves : e.leaves = leaves s

/-- The same for a product or factor. -/
structure ShapeBy (k : Ctx) (co : Option Nat) (gi le : Bool) (e : Expr) : Prop where
  sw : e.isSwizzle = co.isSome
  width : e.width = co.getD 1
  valued : Valued k e = gi
  leaves : e.leaves = le

/-- Unpacks the parts of a converted expression. -/
macro "parts" h:ident : tactic => `(tactic| (
  simp only [Front.Spec.expr, Front.Spec.exprs, Front.Spec.pairs, Front.Spec.worded, Front.Spec.vars, Front.Spec.var,
    Front.Spec.elseIfs, Front.Spec.otherwise, Front.Spec.orElse, Front.Spec.product, Front.Spec.operand, Front.Spec.item,
    Front.Spec.ids, Front.Spec.id', Front.Spec.callee,
    Option.bind_eq_bind, Option.bind_eq_some_iff, Option.some.injEq, Option.pure_def,
    Prod.exists, Prod.mk.injEq] at $h:ident))

theorem addRest_shape {rest : List (BinOp × Prod')} {l e : Expr} (h : Front.Spec.addRest file l rest = some e) :
    (rest = [] ∧ e = l) ∨ ∃ op p args, rest.getLast? = some (op, p) ∧ e = app (callName op) args := by
  induction rest generalizing l with
  | nil => simp only [Front.Spec.addRest, Option.some.injEq] at h; exact .inl ⟨rfl, h.symm⟩
  | cons r rest ih =>
    obtain ⟨op, p⟩ := r
    simp only [Front.Spec.addRest, Option.bind_eq_bind, Option.bind_eq_some_iff] at h
    obtain ⟨x, _, h⟩ := h
    rcases ih h with ⟨rfl, rfl⟩ | ⟨op', p', args, h1, h2⟩
    · exact .inr ⟨op, p, _, rfl, rfl⟩
    · exact .inr ⟨op', p', args, by rw [List.getLast?_cons, h1]; rfl, h2⟩

theorem mulRest_shape {rest : List (BinOp × Opd)} {l e : Expr} (h : Front.Spec.mulRest file l rest = some e) :
    (rest = [] ∧ e = l) ∨ ∃ op p args, rest.getLast? = some (op, p) ∧ e = app (callName op) args := by
  induction rest generalizing l with
  | nil => simp only [Front.Spec.mulRest, Option.some.injEq] at h; exact .inl ⟨rfl, h.symm⟩
  | cons r rest ih =>
    obtain ⟨op, p⟩ := r
    simp only [Front.Spec.mulRest, Option.bind_eq_bind, Option.bind_eq_some_iff] at h
    obtain ⟨x, _, h⟩ := h
    rcases ih h with ⟨rfl, rfl⟩ | ⟨op', p', args, h1, h2⟩
    · exact .inr ⟨op, p, _, rfl, rfl⟩
    · exact .inr ⟨op', p', args, by rw [List.getLast?_cons, h1]; rfl, h2⟩

omit [Data.Lex] in
theorem createForN_shape {kd : ForKind} {label} {vs body} {e : Expr} (h : Syn.createForN kd label vs body = some e) :
    ∃ n start stop b, e = .forN kd n start stop b label := by
  match vs with
  | [] => cases h
  | [(n, start, stop)] =>
    simp only [Syn.createForN, Option.map_eq_some_iff] at h
    obtain ⟨x, _, rfl⟩ := h
    exact ⟨_, _, _, _, rfl⟩
  | (n, start, stop) :: v :: vs =>
    simp only [Syn.createForN, Option.bind_eq_bind, Option.bind_eq_some_iff, Option.pure_def, Option.some.injEq] at h
    obtain ⟨_, _, _, _, rfl⟩ := h
    exact ⟨_, _, _, _, rfl⟩

omit [Data.Lex] in
theorem foldGrab_shape (l : Nat) (e : Expr) : (∃ v, foldGrab l e = .const v) ∨ foldGrab l e = .grab l e := by
  unfold foldGrab
  cases preExpr e with
  | none => exact .inr rfl
  | some v => exact .inl ⟨v, rfl⟩

omit [Data.Lex] in
theorem shape_call (hC : ∀ name, C name = calledOf k ar (find name)) (name : String) (args : List Expr) :
    ShapeBy k none (C name).gives false ((app name args).looked find) :=
  ⟨rfl, rfl, by rw [app, Expr.looked, valued_call (ar := ar), hC], rfl⟩

mutual
theorem shape (hC : ∀ name, C name = calledOf k ar (find name)) :
    ∀ (s : Src) {e}, Front.Spec.expr file s = some e → Shape k C s (e.looked find)
  | .in_ _ _, e, h => by parts h; subst h; exact ⟨rfl, rfl, rfl, rfl⟩
  | .closure _ _ _, e, h => by parts h; obtain ⟨_, _, rfl⟩ := h; exact ⟨rfl, rfl, rfl, rfl⟩
  | .object _, e, h => by parts h; obtain ⟨_, _, rfl⟩ := h; exact ⟨rfl, rfl, rfl, rfl⟩
  | .array _, e, h => by parts h; obtain ⟨_, _, rfl⟩ := h; exact ⟨rfl, rfl, rfl, rfl⟩
  | .arrayFill _ _, e, h => by parts h; obtain ⟨_, _, _, _, rfl⟩ := h; exact ⟨rfl, rfl, rfl, rfl⟩
  | .forIn _ _ _ _ _, e, h => by parts h; obtain ⟨_, _, _, _, rfl⟩ := h; exact ⟨rfl, rfl, rfl, rfl⟩
  | .forN _ _ _ _, e, h => by
    parts h
    obtain ⟨_, _, _, _, h⟩ := h
    obtain ⟨_, _, _, _, rfl⟩ := createForN_shape h
    exact ⟨rfl, rfl, rfl, rfl⟩
  | .for_ _ _ _ _ _, e, h => by parts h; obtain ⟨_, _, _, _, _, _, _, _, rfl⟩ := h; exact ⟨rfl, rfl, rfl, rfl⟩
  | .loop _ _, e, h => by parts h; obtain ⟨_, _, rfl⟩ := h; exact ⟨rfl, rfl, rfl, rfl⟩
  | .ite _ t ei els, e, h => by
    parts h
    obtain ⟨_, _, t', ht, ei', hei, els', hels, rfl⟩ := h
    refine ⟨rfl, rfl, ?_, rfl⟩
    cases els with
    | none => simp only [Front.Spec.otherwise, Option.some.injEq] at hels; subst hels; simp [Expr.looked, lookedOptList, Valued, gives]
    | some b =>
      parts hels
      obtain ⟨b', hb, rfl⟩ := hels
      simp only [Expr.looked, lookedOptList, Valued, gives, (shapes hC t ht).1, (shapes hC b hb).1, shapeElifs hC ei hei]
  | .brk _, e, h => by parts h; subst h; exact ⟨rfl, rfl, rfl, rfl⟩
  | .cont _, e, h => by parts h; subst h; exact ⟨rfl, rfl, rfl, rfl⟩
  | .block es, e, h => by
    parts h
    obtain ⟨es', hes, rfl⟩ := h
    exact ⟨rfl, rfl, by simp only [Expr.looked, Valued, gives, (shapes hC es hes).1], rfl⟩
  | .assign _ _ _, e, h => by parts h; obtain ⟨_, _, _, _, rfl⟩ := h; exact ⟨rfl, rfl, rfl, rfl⟩
  | .compare _ _ _, e, h => by
    parts h
    obtain ⟨_, _, _, _, rfl⟩ := h
    obtain ⟨a, b, c, d⟩ := shape_call hC _ _
    exact ⟨a, b, c, d⟩
  | .ret _, e, h => by parts h; obtain ⟨_, _, rfl⟩ := h; exact ⟨rfl, rfl, rfl, rfl⟩
  | .retVoid, e, h => by parts h; subst h; exact ⟨rfl, rfl, rfl, rfl⟩
  | .add first rest, e, h => by
    parts h
    obtain ⟨p, hp, h⟩ := h
    rcases addRest_shape h with ⟨rfl, rfl⟩ | ⟨op, q, args, h1, rfl⟩
    · obtain ⟨a, b, c, d⟩ := shapeProd hC first hp
      exact ⟨by simpa [comps] using a, by simpa [comps] using b, by simpa [gives] using c, by simpa [Plain.leaves] using d⟩
    · obtain ⟨a, b, c, d⟩ := shape_call (k := k) hC (callName op) args
      cases rest with
      | nil => cases h1
      | cons r rest =>
        refine ⟨by simpa [comps] using a, by simpa [comps] using b, ?_, by simpa [Plain.leaves] using d⟩
        rw [gives, h1]
        exact c
  | .mat4 _ _ _ _, e, h => by parts h; obtain ⟨_, _, _, _, _, _, _, _, rfl⟩ := h; exact ⟨rfl, rfl, rfl, rfl⟩
  | .vec4 _ _ _ _, e, h => by parts h; obtain ⟨_, _, _, _, _, _, _, _, rfl⟩ := h; exact ⟨rfl, rfl, rfl, rfl⟩
  | .link es, e, h => by
    parts h
    obtain ⟨es', hes, rfl⟩ := h
    exact ⟨rfl, rfl, rfl, by simp only [Expr.looked, Expr.leaves, Plain.leaves, (shapes hC es hes).2.1]⟩
  | .grab _ _, e, h => by
    parts h
    obtain ⟨e, _, rfl⟩ := h
    rcases foldGrab_shape _ e with ⟨v, h⟩ | h <;> rw [h] <;> exact ⟨rfl, rfl, rfl, rfl⟩
  | .tryExpr e, _, h => by
    parts h
    obtain ⟨_, he, rfl⟩ := h
    exact ⟨rfl, rfl, rfl, by simp only [Expr.looked, Expr.leaves, Plain.leaves, (shape hC e he).leaves]⟩
  | .paren e, _, h => by
    parts h
    obtain ⟨a, b, c, d⟩ := shape hC e h
    exact ⟨a, b, c, d⟩
  | .not _, e, h => by
    parts h
    obtain ⟨_, _, rfl⟩ := h
    obtain ⟨a, b, c, d⟩ := shape_call hC _ _
    exact ⟨a, b, c, d⟩
  | .norm _, e, h => by
    parts h
    obtain ⟨_, _, rfl⟩ := h
    obtain ⟨a, b, c, d⟩ := shape_call hC _ _
    exact ⟨a, b, c, d⟩
  | .text _, e, h => by parts h; subst h; exact ⟨rfl, rfl, rfl, rfl⟩
  | .num _, e, h => by parts h; subst h; exact ⟨rfl, rfl, rfl, rfl⟩
  | .bool _, e, h => by parts h; subst h; exact ⟨rfl, rfl, rfl, rfl⟩
  | .color _, e, h => by
    parts h
    obtain ⟨_, _, _, _, _, rfl⟩ := h
    exact ⟨rfl, rfl, rfl, rfl⟩
  | .go _, e, h => by
    parts h
    obtain ⟨_, _, _, rfl⟩ := h
    exact ⟨rfl, rfl, rfl, rfl⟩
  | .call c, e, h => by
    parts h
    obtain ⟨name, args, hc, rfl⟩ := h
    obtain ⟨a, b, c', d⟩ := shape_call (k := k) hC name args
    have : name = calleeName c := by
      cases c <;> parts hc
      · obtain ⟨_, _, rfl, _⟩ := hc; rfl
      · obtain ⟨_, _, rfl, _⟩ := hc; rfl
    subst this
    exact ⟨a, b, c', d⟩
  | .callClosure _ _, e, h => by parts h; obtain ⟨_, _, _, _, rfl⟩ := h; exact ⟨rfl, rfl, rfl, rfl⟩
  | .namedCallClosure _ _, e, h => by parts h; obtain ⟨_, _, _, _, rfl⟩ := h; exact ⟨rfl, rfl, rfl, rfl⟩
  | .item _, e, h => by parts h; obtain ⟨_, _, rfl⟩ := h; exact ⟨rfl, rfl, rfl, rfl⟩
  | .unloop _ _ _, e, h => by parts h; obtain ⟨_, _, rfl⟩ := h; exact ⟨rfl, rfl, rfl, rfl⟩
  | .try_ _, e, h => by parts h; obtain ⟨_, _, rfl⟩ := h; exact ⟨rfl, rfl, rfl, rfl⟩
  | .mutItem _, e, h => by parts h; obtain ⟨_, _, rfl⟩ := h; exact ⟨rfl, rfl, rfl, rfl⟩
  | .swizzle _ _ c d _, e, h => by
    parts h
    obtain ⟨_, _, rfl⟩ := h
    refine ⟨rfl, ?_, rfl, rfl⟩
    cases c <;> cases d <;> rfl
theorem shapes (hC : ∀ name, C name = calledOf k ar (find name)) :
    ∀ (ss : List Src) {es}, Front.Spec.exprs file ss = some es →
      ValuedLast k (lookedList find es) = givesLast C ss ∧ Dyon.leavesAny (lookedList find es) = leavesAny ss ∧
      (lookedList find es).map Expr.width = ss.map width ∧
      vecArgsOk k (lookedList find es) = ss.all fun s => gives C s || (comps s).isSome
  | [], es, h => by parts h; subst h; exact ⟨rfl, rfl, rfl, rfl⟩
  | s :: ss, _, h => by
    parts h
    obtain ⟨e, he, es, hes, rfl⟩ := h
    obtain ⟨a, b, c, d⟩ := shape hC s he
    obtain ⟨a', b', c', d'⟩ := shapes hC ss hes
    refine ⟨?_, by simp [lookedList, Dyon.leavesAny, leavesAny, d, b'], by simp [lookedList, b, c', width],
      by simp [lookedList, vecArgsOk, c, a, d']⟩
    cases ss with
    | nil => simp only [Front.Spec.exprs, Option.some.injEq] at hes; subst hes; simp [lookedList, ValuedLast, givesLast, c]
    | cons s2 ss =>
      parts hes
      obtain ⟨e2, he2, es2, hes2, rfl⟩ := hes
      simp only [lookedList, ValuedLast, givesLast, List.isEmpty_cons, Bool.false_eq_true, if_false] at a' ⊢
      exact a'
theorem shapeElifs (hC : ∀ name, C name = calledOf k ar (find name)) :
    ∀ (ss : List (Src × List Src)) {es}, Front.Spec.elseIfs file ss = some es →
      ValuedBlocks k (lookedElifs find es) = givesElifs C ss
  | [], es, h => by parts h; subst h; rfl
  | (c, b) :: ss, _, h => by
    parts h
    obtain ⟨c', hc, b', hb, r, hr, rfl⟩ := h
    simp only [lookedElifs, ValuedBlocks, givesElifs, (shapes hC b hb).1, shapeElifs hC ss hr]
theorem shapeProd (hC : ∀ name, C name = calledOf k ar (find name)) :
    ∀ (p : Prod') {e}, Front.Spec.product file p = some e →
      ShapeBy k (compsProd p) (givesProd C p) (leavesProd p) (e.looked find)
  | .mk first rest, e, h => by
    parts h
    obtain ⟨p, hp, h⟩ := h
    rcases mulRest_shape h with ⟨rfl, rfl⟩ | ⟨op, q, args, h1, rfl⟩
    · obtain ⟨a, b, c, d⟩ := shapeOpd hC first hp
      exact ⟨by simpa [compsProd] using a, by simpa [compsProd] using b, by simpa [givesProd] using c, by simpa [leavesProd] using d⟩
    · obtain ⟨a, b, c, d⟩ := shape_call (k := k) hC (callName op) args
      cases rest with
      | nil => cases h1
      | cons r rest =>
        refine ⟨by simpa [compsProd] using a, by simpa [compsProd] using b, ?_, by simpa [leavesProd] using d⟩
        rw [givesProd, h1]
        exact c
theorem shapeOpd (hC : ∀ name, C name = calledOf k ar (find name)) :
    ∀ (o : Opd) {e}, Front.Spec.operand file o = some e →
      ShapeBy k (compsOpd o) (givesOpd C o) (leavesOpd o) (e.looked find)
  | .neg _, e, h => by parts h; obtain ⟨_, _, rfl⟩ := h; exact shape_call hC _ _
  | .pow _ _, e, h => by parts h; obtain ⟨_, _, _, _, rfl⟩ := h; exact shape_call hC _ _
  | .plain e, _, h => by
    parts h
    obtain ⟨a, b, c, d⟩ := shape hC e h
    exact ⟨a, b, c, d⟩
end

end Dyon.Plain
