import Verif.Front.PlainShape

/-!
# What the statements of plain programs declare
-/

namespace Dyon.Plain

open Front (Src Prod' Opd ItemSrc IdSrc Var Callee FnSrc BodySrc)
open Front.Spec (app)
open Syn (BinOp callName)
open Check.Spec (declared plainItem itemName varNames grabLevel closureName leftName isVar)

variable [FloatOps] [Data.Lex] {file : String} {find : String → FnIndex} {k : Ctx} {C : String → Called}
variable {ar : Int → Nat} {B : List String} {Bt : List (List String)}

theorem place_conv : ∀ (l : Src) {it e}, place l = some it → Front.Spec.expr file l = some e →
    ∃ it', Front.Spec.item file it = some it' ∧ e = .item it'
  | .item _, it, e, hp, h => by
    parts h
    cases hp
    obtain ⟨it', h, rfl⟩ := h
    exact ⟨it', h, rfl⟩
  | .mutItem _, it, e, hp, h => by
    parts h
    cases hp
    obtain ⟨it', h, rfl⟩ := h
    exact ⟨it', h, rfl⟩
  | .paren l, it, e, hp, h => by
    parts h
    exact place_conv l hp h
  | .in_ _ _, _, _, hp, _ | .closure _ _ _, _, _, hp, _ | .object _, _, _, hp, _ | .array _, _, _, hp, _
  | .arrayFill _ _, _, _, hp, _ | .forIn _ _ _ _ _, _, _, hp, _ | .forN _ _ _ _, _, _, hp, _
  | .for_ _ _ _ _ _, _, _, hp, _ | .loop _ _, _, _, hp, _ | .ite _ _ _ _, _, _, hp, _ | .brk _, _, _, hp, _
  | .cont _, _, _, hp, _ | .block _, _, _, hp, _ | .assign _ _ _, _, _, hp, _ | .compare _ _ _, _, _, hp, _
  | .ret _, _, _, hp, _ | .retVoid, _, _, hp, _ | .add _ _, _, _, hp, _ | .mat4 _ _ _ _, _, _, hp, _
  | .vec4 _ _ _ _, _, _, hp, _ | .link _, _, _, hp, _ | .grab _ _, _, _, hp, _ | .tryExpr _, _, _, hp, _
  | .not _, _, _, hp, _ | .norm _, _, _, hp, _ | .text _, _, _, hp, _ | .num _, _, _, hp, _ | .bool _, _, _, hp, _
  | .color _, _, _, hp, _ | .go _, _, _, hp, _ | .call _, _, _, hp, _ | .callClosure _ _, _, _, hp, _
  | .namedCallClosure _ _, _, _, hp, _ | .unloop _ _ _, _, _, hp, _ | .try_ _, _, _, hp, _
  | .swizzle _ _ _ _ _, _, _, hp, _ => by cases hp

omit [FloatOps] [Data.Lex] in
theorem place_left : ∀ {l : Src}, (place l).isSome → leftName l = newVar l
  | .item it, _ | .mutItem it, _ => rfl
  | .paren l, h => place_left (l := l) h

omit [FloatOps] [Data.Lex] in
theorem place_isVar : ∀ {l : Src}, (place l).isSome → isVar l = (newVar l).isSome
  | .item it, _ | .mutItem it, _ => rfl
  | .paren l, h => place_isVar (l := l) h

theorem declName_item {op : AssignOp} {it : ItemSrc} {it' : Item} (h : Front.Spec.item file it = some it') :
    declName op (.item (lookedItem find it')) = if op = .assign then plainItem it else none := by
  obtain ⟨cur, n, t, ids⟩ := it
  parts h
  obtain ⟨ids', h1, rfl⟩ := h
  cases op <;> try rfl
  cases ids with
  | nil => parts h1; subst h1; rfl
  | cons i r =>
    parts h1
    obtain ⟨i', h1, r', h2, rfl⟩ := h1
    cases i' <;> rfl

theorem declName_left {op : AssignOp} {l : Src} {l' : Expr} (hl : op = .assign → (place l).isSome)
    (h : Front.Spec.expr file l = some l') :
    declName op (l'.looked find) = if op = .assign then newVar l else none := by
  by_cases ho : op = .assign
  · obtain ⟨it, hit⟩ := Option.isSome_iff_exists.1 (hl ho)
    obtain ⟨it', h1, rfl⟩ := place_conv l hit h
    rw [Expr.looked, declName_item h1, newVar, hit]
    rfl
  · rw [if_neg ho]
    cases op <;> first | exact absurd rfl ho | rfl

/-- What an assignment declares. -/
theorem declares_assign {op : AssignOp} {l : Src} {l' : Expr} (hl : op = .assign → (place l).isSome)
    (h : Front.Spec.expr file l = some l') (r : Src) :
    declName op (l'.looked find) = declared (.assign l op r) := by
  rw [declName_left hl h]
  cases op <;> simp only [declared, reduceCtorEq, if_false, if_true]
  exact (place_left (hl rfl)).symm

theorem opens_conv {e : Expr} {name : String} {args : List Expr} (h : e = app name args) : (e.looked find).adds = [] := by
  subst h
  rfl

mutual
/-- An expression that is no declaration and no closure leaves nothing. -/
theorem adds_of_opens : ∀ (s : Src) {B Bt e}, Front.Spec.expr file s = some e → plain C B Bt s → opens s = false →
    (e.looked find).adds = []
  | .in_ _ _, _, _, e, h, hp, ho => by parts h; subst h; rfl
  | .closure _ _ _, _, _, e, h, hp, ho => by cases ho
  | .object _, _, _, e, h, hp, ho => by parts h; obtain ⟨_, _, rfl⟩ := h; rfl
  | .array _, _, _, e, h, hp, ho => by parts h; obtain ⟨_, _, rfl⟩ := h; rfl
  | .arrayFill _ _, _, _, e, h, hp, ho => by parts h; obtain ⟨_, _, _, _, rfl⟩ := h; rfl
  | .forIn _ _ _ _ _, _, _, e, h, hp, ho => by parts h; obtain ⟨_, _, _, _, rfl⟩ := h; rfl
  | .forN _ _ _ _, _, _, e, h, hp, ho => by
    parts h
    obtain ⟨_, _, _, _, h⟩ := h
    obtain ⟨_, _, _, _, rfl⟩ := createForN_shape h
    rfl
  | .for_ _ _ _ _ _, _, _, e, h, hp, ho => by parts h; obtain ⟨_, _, _, _, _, _, _, _, rfl⟩ := h; rfl
  | .loop _ _, _, _, e, h, hp, ho => by parts h; obtain ⟨_, _, rfl⟩ := h; rfl
  | .ite _ t ei els, _, _, e, h, hp, ho => by parts h; obtain ⟨_, _, _, _, _, _, _, _, rfl⟩ := h; rfl
  | .brk _, _, _, e, h, hp, ho => by parts h; subst h; rfl
  | .cont _, _, _, e, h, hp, ho => by parts h; subst h; rfl
  | .block es, _, _, e, h, hp, ho => by parts h; obtain ⟨_, _, rfl⟩ := h; rfl
  | .assign l op r, _, _, e, h, hp, ho => by
    parts h
    obtain ⟨l', hl, r', hr, rfl⟩ := h
    simp only [plain] at hp
    rw [Expr.looked, Expr.adds, declName_left hp.2.1 hl]
    by_cases hop : op = .assign
    · simp only [opens, hop, decide_true, Bool.true_and, Option.isSome_eq_false_iff] at ho
      rw [if_pos hop, Option.isNone_iff_eq_none.1 ho]
    · rw [if_neg hop]
  | .compare _ _ _, _, _, e, h, hp, ho => by parts h; obtain ⟨_, _, _, _, rfl⟩ := h; rfl
  | .ret _, _, _, e, h, hp, ho => by parts h; obtain ⟨_, _, rfl⟩ := h; rfl
  | .retVoid, _, _, e, h, hp, ho => by parts h; subst h; rfl
  | .add first rest, _, _, e, h, hp, ho => by
    parts h
    obtain ⟨p, hp', h⟩ := h
    rcases addRest_shape h with ⟨rfl, rfl⟩ | ⟨op, q, args, h1, rfl⟩
    · exact adds_prod first hp' (by simpa only [plain] using hp.1) (by simpa [opens] using ho)
    · rfl
  | .mat4 _ _ _ _, _, _, e, h, hp, ho => by parts h; obtain ⟨_, _, _, _, _, _, _, _, rfl⟩ := h; rfl
  | .vec4 _ _ _ _, _, _, e, h, hp, ho => by parts h; obtain ⟨_, _, _, _, _, _, _, _, rfl⟩ := h; rfl
  | .link es, _, _, e, h, hp, ho => by parts h; obtain ⟨_, _, rfl⟩ := h; rfl
  | .grab _ _, _, _, e, h, hp, ho => by
    parts h
    obtain ⟨e, _, rfl⟩ := h
    rcases foldGrab_shape _ e with ⟨v, h⟩ | h <;> rw [h] <;> rfl
  | .tryExpr e, _, _, _, h, hp, ho => by
    parts h
    obtain ⟨_, he, rfl⟩ := h
    have := adds_of_opens e he hp ho
    exact this
  | .paren e, _, _, _, h, hp, ho => by
    parts h
    exact adds_of_opens e h hp ho
  | .not _, _, _, e, h, hp, ho => by parts h; obtain ⟨_, _, rfl⟩ := h; rfl
  | .norm _, _, _, e, h, hp, ho => by parts h; obtain ⟨_, _, rfl⟩ := h; rfl
  | .text _, _, _, e, h, hp, ho => by parts h; subst h; rfl
  | .num _, _, _, e, h, hp, ho => by parts h; subst h; rfl
  | .bool _, _, _, e, h, hp, ho => by parts h; subst h; rfl
  | .color _, _, _, e, h, hp, ho => by parts h; obtain ⟨_, _, _, _, _, rfl⟩ := h; rfl
  | .go _, _, _, e, h, hp, ho => by parts h; obtain ⟨_, _, _, rfl⟩ := h; rfl
  | .call c, _, _, e, h, hp, ho => by parts h; obtain ⟨_, _, _, rfl⟩ := h; rfl
  | .callClosure _ _, _, _, e, h, hp, ho => by parts h; obtain ⟨_, _, _, _, rfl⟩ := h; rfl
  | .namedCallClosure _ _, _, _, e, h, hp, ho => by parts h; obtain ⟨_, _, _, _, rfl⟩ := h; rfl
  | .item _, _, _, e, h, hp, ho => by parts h; obtain ⟨_, _, rfl⟩ := h; rfl
  | .unloop _ _ _, _, _, e, h, hp, ho => by parts h; obtain ⟨_, _, rfl⟩ := h; rfl
  | .try_ e, _, _, _, h, hp, ho => by
    parts h
    obtain ⟨_, he, rfl⟩ := h
    have := adds_of_opens e he hp ho
    exact this
  | .mutItem _, _, _, e, h, hp, ho => by parts h; obtain ⟨_, _, rfl⟩ := h; rfl
  | .swizzle _ _ _ _ e, _, _, _, h, hp, ho => by
    parts h
    obtain ⟨_, he, rfl⟩ := h
    have := adds_of_opens e he hp ho
    exact this
theorem adds_prod : ∀ (p : Prod') {B Bt e}, Front.Spec.product file p = some e → plainProd C B Bt p →
    opensProd p = false → (e.looked find).adds = []
  | .mk first rest, _, _, e, h, hp, ho => by
    parts h
    obtain ⟨p, hp', h⟩ := h
    rcases mulRest_shape h with ⟨rfl, rfl⟩ | ⟨op, q, args, h1, rfl⟩
    · exact adds_opd first hp' (by simpa only [plainProd] using hp.1) (by simpa [opensProd] using ho)
    · rfl
theorem adds_opd : ∀ (o : Opd) {B Bt e}, Front.Spec.operand file o = some e → plainOpd C B Bt o →
    opensOpd o = false → (e.looked find).adds = []
  | .neg _, _, _, e, h, hp, ho => by parts h; obtain ⟨_, _, rfl⟩ := h; rfl
  | .pow _ _, _, _, e, h, hp, ho => by parts h; obtain ⟨_, _, _, _, rfl⟩ := h; rfl
  | .plain e, _, _, _, h, hp, ho => by
    parts h
    exact adds_of_opens e h hp.2 ho
end

omit [FloatOps] [Data.Lex] in
theorem decl_of_adds {e : Expr} (h : e.adds = []) : decl e = [] := by
  cases e <;> first | rfl | exact h

mutual
/-- An expression that declares nothing for the checker declares nothing in the run. -/
theorem decl_of_none : ∀ (s : Src) {B Bt e}, Front.Spec.expr file s = some e → plain C B Bt s → declared s = none →
    decl (e.looked find) = []
  | .in_ _ _, _, _, e, h, hp, ho => by parts h; subst h; rfl
  | .closure _ _ _, _, _, e, h, hp, ho => by parts h; obtain ⟨_, _, rfl⟩ := h; rfl
  | .object _, _, _, e, h, hp, ho => by parts h; obtain ⟨_, _, rfl⟩ := h; rfl
  | .array _, _, _, e, h, hp, ho => by parts h; obtain ⟨_, _, rfl⟩ := h; rfl
  | .arrayFill _ _, _, _, e, h, hp, ho => by parts h; obtain ⟨_, _, _, _, rfl⟩ := h; rfl
  | .forIn _ _ _ _ _, _, _, e, h, hp, ho => by parts h; obtain ⟨_, _, _, _, rfl⟩ := h; rfl
  | .forN _ _ _ _, _, _, e, h, hp, ho => by
    parts h
    obtain ⟨_, _, _, _, h⟩ := h
    obtain ⟨_, _, _, _, rfl⟩ := createForN_shape h
    rfl
  | .for_ _ _ _ _ _, _, _, e, h, hp, ho => by parts h; obtain ⟨_, _, _, _, _, _, _, _, rfl⟩ := h; rfl
  | .loop _ _, _, _, e, h, hp, ho => by parts h; obtain ⟨_, _, rfl⟩ := h; rfl
  | .ite _ t ei els, _, _, e, h, hp, ho => by parts h; obtain ⟨_, _, _, _, _, _, _, _, rfl⟩ := h; rfl
  | .brk _, _, _, e, h, hp, ho => by parts h; subst h; rfl
  | .cont _, _, _, e, h, hp, ho => by parts h; subst h; rfl
  | .block es, _, _, e, h, hp, ho => by parts h; obtain ⟨_, _, rfl⟩ := h; rfl
  | .assign l op r, _, _, e, h, hp, ho => by
    parts h
    obtain ⟨l', hl, r', hr, rfl⟩ := h
    simp only [plain] at hp
    rw [Expr.looked, Dyon.decl, declares_assign hp.2.1 hl r, ho]
  | .compare _ _ _, _, _, e, h, hp, ho => by parts h; obtain ⟨_, _, _, _, rfl⟩ := h; rfl
  | .ret _, _, _, e, h, hp, ho => by parts h; obtain ⟨_, _, rfl⟩ := h; rfl
  | .retVoid, _, _, e, h, hp, ho => by parts h; subst h; rfl
  | .add first rest, _, _, e, h, hp, ho => by
    parts h
    obtain ⟨p, hp', h⟩ := h
    rcases addRest_shape h with ⟨rfl, rfl⟩ | ⟨op, q, args, h1, rfl⟩
    · exact decl_prod first hp' (by simpa only [plain] using hp.1)
    · rfl
  | .mat4 _ _ _ _, _, _, e, h, hp, ho => by parts h; obtain ⟨_, _, _, _, _, _, _, _, rfl⟩ := h; rfl
  | .vec4 _ _ _ _, _, _, e, h, hp, ho => by parts h; obtain ⟨_, _, _, _, _, _, _, _, rfl⟩ := h; rfl
  | .link es, _, _, e, h, hp, ho => by parts h; obtain ⟨_, _, rfl⟩ := h; rfl
  | .grab _ _, _, _, e, h, hp, ho => by
    parts h
    obtain ⟨e, _, rfl⟩ := h
    rcases foldGrab_shape _ e with ⟨v, h⟩ | h <;> rw [h] <;> rfl
  | .tryExpr e, _, _, _, h, hp, ho => by parts h; obtain ⟨_, he, rfl⟩ := h; rfl
  | .paren e, _, _, _, h, hp, ho => by
    parts h
    exact decl_of_none e h hp ho
  | .not _, _, _, e, h, hp, ho => by parts h; obtain ⟨_, _, rfl⟩ := h; rfl
  | .norm _, _, _, e, h, hp, ho => by parts h; obtain ⟨_, _, rfl⟩ := h; rfl
  | .text _, _, _, e, h, hp, ho => by parts h; subst h; rfl
  | .num _, _, _, e, h, hp, ho => by parts h; subst h; rfl
  | .bool _, _, _, e, h, hp, ho => by parts h; subst h; rfl
  | .color _, _, _, e, h, hp, ho => by parts h; obtain ⟨_, _, _, _, _, rfl⟩ := h; rfl
  | .go _, _, _, e, h, hp, ho => by parts h; obtain ⟨_, _, _, rfl⟩ := h; rfl
  | .call c, _, _, e, h, hp, ho => by parts h; obtain ⟨_, _, _, rfl⟩ := h; rfl
  | .callClosure _ _, _, _, e, h, hp, ho => by parts h; obtain ⟨_, _, _, _, rfl⟩ := h; rfl
  | .namedCallClosure _ _, _, _, e, h, hp, ho => by parts h; obtain ⟨_, _, _, _, rfl⟩ := h; rfl
  | .item _, _, _, e, h, hp, ho => by parts h; obtain ⟨_, _, rfl⟩ := h; rfl
  | .unloop _ _ _, _, _, e, h, hp, ho => by parts h; obtain ⟨_, _, rfl⟩ := h; rfl
  | .try_ e, _, _, _, h, hp, ho => by parts h; obtain ⟨_, he, rfl⟩ := h; rfl
  | .mutItem _, _, _, e, h, hp, ho => by parts h; obtain ⟨_, _, rfl⟩ := h; rfl
  | .swizzle _ _ _ _ e, _, _, _, h, hp, ho => by parts h; obtain ⟨_, he, rfl⟩ := h; rfl
theorem decl_prod : ∀ (p : Prod') {B Bt e}, Front.Spec.product file p = some e → plainProd C B Bt p →
    decl (e.looked find) = []
  | .mk first rest, _, _, e, h, hp => by
    parts h
    obtain ⟨p, hp', h⟩ := h
    rcases mulRest_shape h with ⟨rfl, rfl⟩ | ⟨op, q, args, h1, rfl⟩
    · exact decl_opd first hp' (by simpa only [plainProd] using hp.1)
    · rfl
theorem decl_opd : ∀ (o : Opd) {B Bt e}, Front.Spec.operand file o = some e → plainOpd C B Bt o →
    decl (e.looked find) = []
  | .neg _, _, _, e, h, hp => by parts h; obtain ⟨_, _, rfl⟩ := h; rfl
  | .pow _ _, _, _, e, h, hp => by parts h; obtain ⟨_, _, _, _, rfl⟩ := h; rfl
  | .plain e, _, _, _, h, hp => by
    parts h
    exact decl_of_none e h hp.2 hp.1
end

/-- The checker takes nothing for declared that the run does not declare. -/
theorem declared_of_opens : ∀ (s : Src) {B Bt}, plain C B Bt s → opens s = false → declared s = none
  | .assign l op r, _, _, hp, ho => by
    simp only [plain] at hp
    cases op <;> try rfl
    simp only [opens, decide_true, Bool.true_and, Option.isSome_eq_false_iff] at ho
    rw [declared, place_left (hp.2.1 rfl), Option.isNone_iff_eq_none.1 ho]
  | .paren e, _, _, hp, ho => declared_of_opens e hp ho
  | .try_ e, _, _, hp, ho => declared_of_opens e hp ho
  | .closure _ _ _, _, _, _, ho => by cases ho
  | .in_ _ _, _, _, _, _ | .object _, _, _, _, _ | .array _, _, _, _, _
  | .arrayFill _ _, _, _, _, _ | .forIn _ _ _ _ _, _, _, _, _ | .forN _ _ _ _, _, _, _, _
  | .for_ _ _ _ _ _, _, _, _, _ | .loop _ _, _, _, _, _ | .ite _ _ _ _, _, _, _, _ | .brk _, _, _, _, _
  | .cont _, _, _, _, _ | .block _, _, _, _, _ | .compare _ _ _, _, _, _, _
  | .ret _, _, _, _, _ | .retVoid, _, _, _, _ | .add _ _, _, _, _, _ | .mat4 _ _ _ _, _, _, _, _
  | .vec4 _ _ _ _, _, _, _, _ | .link _, _, _, _, _ | .grab _ _, _, _, _, _ | .tryExpr _, _, _, _, _
  | .not _, _, _, _, _ | .norm _, _, _, _, _ | .text _, _, _, _, _ | .num _, _, _, _, _ | .bool _, _, _, _, _
  | .color _, _, _, _, _ | .go _, _, _, _, _ | .call _, _, _, _, _ | .callClosure _ _, _, _, _, _
  | .namedCallClosure _ _, _, _, _, _ | .unloop _ _ _, _, _, _, _ | .item _, _, _, _, _ | .mutItem _, _, _, _, _
  | .swizzle _ _ _ _ _, _, _, _, _ => rfl

/-- Behind a statement stands what the checker takes for declared. -/
theorem decl_of_behind : ∀ (s : Src) {B Bt e}, Front.Spec.expr file s = some e → plain C B Bt s → behind s = true →
    (e.looked find).adds = decl (e.looked find) ∧ decl (e.looked find) = (declared s).toList.map some := by
  intro s B Bt e h hp hb
  have key : opens s = false → (e.looked find).adds = decl (e.looked find) ∧
      decl (e.looked find) = (declared s).toList.map some := fun ho => by
    have h1 := adds_of_opens (find := find) s h hp ho
    rw [declared_of_opens s hp ho, h1, decl_of_adds h1]
    exact ⟨rfl, rfl⟩
  match s with
  | .assign l op r =>
    parts h
    obtain ⟨l', hl, r', hr, rfl⟩ := h
    simp only [plain] at hp
    simp only [Expr.looked, Dyon.decl, Expr.adds, declares_assign hp.2.1 hl r]
    cases declared (.assign l op r) <;> exact ⟨rfl, rfl⟩
  | .paren e' =>
    parts h
    exact decl_of_behind e' h hp hb
  | .closure _ _ _ | .try_ _ | .in_ _ _ | .object _ | .array _ | .arrayFill _ _ | .forIn _ _ _ _ _ | .forN _ _ _ _
  | .for_ _ _ _ _ _ | .loop _ _ | .ite _ _ _ _ | .brk _ | .cont _ | .block _ | .compare _ _ _
  | .ret _ | .retVoid | .add _ _ | .mat4 _ _ _ _ | .vec4 _ _ _ _ | .link _ | .grab _ _ | .tryExpr _
  | .not _ | .norm _ | .text _ | .num _ | .bool _ | .color _ | .go _ | .call _ | .callClosure _ _
  | .namedCallClosure _ _ | .unloop _ _ _ | .item _ | .mutItem _ | .swizzle _ _ _ _ _ =>
    exact key (by simpa [behind] using hb)

end Dyon.Plain
