import Verif.Front.Inner
import Verif.Front.Link
import Verif.Eval.Resolve
import Verif.Syntax.InferProps

/-!
# The variables of an inferred range
-/

namespace Dyon.Plain

open Syn (Inf inferE inferAll inferKVs inferItem inferIds inferBlock inferAssign inferElifs inferOptBlock inferOpt truncItem varOf
  isAssign isDecl)

variable {find : String → FnIndex} {k : Ctx} {ar : Int → Nat} {i : String}

/-- The names of `Γ'` are those of `Γ` and of `l`. -/
def Below (l : List String) (Γ Γ' : Env) : Prop := ∀ x, some x ∈ Γ' → some x ∈ Γ ∨ x ∈ l

theorem Below.refl {l : List String} {Γ : Env} : Below l Γ Γ := fun _ h => .inl h

/-- What a search finds has its variables in scope, as names of `Γ` or of `l`. -/
def Gets (find : String → FnIndex) (k : Ctx) (ar : Int → Nat) (os : List Env) (m : Inf) (Γ : Env) (l : List String) : Prop :=
  ∀ d r, (m d).1 = some r → ∃ Γ', Below l Γ Γ' ∧ SItem k ar (lookedItem find r) Γ' os ∧ WFitem k (lookedItem find r)

variable {os : List Env} {Γ Γ' : Env} {l l' : List String} {a b : Inf}

theorem Gets.no : Gets find k ar os .no Γ l := fun _ _ h => by cases h

theorem Gets.mono (h : Gets find k ar os a Γ l) (hl : ∀ x ∈ l, x ∈ l') (hΓ : Below l' Γ' Γ) : Gets find k ar os a Γ' l' := by
  intro d r hr
  obtain ⟨Γ₁, h1, h2⟩ := h d r hr
  refine ⟨Γ₁, fun x hx => ?_, h2⟩
  rcases h1 x hx with h | h
  · exact hΓ x h
  · exact .inr (hl x h)

theorem Gets.left (h : Gets find k ar os a Γ l) : Gets find k ar os a Γ (l ++ l') :=
  h.mono (fun _ h => List.mem_append_left _ h) .refl

theorem Gets.right (h : Gets find k ar os a Γ l) : Gets find k ar os a Γ (l' ++ l) :=
  h.mono (fun _ h => List.mem_append_right _ h) .refl

theorem Gets.or (ha : Gets find k ar os a Γ l) (hb : Gets find k ar os b Γ l) : Gets find k ar os (.or a b) Γ l := by
  intro d r h
  unfold Inf.or at h
  cases hm : a d with
  | mk r' d' =>
    rw [hm] at h
    cases r' with
    | none => exact hb d' r h
    | some r' => exact ha d r (by rw [hm]; exact h)

theorem Gets.both (ha : Gets find k ar os a Γ l) (hb : Gets find k ar os b Γ l') : Gets find k ar os (.or a b) Γ (l ++ l') :=
  ha.left.or hb.right

theorem Gets.scope (h : Gets find k ar os a Γ l) : Gets find k ar os (.scope a) Γ l := fun d r hr => h d r hr

theorem Gets.push {n} (h : Gets find k ar os a Γ l) : Gets find k ar os (.push n a) Γ l := fun d r hr => h _ r hr

theorem below_nones {n : Nat} : Below l Γ (Γ ++ List.replicate n none) := by
  intro x hx
  simp only [List.mem_append, List.mem_replicate] at hx
  rcases hx with hx | ⟨_, hx⟩
  · exact .inl hx
  · cases hx

theorem below_none : Below l Γ (Γ ++ [none]) := below_nones (n := 1)

theorem below_hide : Below l Γ (hideRet Γ ++ [none]) := by
  intro x hx
  simp only [hideRet, List.mem_append, List.mem_map, List.mem_singleton, reduceCtorEq, or_false] at hx
  obtain ⟨y, hy, h⟩ := hx
  split at h
  · cases h
  · subst h; exact .inl hy

theorem below_pre {f : FnIndex} : Below l Γ (Γ ++ callPre k f) := by
  cases f <;> simp only [callPre, List.append_nil] <;> try exact .refl
  split
  · exact below_none
  · rw [List.append_nil]; exact .refl

theorem declName_looked (op : AssignOp) (e : Expr) : declName op (e.looked find) = declName op e := by
  cases e with
  | item it =>
    obtain ⟨n, sid, cur, t, ids, tids⟩ := it
    cases op <;> simp only [Expr.looked, declName]
    cases ids with
    | nil => rfl
    | cons id r => cases id <;> rfl
  | _ => cases op <;> simp only [Expr.looked, declName]

theorem below_decl {e : Expr} : Below (inner e) Γ (Γ ++ decl (e.looked find)) := by
  intro x hx
  rcases List.mem_append.1 hx with hx | hx
  · exact .inl hx
  · right
    cases e with
    | assign op lhs rhs =>
      simp only [Expr.looked, decl, declName_looked] at hx
      simp only [inner]
      cases hd : declName op lhs with
      | none => rw [hd] at hx; simp at hx
      | some n => rw [hd] at hx; simp at hx; simp [hx]
    | _ => simp only [Expr.looked, decl, List.not_mem_nil] at hx

theorem sids_take {os : List Env} : ∀ (ids : List Id) (n : Nat) {Γ : Env}, SIds k ar (lookedIds find ids) Γ os →
    SIds k ar (lookedIds find (ids.take n)) Γ os
  | _, 0, _, _ => by simp [lookedIds, SIds]
  | [], _ + 1, _, h => by simpa using h
  | .str s :: r, n + 1, _, h => by
    simp only [lookedIds, SIds, List.take_succ_cons] at h ⊢; exact sids_take r n h
  | .num s :: r, n + 1, _, h => by
    simp only [lookedIds, SIds, List.take_succ_cons] at h ⊢; exact sids_take r n h
  | .expr e :: r, n + 1, _, h => by
    simp only [lookedIds, SIds, List.take_succ_cons] at h ⊢; exact ⟨h.1, sids_take r n h.2⟩

theorem wfids_take : ∀ (ids : List Id) (n : Nat), WFids k (lookedIds find ids) → WFids k (lookedIds find (ids.take n))
  | _, 0, _ => by simp [lookedIds, WFids]
  | [], _ + 1, h => by simpa using h
  | .str s :: r, n + 1, h => by
    simp only [lookedIds, WFids, List.take_succ_cons] at h ⊢; exact wfids_take r n h
  | .num s :: r, n + 1, h => by
    simp only [lookedIds, WFids, List.take_succ_cons] at h ⊢; exact wfids_take r n h
  | .expr e :: r, n + 1, h => by
    simp only [lookedIds, WFids, List.take_succ_cons] at h ⊢; exact ⟨h.1, wfids_take r n h.2⟩

/-- The left side of a declaration has no indices. -/
theorem infer_new {op : AssignOp} {e : Expr} (h : declName op (e.looked find) ≠ none) : inferE i e = .no := by
  rw [declName_looked] at h
  cases e with
  | item it =>
    obtain ⟨n, sid, cur, t, ids, tids⟩ := it
    cases ids with
    | nil => simp [inferE, inferItem, inferIds]
    | cons id r => exact absurd (by cases op <;> rfl) h
  | _ => exact absurd (by cases op <;> rfl) h

mutual
theorem gets : ∀ (e : Expr) {Γ : Env} {os : List Env}, (e.looked find).Scoped k ar Γ os → (e.looked find).WF k →
    Gets find k ar os (inferE i e) Γ (inner e)
  | .item it, _, _, h, w => by
    simp only [inferE, inner]
    exact gets_item it h w
  | .assign op l r, Γ, os, h, w => by
    simp only [Expr.looked, Expr.Scoped, Expr.WF] at h w
    simp only [inferE, inner]
    have h1 : Gets find k ar os (inferE i l) Γ (inner l) := by
      by_cases hd : declName op (l.looked find) = none
      · exact gets l (h.2 hd) w.1
      · rw [infer_new hd]; exact .no
    exact (h1.both (gets r h.1 w.2)).right
  | .link es, _, _, h, w => by
    simp only [inferE, inner]; exact gets_seq es h w
  | .array es, _, _, h, w => by
    simp only [inferE, inner]; exact gets_all es h w
  | .go _ es, _, _, h, w => by
    simp only [inferE, inner]; exact gets_all es h w
  | .call f n es, Γ, os, h, w => by
    simp only [Expr.looked, Expr.Scoped, Expr.WF] at h w
    simp only [inferE, inner]
    have h := h.1
    split at h
    · exact gets_all es h w.1
    · exact (gets_args es h w.1).mono (fun _ h => h) below_pre
  | .vec4 es, _, _, h, w => by
    simp only [Expr.looked, Expr.Scoped, Expr.WF] at h w
    simp only [inferE, inner]; exact gets_args es h w.1
  | .mat4 es, _, _, h, w => by
    simp only [Expr.looked, Expr.Scoped, Expr.WF] at h w
    simp only [inferE, inner]; exact gets_args es h.1 w.1
  | .object kvs, _, _, h, w => by
    simp only [inferE, inner]; exact gets_kvs kvs h w
  | .arrayFill a b, _, _, h, w => by
    simp only [Expr.looked, Expr.Scoped, Expr.WF] at h w
    simp only [inferE, inner]; exact (gets a h.1 w.1).both (gets b h.2 w.2)
  | .block es, _, _, h, w => by
    simp only [inferE, inner]; exact (gets_block es h w).scope
  | .for_ init cond step body _, _, _, h, w => by
    simp only [Expr.looked, Expr.Scoped, Expr.WF] at h w
    simp only [inferE, inner]
    obtain ⟨h1, -, -, h2, h3, -, -, h4⟩ := h
    have hm : ∀ {m : Inf} {Γ : Env} {os : List Env} {l : List String}, Gets find k ar os m (Γ ++ decl (init.looked find)) l →
        Gets find k ar os m Γ (inner init ++ l) := fun h =>
      h.mono (fun _ h => List.mem_append_right _ h) fun x hx => (below_decl x hx).imp_right (List.mem_append_left _)
    exact (gets init h1 w.1).left.or (hm ((gets cond h2 w.2.1).both ((gets step h3 w.2.2.1).both (gets_block body h4 w.2.2.2).scope)))
  | .forN _ n start stop body _, Γ, os, h, w => by
    simp only [Expr.looked, Expr.Scoped, Expr.WF] at h w
    simp only [inferE, inner]
    by_cases hn : n = i
    · simp only [hn, if_true]; exact .no
    · simp only [hn, if_false]
      refine Gets.push (.scope ?_)
      have hb : Gets find k ar os (inferBlock i body) Γ (n :: innerAll body) :=
        (gets_block body h.2.2 w.2.2.1).mono (fun _ h => List.mem_cons_of_mem _ h) fun x hx => by
          simp only [List.mem_append, List.mem_singleton, Option.some.injEq] at hx
          exact hx.imp_right fun h => by simp [h]
      refine Gets.mono (l := innerOpt start ++ (inner stop ++ (n :: innerAll body))) ?_ (fun x hx => ?_) .refl
      · exact (gets_opt start h.1 w.1).both ((gets stop h.2.1 w.2.1).both hb.scope)
      · simp only [List.mem_append, List.mem_cons] at hx ⊢; tauto
  | .forIn _ n iter body _, _, _, h, w => by
    simp only [Expr.looked, Expr.Scoped, Expr.WF] at h w
    simp only [inferE, inner]
    exact (gets iter h.1 w.1).mono (fun x hx => List.mem_cons_of_mem _ (List.mem_append_left _ hx)) .refl
  | .ite cond thn elifs els, _, _, h, w => by
    simp only [Expr.looked, Expr.Scoped, Expr.WF] at h w
    simp only [inferE, inner]
    exact (gets cond h.1 w.1).both ((gets_block thn h.2.1 w.2.1).scope.both
      ((gets_elifs elifs h.2.2.1 w.2.2.1).both (gets_optBlock els h.2.2.2 w.2.2.2)))
  | .ret e, _, _, h, w => by simp only [inferE, inner]; exact gets e h w
  | .try_ e, _, _, h, w => by simp only [inferE, inner]; exact gets e h w
  | .swizzle _ e, _, _, h, w => by simp only [inferE, inner]; exact gets e h w
  | .tryExpr e, _, _, h, w => by simp only [inferE, inner]; exact gets e h w
  | .callClosure it args, _, _, h, w => by
    simp only [Expr.looked, Expr.Scoped, Expr.WF] at h w
    simp only [inferE, inner]
    exact (gets_item it h.1 w.1).both ((gets_args args h.2.2 w.2).mono (fun _ h => h) below_hide)
  | .retVoid, _, _, _, _ => by simp only [inferE]; exact .no
  | .brk _, _, _, _, _ => by simp only [inferE]; exact .no
  | .cont _, _, _, _, _ => by simp only [inferE]; exact .no
  | .const _, _, _, _, _ => by simp only [inferE]; exact .no
  | .closure .., _, _, _, _ => by simp only [inferE]; exact .no
  | .grab .., _, _, _, _ => by simp only [inferE]; exact .no
  | .in_ _, _, _, _, _ => by simp only [inferE]; exact .no
theorem gets_item : ∀ (it : Item) {Γ : Env} {os : List Env}, SItem k ar (lookedItem find it) Γ os → WFitem k (lookedItem find it) →
    Gets find k ar os (inferItem i it) Γ (innerItem it)
  | .mk n sid cur t ids tids, Γ, os, h, w => by
    simp only [inferItem, innerItem]
    simp only [lookedItem, SItem, WFitem] at h w
    refine gets_ids (.mk n sid cur t ids tids) (fun m => ⟨?_, ?_⟩) 0 ids h.2 w .refl
    · simp only [truncItem, lookedItem, SItem]; exact ⟨h.1, sids_take ids m h.2⟩
    · simp only [truncItem, lookedItem, WFitem]; exact wfids_take ids m w
theorem gets_ids (it : Item) {Γ₀ : Env} {os : List Env}
    (hi : ∀ n, SItem k ar (lookedItem find (truncItem it n)) Γ₀ os ∧ WFitem k (lookedItem find (truncItem it n))) (n : Nat) :
    ∀ (ids : List Id) {Γ : Env}, SIds k ar (lookedIds find ids) Γ os → WFids k (lookedIds find ids) → Below [] Γ₀ Γ →
    Gets find k ar os (inferIds i it n ids) Γ₀ (innerIds ids)
  | [], _, _, _, _ => by simp only [inferIds]; exact .no
  | .str _ :: r, _, h, w, hb => by
    simp only [inferIds, innerIds]; exact gets_ids it hi (n + 1) r h w hb
  | .num _ :: r, _, h, w, hb => by
    simp only [inferIds, innerIds]; exact gets_ids it hi (n + 1) r h w hb
  | .expr e :: r, Γ, h, w, hb => by
    simp only [inferIds, innerIds]
    simp only [lookedIds, SIds, WFids] at h w
    have he : Gets find k ar os (inferE i e) Γ₀ (inner e) := (gets e h.1 w.1).mono (fun _ h => h) fun x hx =>
      .inl ((hb x hx).resolve_right (by simp))
    have hr := gets_ids it hi (n + 1) r h.2 w.2 fun x hx => hb x (by simpa using hx)
    intro d res hres
    cases hv : varOf e with
    | none => rw [hv] at hres; exact he.left d res hres
    | some j =>
      rw [hv] at hres
      simp only at hres
      by_cases hn : j = i
      · simp only [hn, if_true, Option.some.injEq] at hres
        subst hres
        exact ⟨Γ₀, .refl, hi n⟩
      · simp only [hn, if_false] at hres
        by_cases hd : j ∈ d
        · simp only [hd, if_true] at hres; cases hres
        · simp only [hd, if_false] at hres
          exact he.both hr d res hres
theorem gets_all : ∀ (es : List Expr) {Γ : Env} {os : List Env}, SAll k ar (lookedList find es) Γ os → WFs k (lookedList find es) →
    Gets find k ar os (inferAll i es) Γ (innerAll es)
  | [], _, _, _, _ => by simp only [inferAll]; exact .no
  | e :: es, _, _, h, w => by
    simp only [inferAll, innerAll]
    exact (gets e h.1 w.1).both (gets_all es h.2 w.2)
theorem gets_args : ∀ (es : List Expr) {Γ : Env} {os : List Env}, SArgs k ar (lookedList find es) Γ os → WFs k (lookedList find es) →
    Gets find k ar os (inferAll i es) Γ (innerAll es)
  | [], _, _, _, _ => by simp only [inferAll]; exact .no
  | e :: es, _, _, h, w => by
    simp only [inferAll, innerAll]
    exact (gets e h.1 w.1).both ((gets_args es h.2 w.2).mono (fun _ h => h) below_nones)
theorem gets_seq : ∀ (es : List Expr) {Γ : Env} {os : List Env}, SSeq k ar (lookedList find es) Γ os → WFs k (lookedList find es) →
    Gets find k ar os (inferAll i es) Γ (innerAll es)
  | [], _, _, _, _ => by simp only [inferAll]; exact .no
  | e :: es, _, _, h, w => by
    simp only [inferAll, innerAll]
    refine (gets e h.1 w.1).left.or ((gets_seq es h.2.2.2 w.2).mono (fun _ h => List.mem_append_right _ h) fun x hx => ?_)
    exact (below_decl x hx).imp_right (List.mem_append_left _)
theorem gets_block : ∀ (es : List Expr) {Γ : Env} {os : List Env}, SSeq k ar (lookedList find es) Γ os → WFs k (lookedList find es) →
    Gets find k ar os (inferBlock i es) Γ (innerAll es)
  | [], _, _, _, _ => by simp only [inferBlock]; exact .no
  | e :: es, Γ, os, h, w => by
    simp only [inferBlock, innerAll]
    have hr : Gets find k ar os (inferBlock i es) Γ (inner e ++ innerAll es) :=
      (gets_block es h.2.2.2 w.2).mono (fun _ h => List.mem_append_right _ h) fun x hx =>
        (below_decl x hx).imp_right (List.mem_append_left _)
    cases ha : isAssign e with
    | false => exact (gets e h.1 w.1).left.or hr
    | true =>
      simp only [if_true]
      exact gets_assign e _ h.1 w.1 (fun x hx => List.mem_append_left _ hx) hr
theorem gets_assign {l : List String} : ∀ (e : Expr) (rest : Inf) {Γ : Env} {os : List Env}, (e.looked find).Scoped k ar Γ os →
    (e.looked find).WF k → (∀ x ∈ inner e, x ∈ l) → Gets find k ar os rest Γ l → Gets find k ar os (inferAssign i rest e) Γ l
  | .assign op lhs r, rest, Γ, os, h, w, hl, hr => by
    simp only [Expr.looked, Expr.Scoped, Expr.WF] at h w
    simp only [inner] at hl
    simp only [inferAssign]
    have h1 : Gets find k ar os (inferE i lhs) Γ l := by
      by_cases hd : declName op (lhs.looked find) = none
      · exact (gets lhs (h.2 hd) w.1).mono (fun x hx => hl x (by simp [hx])) .refl
      · rw [infer_new hd]; exact .no
    have h2 : Gets find k ar os (inferE i r) Γ l := (gets r h.1 w.2).mono (fun x hx => hl x (by simp [hx])) .refl
    refine h2.or ?_
    intro d res hres
    cases hv : varOf lhs with
    | none => rw [hv] at hres; exact h1.or hr d res hres
    | some n =>
      rw [hv] at hres
      simp only at hres
      by_cases hn : n = i
      · simp only [hn, if_true] at hres; cases hres
      · simp only [hn, if_false] at hres
        by_cases hd : isDecl op lhs = true
        · simp only [hd, if_true] at hres
          exact (h1.or hr).push d res hres
        · simp only [hd] at hres
          exact h1.or hr d res hres
  | .link _, _, _, _, _, _, _, _ | .object _, _, _, _, _, _, _, _ | .array _, _, _, _, _, _, _, _ | .arrayFill _ _, _, _, _, _, _, _, _
  | .ret _, _, _, _, _, _, _, _ | .retVoid, _, _, _, _, _, _, _ | .brk _, _, _, _, _, _, _, _ | .cont _, _, _, _, _, _, _, _
  | .block _, _, _, _, _, _, _, _ | .go _ _, _, _, _, _, _, _, _ | .call _ _ _, _, _, _, _, _, _, _ | .item _, _, _, _, _, _, _, _
  | .vec4 _, _, _, _, _, _, _, _ | .mat4 _, _, _, _, _, _, _, _ | .for_ .., _, _, _, _, _, _, _ | .forN .., _, _, _, _, _, _, _
  | .forIn .., _, _, _, _, _, _, _ | .ite .., _, _, _, _, _, _, _ | .const _, _, _, _, _, _, _, _ | .try_ _, _, _, _, _, _, _, _
  | .swizzle _ _, _, _, _, _, _, _, _ | .closure .., _, _, _, _, _, _, _ | .callClosure .., _, _, _, _, _, _, _
  | .grab .., _, _, _, _, _, _, _ | .tryExpr _, _, _, _, _, _, _, _ | .in_ _, _, _, _, _, _, _, _ => by
    simp only [inferAssign]; exact .no
theorem gets_kvs : ∀ (es : List (String × Expr)) {Γ : Env} {os : List Env}, SKvs k ar (lookedKvs find es) Γ os →
    WFkvs k (lookedKvs find es) → Gets find k ar os (inferKVs i es) Γ (innerKvs es)
  | [], _, _, _, _ => by simp only [inferKVs]; exact .no
  | (_, e) :: es, _, _, h, w => by
    simp only [inferKVs, innerKvs]
    exact (gets e h.1 w.1).both (gets_kvs es h.2 w.2)
theorem gets_elifs : ∀ (es : List (Expr × List Expr)) {Γ : Env} {os : List Env}, SElifs k ar (lookedElifs find es) Γ os →
    WFelifs k (lookedElifs find es) → Gets find k ar os (inferElifs i es) Γ (innerElifs es)
  | [], _, _, _, _ => by simp only [inferElifs]; exact .no
  | (c, b) :: es, _, _, h, w => by
    simp only [inferElifs, innerElifs]
    exact (gets c h.1 w.1).both ((gets_block b h.2.1 w.2.1).scope.both (gets_elifs es h.2.2 w.2.2))
theorem gets_optBlock : ∀ (b : Option (List Expr)) {Γ : Env} {os : List Env}, SOptSeq k ar (lookedOptList find b) Γ os →
    WFoptList k (lookedOptList find b) → Gets find k ar os (inferOptBlock i b) Γ (innerOptAll b)
  | none, _, _, _, _ => by simp only [inferOptBlock]; exact .no
  | some b, _, _, h, w => by
    simp only [inferOptBlock, innerOptAll]
    exact (gets_block b h w).scope
theorem gets_opt : ∀ (e : Option Expr) {Γ : Env} {os : List Env}, SOpt k ar (lookedOpt find e) Γ os →
    WFopt k (lookedOpt find e) → Gets find k ar os (inferOpt i e) Γ (innerOpt e)
  | none, _, _, _, _ => by simp only [inferOpt]; exact .no
  | some e, _, _, h, w => by
    simp only [inferOpt, innerOpt]
    exact gets e h w
end

/-! ## Lists whose properties are variables -/

mutual
theorem item_below : ∀ (it : Item) {Γ Γ' : Env} {xs}, listVars it = some xs → (∀ x ∈ xs, some x ∈ Γ' → some x ∈ Γ) →
    SItem k ar (lookedItem find it) Γ' os → SItem k ar (lookedItem find it) Γ os
  | .mk n sid cur t ids tids, Γ, Γ', xs, hv, hx, h => by
    simp only [listVars, Option.map_eq_some_iff] at hv
    obtain ⟨ys, hy, rfl⟩ := hv
    simp only [lookedItem, SItem] at h ⊢
    exact ⟨hx _ (by simp) h.1, ids_below ids hy (fun x hm => hx x (by simp [hm])) h.2⟩
theorem ids_below : ∀ (ids : List Id) {Γ Γ' : Env} {xs}, idsVars ids = some xs → (∀ x ∈ xs, some x ∈ Γ' → some x ∈ Γ) →
    SIds k ar (lookedIds find ids) Γ' os → SIds k ar (lookedIds find ids) Γ os
  | [], _, _, _, _, _, _ => by simp [lookedIds, SIds]
  | .str _ :: r, _, _, _, hv, hx, h => by
    simp only [idsVars] at hv
    exact ids_below r hv hx h
  | .num _ :: r, _, _, _, hv, hx, h => by
    simp only [idsVars] at hv
    exact ids_below r hv hx h
  | .expr (.item it) :: r, _, _, _, hv, hx, h => by
    simp only [idsVars, Option.bind_eq_bind, Option.bind_eq_some_iff, Option.some.injEq] at hv
    obtain ⟨ys, hy, zs, hz, rfl⟩ := hv
    simp only [lookedIds, SIds] at h ⊢
    refine ⟨?_, ids_below r hz (fun x hm hx' => ?_) h.2⟩
    · exact item_below it hy (fun x hm => hx x (by simp [hm])) h.1
    · simp only [List.mem_append, List.mem_singleton, reduceCtorEq, or_false] at hx' ⊢
      exact hx x (by simp [hm]) hx'
end

end Dyon.Plain
