import Verif.Syntax.Infer

/-! # C41: the inferred range is the length of the first list indexed by the loop variable -/

namespace Dyon.Syn

/-! ## Specification -/

namespace Spec

/-- `i := ..`. -/
def declaresVar (i : String) : Expr → Bool
  | .assign .assign (.item it) _ => it.name = i && it.ids.isEmpty
  | _ => false

/-- The variable `i` itself. -/
def isPlainVar (i : String) : Expr → Bool
  | .item it => it.name = i && it.ids.isEmpty
  | _ => false

mutual
/-- The lists indexed by the variable `i` in an expression, in the order in which the
indexing takes place: `a[0].x[i]` gives `a[0].x`. The scope of a declaration is the rest of
its block, the scope of the name of a loop is the body of the loop. A closure does not see
the variables around it. -/
def lists (i : String) : Expr → List Item
  | .item (.mk n sid cur t ids tids) => listsIds i (.mk n sid cur t ids tids) 0 ids
  | .assign _ l r => lists i r ++ lists i l
  | .link items | .array items | .go _ items | .call _ _ items | .vec4 items | .mat4 items => listsAll i items
  | .object kvs => listsKVs i kvs
  | .arrayFill a b => lists i a ++ lists i b
  | .block es => listsScope i es
  | .for_ init cond step body _ => lists i init ++ (lists i cond ++ (lists i step ++ listsScope i body))
  | .forN _ n start stop body _ =>
    listsOpt i start ++ (lists i stop ++ if n = i then [] else listsScope i body)
  | .forIn _ n iter body _ => lists i iter ++ if n = i then [] else listsScope i body
  | .ite cond thn elifs els => lists i cond ++ (listsScope i thn ++ (listsElifs i elifs ++ listsOptScope i els))
  | .ret e | .try_ e | .swizzle _ e | .tryExpr e => lists i e
  | .callClosure (.mk n sid cur t ids tids) args =>
    listsIds i (.mk n sid cur t ids tids) 0 ids ++ listsAll i args
  | .retVoid | .brk _ | .cont _ | .const _ | .closure .. | .grab .. | .in_ _ => []
/-- In the properties of `it` from number `k` on. -/
def listsIds (i : String) (it : Item) (k : Nat) : List Id → List Item
  | [] => []
  | .expr e :: r => (if isPlainVar i e then [truncItem it k] else lists i e) ++ listsIds i it (k + 1) r
  | .str _ :: r => listsIds i it (k + 1) r
  | .num _ :: r => listsIds i it (k + 1) r
/-- In parts. -/
def listsAll (i : String) : List Expr → List Item
  | [] => []
  | e :: es => lists i e ++ listsAll i es
/-- In the values of an object. -/
def listsKVs (i : String) : List (String × Expr) → List Item
  | [] => []
  | (_, e) :: es => lists i e ++ listsKVs i es
/-- In statements. -/
def listsScope (i : String) : List Expr → List Item
  | [] => []
  | e :: es => lists i e ++ if declaresVar i e then [] else listsScope i es
/-- In `else if` branches. -/
def listsElifs (i : String) : List (Expr × List Expr) → List Item
  | [] => []
  | (c, b) :: es => lists i c ++ (listsScope i b ++ listsElifs i es)
/-- In an `else` branch. -/
def listsOptScope (i : String) : Option (List Expr) → List Item
  | none => []
  | some b => listsScope i b
/-- In the start of a range. -/
def listsOpt (i : String) : Option Expr → List Item
  | none => []
  | some e => lists i e
end

mutual
/-- The bodies the theorem is about, where all the names declared in the body are in `D`:
variables used as indices are not declared in the body, a computed index is the last one,
the loop variable is not assigned to and has no properties, it is declared again only by a
statement of a block or by an inner counting loop whose range does not use it, and bodies
of channel loops do not use it as an index. -/
def Plain (D : List String) (i : String) : Expr → Prop
  | .item (.mk n _ _ _ ids _) => (n = i → ids = []) ∧ PlainIds D i ids
  | .assign _ l r => varOf l ≠ some i ∧ Plain D i l ∧ Plain D i r ∧ (lists i l = [] ∨ lists i r = [])
  | .link items | .array items | .go _ items | .call _ _ items | .vec4 items | .mat4 items => PlainAll D i items
  | .object kvs => PlainKVs D i kvs
  | .arrayFill a b => Plain D i a ∧ Plain D i b
  | .block es => PlainScope D i es
  | .for_ init cond step body _ => Plain D i init ∧ Plain D i cond ∧ Plain D i step ∧ PlainScope D i body
  | .forN _ n start stop body _ =>
    if n = i then listsOpt i start = [] ∧ lists i stop = []
    else n ∈ D ∧ PlainOpt D i start ∧ Plain D i stop ∧ PlainScope D i body
  | .forIn _ n iter body _ => Plain D i iter ∧ (n ≠ i → listsScope i body = [])
  | .ite cond thn elifs els => Plain D i cond ∧ PlainScope D i thn ∧ PlainElifs D i elifs ∧ PlainOptScope D i els
  | .ret e | .try_ e | .swizzle _ e | .tryExpr e => Plain D i e
  | .callClosure (.mk n _ _ _ ids _) args => (n = i → ids = []) ∧ PlainIds D i ids ∧ PlainAll D i args
  | .retVoid | .brk _ | .cont _ | .const _ | .closure .. | .grab .. | .in_ _ => True
/-- Properties. -/
def PlainIds (D : List String) (i : String) : List Id → Prop
  | [] => True
  | .expr e :: r => Plain D i e ∧
    match varOf e with
    | some n => n ≠ i → n ∉ D ∧ PlainIds D i r
    | none => ∀ id ∈ r, ∀ e, id ≠ .expr e
  | .str _ :: r => PlainIds D i r
  | .num _ :: r => PlainIds D i r
/-- Parts. -/
def PlainAll (D : List String) (i : String) : List Expr → Prop
  | [] => True
  | e :: es => Plain D i e ∧ PlainAll D i es
/-- Values of an object. -/
def PlainKVs (D : List String) (i : String) : List (String × Expr) → Prop
  | [] => True
  | (_, e) :: es => Plain D i e ∧ PlainKVs D i es
/-- Statements. -/
def PlainScope (D : List String) (i : String) : List Expr → Prop
  | [] => True
  | e :: es => if isAssign e then PlainAssign D i e ∧ (declaresVar i e = false → PlainScope D i es)
    else Plain D i e ∧ PlainScope D i es
/-- An assignment among the statements. -/
def PlainAssign (D : List String) (i : String) : Expr → Prop
  | .assign op l r => Plain D i l ∧ Plain D i r ∧
    ∀ n, varOf l = some n → (n = i → op = .assign) ∧ (n ≠ i → isDecl op l → n ∈ D)
  | _ => True
/-- `else if` branches. -/
def PlainElifs (D : List String) (i : String) : List (Expr × List Expr) → Prop
  | [] => True
  | (c, b) :: es => Plain D i c ∧ PlainScope D i b ∧ PlainElifs D i es
/-- An `else` branch. -/
def PlainOptScope (D : List String) (i : String) : Option (List Expr) → Prop
  | none => True
  | some b => PlainScope D i b
/-- The start of a range. -/
def PlainOpt (D : List String) (i : String) : Option Expr → Prop
  | none => True
  | some e => Plain D i e
end

mutual
/-- Every item in an expression, at any depth. -/
def items : Expr → List Item
  | .item (.mk n sid cur t ids tids) => .mk n sid cur t ids tids :: itemsIds ids
  | .assign _ l r => items l ++ items r
  | .link es | .array es | .go _ es | .call _ _ es | .vec4 es | .mat4 es | .block es => itemsAll es
  | .object kvs => itemsKVs kvs
  | .arrayFill a b => items a ++ items b
  | .for_ init cond step body _ => items init ++ (items cond ++ (items step ++ itemsAll body))
  | .forN _ _ start stop body _ => itemsOpt start ++ (items stop ++ itemsAll body)
  | .forIn _ _ iter body _ => items iter ++ itemsAll body
  | .ite cond thn elifs els => items cond ++ (itemsAll thn ++ (itemsElifs elifs ++ itemsOptAll els))
  | .ret e | .try_ e | .swizzle _ e | .tryExpr e | .grab _ e | .closure _ _ _ _ e => items e
  | .callClosure (.mk n sid cur t ids tids) args => .mk n sid cur t ids tids :: (itemsIds ids ++ itemsAll args)
  | .retVoid | .brk _ | .cont _ | .const _ | .in_ _ => []
/-- In properties. -/
def itemsIds : List Id → List Item
  | [] => []
  | .expr e :: r => items e ++ itemsIds r
  | .str _ :: r => itemsIds r
  | .num _ :: r => itemsIds r
/-- In parts. -/
def itemsAll : List Expr → List Item
  | [] => []
  | e :: es => items e ++ itemsAll es
/-- In the values of an object. -/
def itemsKVs : List (String × Expr) → List Item
  | [] => []
  | (_, e) :: es => items e ++ itemsKVs es
/-- In `else if` branches. -/
def itemsElifs : List (Expr × List Expr) → List Item
  | [] => []
  | (c, b) :: es => items c ++ (itemsAll b ++ itemsElifs es)
/-- In an `else` branch. -/
def itemsOptAll : Option (List Expr) → List Item
  | none => []
  | some b => itemsAll b
/-- In the start of a range. -/
def itemsOpt : Option Expr → List Item
  | none => []
  | some e => items e
end

/-- `r` is what stands before an index `[i]`, `[i.x]` .. of one of the items. -/
def Indexed (i : String) (r : Item) (l : List Item) : Prop :=
  ∃ it ∈ l, ∃ k j, it.ids[k]? = some (.expr (.item j)) ∧ j.name = i ∧ r = truncItem it k

end Spec

open Spec

/-! ## Lemmas -/

/-- A search finds the first of the items, and declares names of `D` only. -/
def Finds (D : List String) (m : Inf) (l : List Item) : Prop :=
  ∀ d, (∀ x ∈ d, x ∈ D) → (m d).1 = l.head? ∧ ∀ x ∈ (m d).2, x ∈ D

theorem Finds.no {D} : Finds D .no [] := fun _ h => ⟨rfl, h⟩

theorem Finds.or {D a b la lb} (ha : Finds D a la) (hb : Finds D b lb) : Finds D (.or a b) (la ++ lb) := by
  intro d hd
  obtain ⟨h1, h2⟩ := ha d hd
  unfold Inf.or
  cases hm : a d with
  | mk r d' =>
    rw [hm] at h1 h2
    simp only at h1 h2
    cases r with
    | none =>
      obtain rfl : la = [] := by
        cases la with
        | nil => rfl
        | cons x l => cases h1
      exact hb d' h2
    | some r =>
      refine ⟨?_, h2⟩
      cases la with
      | nil => cases h1
      | cons x la => simpa using h1

theorem Finds.scope {D a l} (h : Finds D a l) : Finds D (.scope a) l := fun d hd =>
  ⟨(h d hd).1, fun x hx => (h d hd).2 x (List.mem_of_mem_take hx)⟩

theorem Finds.push {D a l n} (hn : n ∈ D) (h : Finds D a l) : Finds D (.push n a) l := fun d hd =>
  h _ fun x hx => by
    rcases List.mem_append.1 hx with hx | hx
    · exact hd x hx
    · cases List.mem_singleton.1 hx; exact hn

theorem listsIds_none {i : String} {it : Item} : ∀ {ids : List Id} {k : Nat}, (∀ id ∈ ids, ∀ e, id ≠ .expr e) → listsIds i it k ids = []
  | [], _, _ => by simp [listsIds]
  | .str _ :: r, k, h => by
    simp only [listsIds]; exact listsIds_none fun id hid => h id (List.mem_cons_of_mem _ hid)
  | .num _ :: r, k, h => by
    simp only [listsIds]; exact listsIds_none fun id hid => h id (List.mem_cons_of_mem _ hid)
  | .expr e :: r, k, h => absurd rfl (h _ List.mem_cons_self e)

theorem plain_var {D : List String} {i : String} {e : Expr} (h : Plain D i e) (hv : varOf e = some i) : isPlainVar i e = true := by
  cases e with
  | item it =>
    obtain ⟨n, sid, cur, t, ids, tids⟩ := it
    simp only [varOf, Item.name, Option.some.injEq] at hv
    simp only [Plain] at h
    simp [isPlainVar, Item.name, Item.ids, hv, h.1 hv]
  | _ => cases hv

mutual
theorem infer_finds {D : List String} {i : String} : ∀ (e : Expr), Plain D i e → Finds D (inferE i e) (lists i e)
  | .item (.mk n sid cur t ids tids), h => by
    simp only [Plain] at h
    simp only [inferE, inferItem, lists]
    exact infer_ids _ 0 ids h.2
  | .assign op l r, h => by
    simp only [Plain] at h
    simp only [inferE, lists]
    have := (infer_finds l h.2.1).or (infer_finds r h.2.2.1)
    rcases h.2.2.2 with h0 | h0 <;> simpa [h0] using this
  | .link items, h | .array items, h | .go _ items, h | .call _ _ items, h | .vec4 items, h | .mat4 items, h => by
    simp only [Plain] at h
    simp only [inferE, lists]
    exact infer_all items h
  | .object kvs, h => by
    simp only [Plain] at h
    simp only [inferE, lists]
    exact infer_kvs kvs h
  | .arrayFill a b, h => by
    simp only [Plain] at h
    simp only [inferE, lists]
    exact (infer_finds a h.1).or (infer_finds b h.2)
  | .block es, h => by
    simp only [Plain] at h
    simp only [inferE, lists]
    exact (infer_scope es h).scope
  | .for_ init cond step body _, h => by
    simp only [Plain] at h
    simp only [inferE, lists]
    exact (infer_finds init h.1).or ((infer_finds cond h.2.1).or ((infer_finds step h.2.2.1).or (infer_scope body h.2.2.2).scope))
  | .forN _ n start stop body _, h => by
    simp only [Plain] at h
    simp only [inferE, lists]
    by_cases hn : n = i
    · simp only [hn, if_true] at h ⊢
      simpa [h.1, h.2] using Finds.no
    · simp only [hn, if_false] at h ⊢
      exact .push h.1 (.scope ((infer_opt start h.2.1).or ((infer_finds stop h.2.2.1).or (infer_scope body h.2.2.2).scope)))
  | .forIn _ n iter body _, h => by
    simp only [Plain] at h
    simp only [inferE, lists]
    have := infer_finds iter h.1
    by_cases hn : n = i
    · simpa [hn] using this
    · simpa [hn, h.2 hn] using this
  | .ite cond thn elifs els, h => by
    simp only [Plain] at h
    simp only [inferE, lists]
    exact (infer_finds cond h.1).or ((infer_scope thn h.2.1).scope.or ((infer_elifs elifs h.2.2.1).or (infer_optScope els h.2.2.2)))
  | .ret e, h | .try_ e, h | .swizzle _ e, h | .tryExpr e, h => by
    simp only [Plain] at h
    simp only [inferE, lists]
    exact infer_finds e h
  | .callClosure (.mk n sid cur t ids tids) args, h => by
    simp only [Plain] at h
    simp only [inferE, inferItem, lists]
    exact (infer_ids _ 0 ids h.2.1).or (infer_all args h.2.2)
  | .retVoid, h | .brk _, h | .cont _, h | .const _, h | .closure .., h | .grab .., h | .in_ _, h => by
    simp only [inferE, lists]; exact Finds.no
theorem infer_ids {D : List String} {i : String} (it : Item) (k : Nat) :
    ∀ (ids : List Id), PlainIds D i ids → Finds D (inferIds i it k ids) (listsIds i it k ids)
  | [], _ => by simp only [inferIds, listsIds]; exact Finds.no
  | .str _ :: r, h => by
    simp only [PlainIds] at h; simp only [inferIds, listsIds]; exact infer_ids it (k + 1) r h
  | .num _ :: r, h => by
    simp only [PlainIds] at h; simp only [inferIds, listsIds]; exact infer_ids it (k + 1) r h
  | .expr e :: r, h => by
    simp only [PlainIds] at h
    simp only [inferIds, listsIds]
    have he := infer_finds e h.1
    cases hv : varOf e with
    | none =>
      have hp : isPlainVar i e = false := by cases e <;> first | rfl | cases hv
      rw [hv] at h
      simp only [hp, listsIds_none h.2, List.append_nil]
      exact he
    | some n =>
      rw [hv] at h
      have h2 := h.2
      intro d hd
      by_cases hn : n = i
      · have hp : isPlainVar i e = true := plain_var h.1 (hn ▸ hv)
        simp only [hn, hp, if_true]
        exact ⟨rfl, hd⟩
      · obtain ⟨h3, h4⟩ := h2 hn
        have hp : isPlainVar i e = false := by
          cases e <;> first | rfl | skip
          cases hv
          simp [isPlainVar, hn]
        have hnd : n ∉ d := fun hx => h3 (hd _ hx)
        simp only [hn, hnd, hp, if_false]
        exact (he.or (infer_ids it (k + 1) r h4)) d hd
theorem infer_all {D : List String} {i : String} : ∀ (es : List Expr), PlainAll D i es → Finds D (inferAll i es) (listsAll i es)
  | [], _ => by simp only [inferAll, listsAll]; exact Finds.no
  | e :: es, h => by
    simp only [PlainAll] at h; simp only [inferAll, listsAll]; exact (infer_finds e h.1).or (infer_all es h.2)
theorem infer_kvs {D : List String} {i : String} : ∀ (es : List (String × Expr)), PlainKVs D i es → Finds D (inferKVs i es) (listsKVs i es)
  | [], _ => by simp only [inferKVs, listsKVs]; exact Finds.no
  | (_, e) :: es, h => by
    simp only [PlainKVs] at h; simp only [inferKVs, listsKVs]; exact (infer_finds e h.1).or (infer_kvs es h.2)
theorem infer_scope {D : List String} {i : String} : ∀ (es : List Expr), PlainScope D i es → Finds D (inferBlock i es) (listsScope i es)
  | [], _ => by simp only [inferBlock, listsScope]; exact Finds.no
  | e :: es, h => by
    simp only [PlainScope] at h
    simp only [inferBlock, listsScope]
    cases ha : isAssign e with
    | false =>
      have hd : declaresVar i e = false := by cases e <;> first | rfl | cases ha
      simp only [ha, hd, if_false, Bool.false_eq_true] at h ⊢
      exact (infer_finds e h.1).or (infer_scope es h.2)
    | true =>
      simp only [ha, if_true] at h ⊢
      refine infer_assign e (inferBlock i es) (listsScope i es) ha h.1 fun hd => infer_scope es (h.2 hd)
theorem infer_assign {D : List String} {i : String} : ∀ (e : Expr) (rest : Inf) (l : List Item), isAssign e = true → PlainAssign D i e →
    (declaresVar i e = false → Finds D rest l) →
    Finds D (inferAssign i rest e) (lists i e ++ if declaresVar i e then [] else l)
  | .assign op l r, rest, ls, _, h, hr => by
    simp only [PlainAssign] at h
    simp only [inferAssign, lists, List.append_assoc]
    refine (infer_finds r h.2.1).or ?_
    have hl := infer_finds l h.1
    cases hv : varOf l with
    | none =>
      have hd : declaresVar i (.assign op l r) = false := by
        cases l <;> first | (cases op <;> rfl) | cases hv
      simp only [hd, if_false, Bool.false_eq_true]
      exact hl.or (hr hd)
    | some n =>
      obtain ⟨h1, h2⟩ := h.2.2 n hv
      by_cases hn : n = i
      · have hp := plain_var h.1 (hn ▸ hv)
        have hop := h1 hn
        cases l with
        | item it =>
          obtain ⟨m, sid, cur, t, ids, tids⟩ := it
          subst hop
          have hp : (decide (m = i) && ids.isEmpty) = true := hp
          simp only [Bool.and_eq_true, decide_eq_true_eq, List.isEmpty_iff] at hp
          obtain ⟨rfl, rfl⟩ := hp
          simp only [hn, if_true, declaresVar, Item.name, Item.ids, List.isEmpty_nil, decide_true, Bool.and_self, lists, listsIds]
          exact Finds.no
        | _ => cases hp
      · have hd : declaresVar i (.assign op l r) = false := by
          cases l <;> first | (cases op <;> rfl) | skip
          cases hv
          cases op <;> simp [declaresVar, hn]
        simp only [hd, hn, if_false, Bool.false_eq_true]
        by_cases hdl : isDecl op l = true
        · simp only [hdl, if_true]
          exact Finds.push (h2 hn hdl) (hl.or (hr hd))
        · simp only [hdl, if_false]
          exact hl.or (hr hd)
theorem infer_elifs {D : List String} {i : String} :
    ∀ (es : List (Expr × List Expr)), PlainElifs D i es → Finds D (inferElifs i es) (listsElifs i es)
  | [], _ => by simp only [inferElifs, listsElifs]; exact Finds.no
  | (c, b) :: es, h => by
    simp only [PlainElifs] at h; simp only [inferElifs, listsElifs]
    exact (infer_finds c h.1).or ((infer_scope b h.2.1).scope.or (infer_elifs es h.2.2))
theorem infer_optScope {D : List String} {i : String} :
    ∀ (b : Option (List Expr)), PlainOptScope D i b → Finds D (inferOptBlock i b) (listsOptScope i b)
  | none, _ => by simp only [inferOptBlock, listsOptScope]; exact Finds.no
  | some b, h => by
    simp only [PlainOptScope] at h; simp only [inferOptBlock, listsOptScope]; exact (infer_scope b h).scope
theorem infer_opt {D : List String} {i : String} :
    ∀ (e : Option Expr), PlainOpt D i e → Finds D (inferOpt i e) (listsOpt i e)
  | none, _ => by simp only [inferOpt, listsOpt]; exact Finds.no
  | some e, h => by
    simp only [PlainOpt] at h; simp only [inferOpt, listsOpt]; exact infer_finds e h
end

/-! ## Soundness for every body -/

/-- A search returns lists indexed by the variable only. -/
def Sound (i : String) (m : Inf) (l : List Item) : Prop := ∀ d r, (m d).1 = some r → Indexed i r l

theorem Sound.no {i l} : Sound i .no l := fun _ _ h => by cases h

theorem Indexed.mono {i r l l'} (h : Indexed i r l) (hl : ∀ x ∈ l, x ∈ l') : Indexed i r l' := by
  obtain ⟨it, h1, h2⟩ := h
  exact ⟨it, hl it h1, h2⟩

theorem Sound.or {i a b la lb} (ha : Sound i a la) (hb : Sound i b lb) : Sound i (.or a b) (la ++ lb) := by
  intro d r h
  unfold Inf.or at h
  cases hm : a d with
  | mk r' d' =>
    rw [hm] at h
    cases r' with
    | none => exact Indexed.mono (hb d' r h) fun x hx => List.mem_append_right _ hx
    | some r' =>
      refine Indexed.mono (ha d r ?_) fun x hx => List.mem_append_left _ hx
      rw [hm]; exact h

theorem Sound.mono {i a l l'} (h : Sound i a l) (hl : ∀ x ∈ l, x ∈ l') : Sound i a l' := fun d r hr =>
  Indexed.mono (h d r hr) hl

theorem Sound.scope {i a l} (h : Sound i a l) : Sound i (.scope a) l := fun d r hr => h d r hr
theorem Sound.push {i a l n} (h : Sound i a l) : Sound i (.push n a) l := fun d r hr => h _ r hr

mutual
theorem sound {i : String} : ∀ (e : Expr), Sound i (inferE i e) (items e)
  | .item (.mk n sid cur t ids tids) => by
    simp only [inferE, inferItem, items]
    exact sound_ids _ 0 ids (by simp [Item.ids])
  | .assign op l r => by
    simp only [inferE, items]; exact (sound l).or (sound r)
  | .link items | .array items | .go _ items | .call _ _ items | .vec4 items | .mat4 items => by
    simp only [inferE, Spec.items]; exact sound_all items
  | .object kvs => by simp only [inferE, items]; exact sound_kvs kvs
  | .arrayFill a b => by simp only [inferE, items]; exact (sound a).or (sound b)
  | .block es => by simp only [inferE, items]; exact (sound_block es).scope
  | .for_ init cond step body _ => by
    simp only [inferE, items]; exact (sound init).or ((sound cond).or ((sound step).or (sound_block body).scope))
  | .forN _ n start stop body _ => by
    simp only [inferE, items]
    by_cases hn : n = i
    · simp only [hn, if_true]; exact Sound.no
    · simp only [hn, if_false]
      exact .push (.scope ((sound_opt start).or ((sound stop).or (sound_block body).scope)))
  | .forIn _ n iter body _ => by
    simp only [inferE, items]; exact (sound iter).mono fun x hx => List.mem_append_left _ hx
  | .ite cond thn elifs els => by
    simp only [inferE, items]
    exact (sound cond).or ((sound_block thn).scope.or ((sound_elifs elifs).or (sound_optBlock els)))
  | .ret e | .try_ e | .swizzle _ e | .tryExpr e => by simp only [inferE, items]; exact sound e
  | .callClosure (.mk n sid cur t ids tids) args => by
    simp only [inferE, inferItem, items]
    rw [← List.cons_append]
    exact (sound_ids _ 0 ids (by simp [Item.ids])).or (sound_all args)
  | .retVoid | .brk _ | .cont _ | .const _ | .closure .. | .grab .. | .in_ _ => by simp only [inferE]; exact Sound.no
theorem sound_ids {i : String} (it : Item) (k : Nat) :
    ∀ (ids : List Id), it.ids.drop k = ids → Sound i (inferIds i it k ids) (it :: itemsIds ids)
  | [], _ => by simp only [inferIds]; exact Sound.no
  | .str _ :: r, h => by
    simp only [inferIds, itemsIds]; exact sound_ids it (k + 1) r (by rw [← List.drop_drop, h]; rfl)
  | .num _ :: r, h => by
    simp only [inferIds, itemsIds]; exact sound_ids it (k + 1) r (by rw [← List.drop_drop, h]; rfl)
  | .expr e :: r, h => by
    simp only [inferIds, itemsIds]
    have he := sound (i := i) e
    have hr := sound_ids (i := i) it (k + 1) r (by rw [← List.drop_drop, h]; rfl)
    have hm : ∀ x ∈ items e, x ∈ it :: (items e ++ itemsIds r) := fun x hx =>
      List.mem_cons_of_mem _ (List.mem_append_left _ hx)
    intro d res hres
    cases hv : varOf e with
    | none => rw [hv] at hres; exact Indexed.mono (he d res hres) hm
    | some n =>
      rw [hv] at hres
      simp only at hres
      by_cases hn : n = i
      · simp only [hn, if_true, Option.some.injEq] at hres
        subst hres
        cases e with
        | item j =>
          simp only [varOf, Option.some.injEq] at hv
          refine ⟨it, List.mem_cons_self, k, j, ?_, hv.trans hn, rfl⟩
          have := congrArg List.head? h
          rwa [List.head?_drop] at this
        | _ => cases hv
      · simp only [hn, if_false] at hres
        by_cases hd : n ∈ d
        · simp only [hd, if_true] at hres; cases hres
        · simp only [hd, if_false] at hres
          refine Indexed.mono (he.or hr d res hres) fun x hx => ?_
          simp only [List.mem_append, List.mem_cons] at hx ⊢
          tauto
theorem sound_all {i : String} : ∀ (es : List Expr), Sound i (inferAll i es) (itemsAll es)
  | [] => by simp only [inferAll]; exact Sound.no
  | e :: es => by simp only [inferAll, itemsAll]; exact (sound e).or (sound_all es)
theorem sound_kvs {i : String} : ∀ (es : List (String × Expr)), Sound i (inferKVs i es) (itemsKVs es)
  | [] => by simp only [inferKVs]; exact Sound.no
  | (_, e) :: es => by simp only [inferKVs, itemsKVs]; exact (sound e).or (sound_kvs es)
theorem sound_block {i : String} : ∀ (es : List Expr), Sound i (inferBlock i es) (itemsAll es)
  | [] => by simp only [inferBlock]; exact Sound.no
  | e :: es => by
    simp only [inferBlock, itemsAll]
    cases ha : isAssign e with
    | false => simp only [Bool.false_eq_true, if_false]; exact (sound e).or (sound_block es)
    | true => simp only [if_true]; exact sound_assign e _ _ (sound_block es)
theorem sound_assign {i : String} : ∀ (e : Expr) (rest : Inf) (l : List Item), Sound i rest l →
    Sound i (inferAssign i rest e) (items e ++ l)
  | .assign op l r, rest, ls, hr => by
    simp only [inferAssign, items]
    have h1 := sound (i := i) l
    refine Sound.mono ((sound r).or (lb := items l ++ ls) ?_) fun x hx => by
      simp only [List.mem_append] at hx ⊢; tauto
    intro d res hres
    cases hv : varOf l with
    | none => rw [hv] at hres; exact (h1.or hr) d res hres
    | some n =>
      rw [hv] at hres
      simp only at hres
      by_cases hn : n = i
      · simp only [hn, if_true] at hres; cases hres
      · simp only [hn, if_false] at hres
        by_cases hd : isDecl op l = true
        · simp only [hd, if_true] at hres; exact (h1.or hr).push d res hres
        · simp only [hd, if_false] at hres; exact (h1.or hr) d res hres
  | .link .., _, _, _ | .array .., _, _, _ | .go .., _, _, _ | .call .., _, _, _ | .vec4 .., _, _, _ | .mat4 .., _, _, _
  | .object .., _, _, _ | .arrayFill .., _, _, _ | .block .., _, _, _ | .for_ .., _, _, _ | .forN .., _, _, _
  | .forIn .., _, _, _ | .ite .., _, _, _ | .ret .., _, _, _ | .try_ .., _, _, _ | .swizzle .., _, _, _
  | .tryExpr .., _, _, _ | .callClosure .., _, _, _ | .retVoid, _, _, _ | .brk .., _, _, _ | .cont .., _, _, _
  | .const .., _, _, _ | .closure .., _, _, _ | .grab .., _, _, _ | .in_ .., _, _, _ | .item .., _, _, _ => by
    simp only [inferAssign]; exact Sound.no
theorem sound_elifs {i : String} : ∀ (es : List (Expr × List Expr)), Sound i (inferElifs i es) (itemsElifs es)
  | [] => by simp only [inferElifs]; exact Sound.no
  | (c, b) :: es => by
    simp only [inferElifs, itemsElifs]; exact (sound c).or ((sound_block b).scope.or (sound_elifs es))
theorem sound_optBlock {i : String} : ∀ (b : Option (List Expr)), Sound i (inferOptBlock i b) (itemsOptAll b)
  | none => by simp only [inferOptBlock]; exact Sound.no
  | some b => by simp only [inferOptBlock, itemsOptAll]; exact (sound_block b).scope
theorem sound_opt {i : String} : ∀ (e : Option Expr), Sound i (inferOpt i e) (itemsOpt e)
  | none => by simp only [inferOpt]; exact Sound.no
  | some e => by simp only [inferOpt, itemsOpt]; exact sound e
end

/-! ## The property -/

/-- `len(list)`. -/
def lenOf (it : Item) : Expr := .call .none "len" [.item it]

/-- **C41** (every body). An inferred range is `len(list)` where `list` is indexed by the loop
variable somewhere in the body. -/
theorem C41_sound (body : List Expr) (i : String) {e : Expr} (h : infer body i = some e) :
    ∃ list, e = lenOf list ∧ Indexed i list (itemsAll body) := by
  unfold infer at h
  obtain ⟨it, h1, rfl⟩ := Option.map_eq_some_iff.1 h
  exact ⟨it, rfl, (sound_block body).scope [] it h1⟩

/-- **C41** (bodies in which index variables are not declared, see `Plain`). The inferred
range is the length of the first list indexed by the loop variable, and without such a
list the loop is refused. -/
theorem C41_first_partial (body : List Expr) (i : String) {D : List String} (h : PlainScope D i body) :
    infer body i = (listsScope i body).head?.map lenOf := by
  unfold infer
  rw [((infer_scope body h).scope [] (by simp)).1]
  rfl

/-- **C41** (a loop). The loop over the one variable `i`: a given range is kept, a missing
one is inferred, and without a list to infer it from the loop is refused. -/
theorem C41_loop (k : ForKind) (label : Option String) (i : String) (start stop : Option Expr) (body : List Expr)
    {D : List String} (h : PlainScope D i body) :
    createForN k label [(i, start, stop)] body =
      match stop, (listsScope i body).head? with
      | some e, _ => some (.forN k i start e body label)
      | none, some list => some (.forN k i start (lenOf list) body label)
      | none, none => none := by
  simp only [createForN, C41_first_partial body i h]
  cases stop with
  | some e => rfl
  | none => cases (listsScope i body).head? <;> rfl

/-- **C41** (a loop over several variables). `for i, j, .. { .. }` is a loop over `i` around the
loop over `j, ..`; a missing range of `i` is that of the first list indexed by `i` in the loop
over `j, ..`, which may be in one of its ranges. -/
theorem C41_loops (k : ForKind) (label : Option String) (i : String) (start stop : Option Expr)
    (x : String × Option Expr × Option Expr) (rest : List (String × Option Expr × Option Expr)) (body : List Expr)
    {D : List String} (h : ∀ inner, createForN k none (x :: rest) body = some inner → PlainScope D i [inner]) :
    createForN k label ((i, start, stop) :: x :: rest) body =
      match createForN k none (x :: rest) body with
      | none => none
      | some inner => match stop, (listsScope i [inner]).head? with
        | some e, _ => some (.forN k i start e [inner] label)
        | none, some list => some (.forN k i start (lenOf list) [inner] label)
        | none, none => none := by
  rw [createForN]
  · cases hx : createForN k none (x :: rest) body with
    | none => rfl
    | some inner =>
      simp only [Option.bind_eq_bind, Option.bind_some, C41_first_partial [inner] i (h inner hx)]
      cases stop with
      | some e => rfl
      | none => cases (listsScope i [inner]).head? <;> rfl
  · simp

/-! ### Examples -/

/-- A variable. -/
def v (n : String) : Expr := .item (.mk n none false false [] [])
/-- `n[..][..]` -/
def at' (n : String) (ids : List Expr) : Item := .mk n none false false (ids.map .expr) []

/-- `for i { x := 0  y := b[0]  z := a.k[i] + c[i] }` is over `a.k`. -/
example : createForN .forN none [("i", none, none)]
    [.assign .assign (v "x") (.const (.ofF64 F64.zero)), .assign .assign (v "y") (.item (.mk "b" none false false [.num F64.zero] [])),
     .assign .assign (v "z") (.call .none "add" [.item (.mk "a" none false false [.str "k", .expr (v "i")] []), .item (at' "c" [v "i"])])] =
    some (.forN .forN "i" none (lenOf (.mk "a" none false false [.str "k"] []))
    [.assign .assign (v "x") (.const (.ofF64 F64.zero)), .assign .assign (v "y") (.item (.mk "b" none false false [.num F64.zero] [])),
     .assign .assign (v "z") (.call .none "add" [.item (.mk "a" none false false [.str "k", .expr (v "i")] []), .item (at' "c" [v "i"])])]
      none) := by
  rw [C41_loop (D := ["x", "y", "z"])]
  · simp [listsScope, lists, listsIds, listsAll, v, at', declaresVar, isPlainVar, Item.name, Item.ids, truncItem]
  · simp [PlainScope, PlainAssign, Plain, PlainIds, PlainAll, v, at', declaresVar, isAssign, isDecl, varOf, Item.name, Item.ids]

/-- `for i, j { x += a[i][j] }` is `for i len(a) { for j len(a[i]) { .. } }`. -/
example : createForN .sum none [("i", none, none), ("j", none, none)] [.item (at' "a" [v "i", v "j"])] =
    some (.forN .sum "i" none (lenOf (at' "a" []))
      [.forN .sum "j" none (lenOf (at' "a" [v "i"])) [.item (at' "a" [v "i", v "j"])] none] none) := by
  simp [createForN, infer, inferBlock, inferE, inferItem, inferIds, inferAll, inferOpt, Inf.or, Inf.no, Inf.scope, Inf.push, isAssign,
    varOf, v, at', Item.name, lenOf, truncItem]

/-! ### Findings -/

section
open Spec

/-- **Finding (C41).** `for i { x := e  y := x[i] }`: the list is declared inside the loop,
and the range is its length, which means another variable or nothing outside the loop. -/
theorem C41_declared_inside (e : Expr) (hp : (inferE "i" e []) = (none, [])) :
    infer [.assign .assign (v "x") e, .assign .assign (v "y") (.item (at' "x" [v "i"]))] "i" = some (lenOf (at' "x" [])) := by
  simp [infer, inferBlock, inferAssign, inferE, inferItem, inferIds, Inf.or, Inf.no, Inf.scope, Inf.push, isAssign, isDecl,
    varOf, v, at', Item.name, Item.ids, lenOf, truncItem, hp]

example : inferE "i" (.const (.array [])) [] = (none, []) := by simp [inferE, Inf.no]

/-- **Finding (C41).** `for i { k := 0  y := a[b[k]][i] }`: the range is `len(a[b[k]])`, with
the `k` declared inside the loop: names inside the properties of an index are not checked. -/
theorem C41_nested_index :
    infer [.assign .assign (v "k") (.const (.ofF64 F64.zero)),
      .assign .assign (v "y") (.item (at' "a" [.item (at' "b" [v "k"]), v "i"]))] "i" =
      some (lenOf (at' "a" [.item (at' "b" [v "k"])])) := by
  simp [infer, inferBlock, inferAssign, inferE, inferItem, inferIds, Inf.or, Inf.no, Inf.scope, Inf.push, isAssign, isDecl,
    varOf, v, at', Item.name, Item.ids, lenOf, truncItem]

/-- **Finding (C41).** `for i { k := 0  y := a[b[k][i]][i] }`: the range mentions the loop
variable itself. -/
theorem C41_own_variable :
    infer [.assign .assign (v "k") (.const (.ofF64 F64.zero)),
      .assign .assign (v "y") (.item (at' "a" [.item (at' "b" [v "k", v "i"]), v "i"]))] "i" =
      some (lenOf (at' "a" [.item (at' "b" [v "k", v "i"])])) := by
  simp [infer, inferBlock, inferAssign, inferE, inferItem, inferIds, Inf.or, Inf.no, Inf.scope, Inf.push, isAssign, isDecl,
    varOf, v, at', Item.name, Item.ids, lenOf, truncItem]

/-- **Finding (C41).** `for i { for i := 0; c; s { y := a[i] } }`: the inner `for` loop
declares another `i`, and the list it indexes is taken for the outer loop. -/
theorem C41_for_shadows (c s : Expr) (hc : ∀ d, inferE "i" c d = (none, d)) (hs : ∀ d, inferE "i" s d = (none, d)) :
    infer [.for_ (.assign .assign (v "i") (.const (.ofF64 F64.zero))) c s [.item (at' "a" [v "i"])] none] "i" =
      some (lenOf (at' "a" [])) := by
  simp [infer, inferBlock, inferE, inferItem, inferIds, Inf.or, Inf.no, Inf.scope, isAssign,
    varOf, v, at', Item.name, lenOf, truncItem, hc, hs]

/-- **Finding (C41).** `for i { for j 3 {}  y := a[j][i] }`: the name of a finished inner loop
still counts as declared, and the loop is refused although `a[j]` is declared outside. -/
theorem C41_loop_name_leaks (three : F64) :
    infer [.forN .forN "j" none (.const (.ofF64 three)) [] none, .assign .assign (v "y") (.item (at' "a" [v "j", v "i"]))] "i" =
      none := by
  simp [infer, inferBlock, inferAssign, inferE, inferItem, inferIds, inferOpt, Inf.or, Inf.no, Inf.scope, Inf.push, isAssign,
    isDecl, varOf, v, at', Item.name, Item.ids]

/-- **Finding (C41).** `for i { y := a[x + 1][i] }` is refused: properties after a computed
index are not looked at. -/
theorem C41_computed_index (one : F64) :
    infer [.assign .assign (v "y") (.item (at' "a" [.call .none "add" [v "x", .const (.ofF64 one)], v "i"]))] "i" = none := by
  simp [infer, inferBlock, inferAssign, inferE, inferItem, inferIds, inferAll, Inf.or, Inf.no, Inf.scope, Inf.push, isAssign, isDecl,
    varOf, v, at', Item.name, Item.ids]

/-- **Finding (C41).** Lists indexed only in the body of a channel loop are not found. -/
theorem C41_channel_body (body : List Expr) (it : Expr) (hit : ∀ d, inferE "i" it d = (none, d)) :
    infer [.forIn .forIn "m" it body none] "i" = none := by
  simp [infer, inferBlock, inferE, Inf.or, Inf.no, Inf.scope, isAssign, hit]

end

end Dyon.Syn
