import Verif.Syntax.Unloop

/-! # C40: the copies have the number in place of the name, respecting shadowing -/

namespace Dyon.Syn

/-! ## Specification -/

namespace Spec

/-- `i := ..`. -/
def declares (i : String) : Expr → Bool
  | .assign .assign (.item it) _ => it.name = i && it.ids.isEmpty
  | _ => false

mutual
/-- `e` with `v` in place of every `i` that is not bound inside `e`. The scope of a
declaration is the rest of its block or of its link, the scope of the name of a loop is
the body of the loop, and a declaration at the head of a `for` loop holds for the whole
loop. A closure does not see the variables around it. -/
def inst (i : String) (v : Expr) : Expr → Expr
  | .item (.mk n sid cur t ids tids) =>
    if n = i ∧ ids = [] ∧ t = false then v else .item (.mk n sid cur t (instIds i v ids) tids)
  | .link items => .link (instScope i v items)
  | .block es => .block (instScope i v es)
  | .assign op l r =>
    if declares i (.assign op l r) then .assign op l (inst i v r) else .assign op (inst i v l) (inst i v r)
  | .object kvs => .object (instKVs i v kvs)
  | .call f n args => .call f n (instAll i v args)
  | .array items => .array (instAll i v items)
  | .arrayFill fill n => .arrayFill (inst i v fill) (inst i v n)
  | .ret e => .ret (inst i v e)
  | .retVoid => .retVoid
  | .brk l => .brk l
  | .cont l => .cont l
  | .go n args => .go n (instAll i v args)
  | .vec4 args => .vec4 (instAll i v args)
  | .mat4 args => .mat4 (instAll i v args)
  | .for_ init cond step body label =>
    if declares i init then .for_ (inst i v init) cond step body label
    else .for_ (inst i v init) (inst i v cond) (inst i v step) (instScope i v body) label
  | .forN k n start stop body label =>
    .forN k n (instOpt i v start) (inst i v stop) (if n = i then body else instScope i v body) label
  | .forIn k n iter body label =>
    .forIn k n (inst i v iter) (if n = i then body else instScope i v body) label
  | .ite cond thn elifs els =>
    .ite (inst i v cond) (instScope i v thn) (instElifs i v elifs) (instOptScope i v els)
  | .const w => .const w
  | .try_ e => .try_ (inst i v e)
  | .swizzle sel e => .swizzle sel (inst i v e)
  | .closure args cur r f e => .closure args cur r f e
  | .callClosure (.mk n sid cur t ids tids) args =>
    .callClosure (.mk n sid cur t (instIds i v ids) tids) (instAll i v args)
  | .grab l e => .grab l (inst i v e)
  | .tryExpr e => .tryExpr (inst i v e)
  | .in_ f => .in_ f
/-- Parts without declarations. -/
def instAll (i : String) (v : Expr) : List Expr → List Expr
  | [] => []
  | e :: es => inst i v e :: instAll i v es
/-- Statements: a declaration binds the name in the statements after it. -/
def instScope (i : String) (v : Expr) : List Expr → List Expr
  | [] => []
  | e :: es => inst i v e :: if declares i e then es else instScope i v es
/-- Values of an object. -/
def instKVs (i : String) (v : Expr) : List (String × Expr) → List (String × Expr)
  | [] => []
  | (k, e) :: es => (k, inst i v e) :: instKVs i v es
/-- Properties. -/
def instIds (i : String) (v : Expr) : List Id → List Id
  | [] => []
  | .expr e :: r => .expr (inst i v e) :: instIds i v r
  | .str s :: r => .str s :: instIds i v r
  | .num x :: r => .num x :: instIds i v r
/-- Branches. -/
def instElifs (i : String) (v : Expr) : List (Expr × List Expr) → List (Expr × List Expr)
  | [] => []
  | (c, b) :: es => (inst i v c, instScope i v b) :: instElifs i v es
/-- The last branch. -/
def instOptScope (i : String) (v : Expr) : Option (List Expr) → Option (List Expr)
  | none => none
  | some b => some (instScope i v b)
/-- The start of a loop. -/
def instOpt (i : String) (v : Expr) : Option Expr → Option Expr
  | none => none
  | some e => some (inst i v e)
end

/-- `i` is not used in `e`, or only where it is bound. -/
def Unused (i : String) (e : Expr) : Prop := ∀ v, inst i v e = e

mutual
/-- What the copies need: `i` is used as a plain variable that is never assigned to; a
declaration of `i` is a statement of a block or the head of a `for` loop; no channel loop
is named `i`; the range of a counting loop named `i` does not use `i`; no closure uses `i`,
and neither does the closure part of a call. -/
def Tame (i : String) : Expr → Prop
  | .item (.mk n _ _ t ids _) => (n = i → ids = [] ∧ t = false) ∧ TameIds i ids
  | .link items => TameAll i items
  | .block es => TameScope i es
  | .assign _ l r => assigns i (.assign .assign l r) = false ∧ Tame i l ∧ Tame i r
  | .object kvs => TameKVs i kvs
  | .call _ _ args => TameAll i args
  | .array items => TameAll i items
  | .arrayFill fill n => Tame i fill ∧ Tame i n
  | .ret e => Tame i e
  | .retVoid => True
  | .brk _ => True
  | .cont _ => True
  | .go _ args => TameAll i args
  | .vec4 args => TameAll i args
  | .mat4 args => TameAll i args
  | .for_ init cond step body _ => TameStmt i init ∧ (declares i init = false → Tame i cond ∧ Tame i step ∧ TameScope i body)
  | .forN _ n start stop body _ =>
    if n = i then Unused i stop ∧ ∀ s, start = some s → Unused i s
    else TameOpt i start ∧ Tame i stop ∧ TameScope i body
  | .forIn _ n iter body _ => n ≠ i ∧ Tame i iter ∧ TameScope i body
  | .ite cond thn elifs els => Tame i cond ∧ TameScope i thn ∧ TameElifs i elifs ∧ TameOptScope i els
  | .const _ => True
  | .try_ e => Tame i e
  | .swizzle _ e => Tame i e
  | .closure _ _ _ _ e => Unused i e
  | .callClosure (.mk n _ _ _ ids _) args => n ≠ i ∧ UnusedIds i ids ∧ TameAll i args
  | .grab _ e => Tame i e
  | .tryExpr e => Tame i e
  | .in_ _ => True
/-- Parts. -/
def TameAll (i : String) : List Expr → Prop
  | [] => True
  | e :: es => Tame i e ∧ TameAll i es
/-- A statement. -/
def TameStmt (i : String) : Expr → Prop
  | .assign op l r =>
    if declares i (.assign op l r) then Tame i r
    else assigns i (.assign op l r) = false ∧ Tame i l ∧ Tame i r
  | e => Tame i e
/-- Statements. -/
def TameScope (i : String) : List Expr → Prop
  | [] => True
  | e :: es => TameStmt i e ∧ (declares i e = false → TameScope i es)
/-- Values of an object. -/
def TameKVs (i : String) : List (String × Expr) → Prop
  | [] => True
  | (_, e) :: es => Tame i e ∧ TameKVs i es
/-- Properties. -/
def TameIds (i : String) : List Id → Prop
  | [] => True
  | .expr e :: r => Tame i e ∧ TameIds i r
  | .str _ :: r => TameIds i r
  | .num _ :: r => TameIds i r
/-- Properties that do not use `i`. -/
def UnusedIds (i : String) : List Id → Prop
  | [] => True
  | .expr e :: r => Unused i e ∧ UnusedIds i r
  | .str _ :: r => UnusedIds i r
  | .num _ :: r => UnusedIds i r
/-- Branches. -/
def TameElifs (i : String) : List (Expr × List Expr) → Prop
  | [] => True
  | (c, b) :: es => Tame i c ∧ TameScope i b ∧ TameElifs i es
/-- The last branch. -/
def TameOptScope (i : String) : Option (List Expr) → Prop
  | none => True
  | some b => TameScope i b
/-- The start of a loop. -/
def TameOpt (i : String) : Option Expr → Prop
  | none => True
  | some e => Tame i e
end

end Spec

open Spec

theorem declares_assigns {i : String} {e : Expr} (h : declares i e = true) : assigns i e = true := by
  unfold declares at h
  split at h
  · simp only [Bool.and_eq_true, decide_eq_true_eq] at h
    simp [assigns, h.1]
  · cases h

theorem declares_false {i : String} {e : Expr} (h : assigns i e = false) : declares i e = false := by
  cases hd : declares i e with
  | false => rfl
  | true => rw [declares_assigns hd] at h; cases h

theorem assigns_op {i : String} {op op' : AssignOp} {l r r' : Expr} : assigns i (.assign op l r) = assigns i (.assign op' l r') := by
  cases l <;> rfl

theorem unusedIds_eq {i : String} {v : Expr} : ∀ {ids : List Id}, UnusedIds i ids → instIds i v ids = ids := by
  intro ids
  induction ids with
  | nil => intro _; simp [instIds]
  | cons x xs ih =>
    intro h
    cases x <;> simp only [UnusedIds] at h <;> simp only [instIds]
    · rw [ih h]
    · rw [ih h]
    · rw [h.1, ih h.2]

theorem tameStmt_of {i : String} {e : Expr} (h : TameStmt i e) (hd : declares i e = false) : assigns i e = false ∧ Tame i e := by
  cases e with
  | assign op l r =>
    simp only [TameStmt, hd, Bool.false_eq_true, if_false] at h
    exact ⟨h.1, by simp only [Tame]; exact ⟨assigns_op.trans h.1, h.2⟩⟩
  | _ => exact ⟨rfl, by simpa [TameStmt] using h⟩

section
variable {i : String} {x : F64}

mutual
theorem number_inst : ∀ (e : Expr), Tame i e → number i x e = inst i (.const (.ofF64 x)) e
  | .item (.mk n sid cur t ids tids), h => by
    simp only [Tame] at h
    simp only [number, inst]
    by_cases hn : n = i
    · simp [hn, h.1 hn]
    · simp [hn, numberIds_inst ids h.2]
  | .link items, h => by
    simp only [Tame] at h
    simp only [number, inst, numberLink_inst items h]
  | .block es, h => by
    simp only [Tame] at h
    simp only [number, inst, numberBlock_inst es h]
  | .assign op l r, h => by
    simp only [Tame] at h
    have hd := declares_false (assigns_op.trans h.1 : assigns i (.assign op l r) = false)
    simp only [number, inst, hd, Bool.false_eq_true, if_false, number_inst l h.2.1, number_inst r h.2.2]
  | .object kvs, h => by
    simp only [Tame] at h
    simp only [number, inst, numberKVs_inst kvs h]
  | .call f n args, h => by
    simp only [Tame] at h
    simp only [number, inst, numberList_inst args h]
  | .array items, h => by
    simp only [Tame] at h
    simp only [number, inst, numberList_inst items h]
  | .arrayFill fill n, h => by
    simp only [Tame] at h
    simp only [number, inst, number_inst fill h.1, number_inst n h.2]
  | .ret e, h => by
    simp only [Tame] at h
    simp only [number, inst, number_inst e h]
  | .retVoid, _ => by simp only [number, inst]
  | .brk l, _ => by simp only [number, inst]
  | .cont l, _ => by simp only [number, inst]
  | .go n args, h => by
    simp only [Tame] at h
    simp only [number, inst, numberList_inst args h]
  | .vec4 args, h => by
    simp only [Tame] at h
    simp only [number, inst, numberList_inst args h]
  | .mat4 args, h => by
    simp only [Tame] at h
    simp only [number, inst, numberList_inst args h]
  | .for_ init cond step body label, h => by
    simp only [Tame] at h
    simp only [number, inst]
    cases hd : declares i init with
    | true =>
      rw [if_pos (declares_assigns hd), if_pos rfl, numberRight_inst init h.1 hd]
    | false =>
      obtain ⟨h1, h2⟩ := tameStmt_of h.1 hd
      obtain ⟨h3, h4, h5⟩ := h.2 hd
      simp only [h1, Bool.false_eq_true, if_false, number_inst init h2, number_inst cond h3, number_inst step h4,
        numberBlock_inst body h5]
  | .forN k n start stop body label, h => by
    simp only [Tame] at h
    simp only [number, inst]
    by_cases hn : n = i
    · simp only [hn, if_true] at h ⊢
      rw [h.1]
      cases start with
      | none => simp [instOpt]
      | some s => simp [instOpt, h.2 s rfl _]
    · simp only [hn, if_false] at h ⊢
      simp only [numberOpt_inst start h.1, number_inst stop h.2.1, numberBlock_inst body h.2.2]
  | .forIn k n iter body label, h => by
    simp only [Tame] at h
    simp only [number, inst, h.1, if_false, number_inst iter h.2.1, numberBlock_inst body h.2.2]
  | .ite cond thn elifs els, h => by
    simp only [Tame] at h
    simp only [number, inst, number_inst cond h.1, numberBlock_inst thn h.2.1, numberElifs_inst elifs h.2.2.1,
      numberOptBlock_inst els h.2.2.2]
  | .const w, _ => by simp only [number, inst]
  | .try_ e, h => by
    simp only [Tame] at h
    simp only [number, inst, number_inst e h]
  | .swizzle sel e, h => by
    simp only [Tame] at h
    simp only [number, inst, number_inst e h]
  | .closure args cur r f e, _ => by simp only [number, inst]
  | .callClosure (.mk n sid cur t ids tids) args, h => by
    simp only [Tame] at h
    simp only [number, inst, unusedIds_eq h.2.1, numberList_inst args h.2.2]
  | .grab l e, h => by
    simp only [Tame] at h
    simp only [number, inst, number_inst e h]
  | .tryExpr e, h => by
    simp only [Tame] at h
    simp only [number, inst, number_inst e h]
  | .in_ f, _ => by simp only [number, inst]
theorem numberList_inst : ∀ (es : List Expr), TameAll i es → numberList i x es = instAll i (.const (.ofF64 x)) es
  | [], _ => by simp only [numberList, instAll]
  | e :: es, h => by
    simp only [TameAll] at h
    simp only [numberList, instAll, number_inst e h.1, numberList_inst es h.2]
theorem numberLink_inst : ∀ (es : List Expr), TameAll i es → numberList i x es = instScope i (.const (.ofF64 x)) es
  | [], _ => by simp only [numberList, instScope]
  | e :: es, h => by
    simp only [TameAll] at h
    have hd : declares i e = false := by
      cases e with
      | assign op l r =>
        have := h.1
        simp only [Tame] at this
        exact declares_false (assigns_op.trans this.1)
      | _ => rfl
    simp only [numberList, instScope, hd, Bool.false_eq_true, if_false, number_inst e h.1, numberLink_inst es h.2]
theorem numberKVs_inst : ∀ (es : List (String × Expr)), TameKVs i es → numberKVs i x es = instKVs i (.const (.ofF64 x)) es
  | [], _ => by simp only [numberKVs, instKVs]
  | (k, e) :: es, h => by
    simp only [TameKVs] at h
    simp only [numberKVs, instKVs, number_inst e h.1, numberKVs_inst es h.2]
theorem numberIds_inst : ∀ (es : List Id), TameIds i es → numberIds i x es = instIds i (.const (.ofF64 x)) es
  | [], _ => by simp only [numberIds, instIds]
  | .expr e :: es, h => by
    simp only [TameIds] at h
    simp only [numberIds, instIds, number_inst e h.1, numberIds_inst es h.2]
  | .str s :: es, h => by
    simp only [TameIds] at h
    simp only [numberIds, instIds, numberIds_inst es h]
  | .num s :: es, h => by
    simp only [TameIds] at h
    simp only [numberIds, instIds, numberIds_inst es h]
theorem numberRight_inst : ∀ (e : Expr), TameStmt i e → declares i e = true →
    numberRight i x e = inst i (.const (.ofF64 x)) e
  | .assign op l r, h, hd => by
    simp only [TameStmt, hd, if_true] at h
    simp only [numberRight, inst, hd, if_true, number_inst r h]
theorem numberBlock_inst : ∀ (es : List Expr), TameScope i es → numberBlock i x es = instScope i (.const (.ofF64 x)) es
  | [], _ => by simp only [numberBlock, instScope]
  | e :: es, h => by
    simp only [TameScope] at h
    simp only [numberBlock, instScope]
    cases hd : declares i e with
    | true => rw [if_pos (declares_assigns hd), if_pos rfl, numberRight_inst e h.1 hd]
    | false =>
      obtain ⟨h1, h2⟩ := tameStmt_of h.1 hd
      simp only [h1, Bool.false_eq_true, if_false, number_inst e h2, numberBlock_inst es (h.2 hd)]
theorem numberElifs_inst : ∀ (es : List (Expr × List Expr)), TameElifs i es →
    numberElifs i x es = instElifs i (.const (.ofF64 x)) es
  | [], _ => by simp only [numberElifs, instElifs]
  | (c, b) :: es, h => by
    simp only [TameElifs] at h
    simp only [numberElifs, instElifs, number_inst c h.1, numberBlock_inst b h.2.1, numberElifs_inst es h.2.2]
theorem numberOptBlock_inst : ∀ (b : Option (List Expr)), TameOptScope i b →
    numberOptBlock i x b = instOptScope i (.const (.ofF64 x)) b
  | none, _ => by simp only [numberOptBlock, instOptScope]
  | some b, h => by
    simp only [TameOptScope] at h
    simp only [numberOptBlock, instOptScope, numberBlock_inst b h]
theorem numberOpt_inst : ∀ (b : Option Expr), TameOpt i b → numberOpt i x b = instOpt i (.const (.ofF64 x)) b
  | none, _ => by simp only [numberOpt, instOpt]
  | some b, h => by
    simp only [TameOpt] at h
    simp only [numberOpt, instOpt, number_inst b h]
end

end

/-- `vec4 i e`, `vec3 i e` and `vec2 i e` are the vector literals whose `k`-th component is
`e` with the number `k` in place of `i`, as far as shadowing allows; the components beyond
the length are zero. -/
theorem C40_unloop_partial {i : String} {e : Expr} (h : Tame i e) {len : Nat} (hlen : 2 ≤ len) :
    ∃ args, unloop len i e = .vec4 args ∧ args.length = 4 ∧
      ∀ (k : Nat), k < 4 → args[k]? = some (if k < len then inst i (.const (.ofF64 (F64.ofNat k))) e
        else .const (.ofF64 (F64.ofNat 0))) := by
  refine ⟨_, rfl, rfl, fun k hk => ?_⟩
  match k, hk with
  | 0, _ =>
    have h0 : 0 < len := by omega
    rw [if_pos h0, ← number_inst e h]; rfl
  | 1, _ =>
    have h1 : 1 < len := by omega
    rw [if_pos h1, ← number_inst e h]; rfl
  | 2, _ =>
    rw [← number_inst e h]
    by_cases hl : 2 < len <;> simp [hl] <;> rfl
  | 3, _ =>
    rw [← number_inst e h]
    by_cases hl : 3 < len <;> simp [hl] <;> rfl

/-- A variable without properties. -/
def plainVar (n : String) : Expr := .item (.mk n none false false [] [])

/-- `{ i := i; i }`: the first `i` is replaced, the second one is the new variable. -/
example : Tame "i" (.block [.assign .assign (plainVar "i") (plainVar "i"), plainVar "i"]) ∧
    inst "i" (.const (.ofF64 F64.one)) (.block [.assign .assign (plainVar "i") (plainVar "i"), plainVar "i"]) =
      .block [.assign .assign (plainVar "i") (.const (.ofF64 F64.one)), plainVar "i"] := by
  constructor
  · simp [Tame, TameScope, TameStmt, TameIds, declares, plainVar, Item.name, Item.ids]
  · simp [inst, instScope, declares, plainVar, Item.name, Item.ids]

/-- `∑ i in ch { i }`: the name of a channel loop is replaced in its body. -/
theorem C40_channel_loop (i : String) (x : F64) (ch : Expr) :
    number i x (.forIn .sum i ch [plainVar i] none) =
      .forIn .sum i (number i x ch) [.const (.ofF64 x)] none ∧
    inst i (.const (.ofF64 x)) (.forIn .sum i ch [plainVar i] none) =
      .forIn .sum i (inst i (.const (.ofF64 x)) ch) [plainVar i] none := by
  constructor
  · simp [number, numberBlock, assigns, plainVar]
  · simp [inst]

/-- `∑ i f(i) { .. }`: the range of a counting loop is outside of the scope of its name, but
is not replaced. -/
theorem C40_range (i : String) (x : F64) (body : List Expr) :
    number i x (.forN .sum i none (plainVar i) body none) = .forN .sum i none (plainVar i) body none ∧
    inst i (.const (.ofF64 x)) (.forN .sum i none (plainVar i) body none) =
      .forN .sum i none (.const (.ofF64 x)) body none := by
  constructor
  · simp [number]
  · simp [inst, instOpt, plainVar]

/-- `i[a]`: the whole item is replaced, its properties are lost. -/
theorem C40_property (i : String) (x : F64) (ids : List Id) :
    number i x (.item (.mk i none false false ids [])) = .const (.ofF64 x) := by
  simp [number]

/-- `{ i = e; i }`: an assignment counts as a declaration, the name is left unbound after
it. -/
theorem C40_assigned (i : String) (x : F64) (e : Expr) :
    number i x (.block [.assign .set (plainVar i) e, plainVar i]) =
      .block [.assign .set (plainVar i) (number i x e), plainVar i] := by
  simp [number, numberBlock, numberRight, assigns, plainVar, Item.name]

/-- `\(y) = grab i`: closures are copied, the name is left unbound in them. -/
theorem C40_closure (i : String) (x : F64) (f : String) :
    number i x (.closure ["y"] [] true f (.grab 1 (plainVar i))) = .closure ["y"] [] true f (.grab 1 (plainVar i)) := by
  simp [number]

/-- `f[i](y)`: the called closure is copied. -/
theorem C40_call_closure (i : String) (x : F64) (f : String) (args : List Expr) :
    number i x (.callClosure (.mk f none false false [.expr (plainVar i)] []) args) =
      .callClosure (.mk f none false false [.expr (plainVar i)] []) (numberList i x args) := by
  simp [number]

end Dyon.Syn
