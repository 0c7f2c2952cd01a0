import Verif.Eval.Resolve

/-!
# Lemmas about `get_locals`

It changes nothing but slots, and a program in scope comes out resolved.
-/

namespace Dyon

/-! ## What it leaves on the compile-time stack -/

theorem cutTo_append (st x : Env) : cutTo st (st ++ x) = st := by simp [cutTo]
theorem cutTo_self (st : Env) : cutTo st st = st := by simp [cutTo]

mutual
theorem getLocals_stack (k : Ctx) : (e : Expr) → ∀ st cs,
    (getLocals k e st cs).2 = st ++ e.adds
  | .link items => fun st cs => by
    simp only [getLocals, getSeq_stack k items, Expr.adds, cutTo_append, List.append_nil]
  | .object _ | .array _ | .retVoid | .brk _ | .cont _ | .go _ _ | .item _ | .vec4 _ | .mat4 _
  | .const _ | .callClosure _ _ | .in_ _ => fun st cs => by simp [getLocals, Expr.adds]
  | .arrayFill f n => fun st cs => by
    simp only [getLocals, getLocals_stack k f, getLocals_stack k n, Expr.adds, cutTo_append,
      List.append_nil]
  | .ret e => fun st cs => by
    simp only [getLocals, getLocals_stack k e, Expr.adds, cutTo_append, List.append_nil]
  | .block es => fun st cs => by
    simp only [getLocals, getSeq_stack k es, Expr.adds, cutTo_append, List.append_nil]
  | .call f name args => fun st cs => by cases f <;> simp [getLocals, Expr.adds]
  | .assign op l r => fun st cs => by
    simp only [getLocals, getLocals_stack k r, cutTo_append, Expr.adds]
    cases declName op l with
    | none => simp only [getLocals_stack k l, cutTo_append, List.append_nil]
    | some n => simp
  | .for_ i c s b l => fun st cs => by
    simp only [getLocals, getLocals_stack k i, getLocals_stack k c, getLocals_stack k s,
      getSeq_stack k b, cutTo_append, Expr.adds, List.append_nil]
    rw [List.append_assoc, cutTo_append]
  | .forN kd name start stop body l => fun st cs => by
    simp only [getLocals, getLocals_stack k stop, getSeq_stack k body, cutTo_append, Expr.adds,
      List.append_assoc, List.append_nil]
  | .forIn kd name iter body l => fun st cs => by
    simp only [getLocals, getLocals_stack k iter, getSeq_stack k body, cutTo_append, Expr.adds,
      List.append_assoc, List.append_nil]
  | .ite c t elifs els => fun st cs => by
    simp only [getLocals, getLocals_stack k c, getSeq_stack k t, cutTo_append, Expr.adds,
      List.append_nil]
  | .try_ e => fun st cs => by simp only [getLocals, getLocals_stack k e, Expr.adds]
  | .swizzle s e => fun st cs => by simp only [getLocals, getLocals_stack k e, Expr.adds]
  | .tryExpr e => fun st cs => by simp only [getLocals, getLocals_stack k e, Expr.adds]
  | .closure args cur rt file e => fun st cs => by
    simp only [getLocals, getLocals_stack k e, Expr.adds, List.append_assoc]
  | .grab level e => fun st cs => by
    rw [getLocals]
    cases cs[(if cs.length < level then 0 else cs.length - level : Nat)]? <;> simp [Expr.adds]
theorem getSeq_stack (k : Ctx) : (es : List Expr) → ∀ st cs,
    (getSeq k es st cs).2 = st ++ es.flatMap Expr.adds
  | [] => fun st cs => by simp [getSeq]
  | e :: es => fun st cs => by
    simp only [getSeq, getLocals_stack k e, getSeq_stack k es, List.flatMap_cons,
      List.append_assoc]
end

/-! ## It changes nothing but slots -/

/-- What stays of an expression. -/
structure Alike (e e' : Expr) : Prop where
  wf : ∀ k, e'.WF k ↔ e.WF k
  valued : ∀ k, Valued k e' = Valued k e
  width : e'.width = e.width
  swizzle : e'.isSwizzle = e.isSwizzle
  leaves : e'.leaves = e.leaves
  link : linkLeaves e' = linkLeaves e
  declName : ∀ op, declName op e' = declName op e
  decl : decl e' = decl e

/-- What stays of a list of expressions. -/
structure AlikeL (es es' : List Expr) : Prop where
  wf : ∀ k, WFs k es' ↔ WFs k es
  last : ∀ k, ValuedLast k es' = ValuedLast k es
  vec : ∀ k, vecArgsOk k es' = vecArgsOk k es
  widths : es'.map Expr.width = es.map Expr.width
  leaves : es'.map Expr.leaves = es.map Expr.leaves
  link : es'.head?.bind linkLeaves = es.head?.bind linkLeaves

theorem AlikeL.length {es es'} (h : AlikeL es es') : es'.length = es.length := by
  have := congrArg List.length h.widths; simpa using this

theorem AlikeL.body {es es'} (h : AlikeL es es') : linkBody es' ↔ linkBody es := by
  rw [linkBody_iff, linkBody_iff, h.link]

theorem AlikeL.nil : AlikeL [] [] := ⟨fun _ => .rfl, fun _ => rfl, fun _ => rfl, rfl, rfl, rfl⟩

theorem AlikeL.cons {e e' es es'} (h : Alike e e') (hs : AlikeL es es') :
    AlikeL (e :: es) (e' :: es') := by
  refine ⟨fun k => ?_, fun k => ?_, fun k => ?_, ?_, ?_, ?_⟩
  · simp only [WFs, h.wf, hs.wf]
  · have hl := hs.length
    have : es'.isEmpty = es.isEmpty := by cases es <;> cases es' <;> simp_all
    simp only [ValuedLast, this, h.valued, hs.last]
  · simp only [vecArgsOk, h.valued, h.swizzle, hs.vec]
  · simp [h.width, hs.widths]
  · simp [h.leaves, hs.leaves]
  · simpa using h.link

theorem AlikeL.argLen {es es'} (h : AlikeL es es') : argLen es' = argLen es := by
  rw [Dyon.argLen, Dyon.argLen, h.widths]

theorem Alike.refl (e) : Alike e e :=
  ⟨fun _ => .rfl, fun _ => rfl, rfl, rfl, rfl, rfl, fun _ => rfl, rfl⟩

mutual
theorem getLocals_alike (k : Ctx) : (e : Expr) → ∀ st cs, Alike e (getLocals k e st cs).1
  | .link items => fun st cs => by
    have h := getSeq_alike k items st cs
    simp only [getLocals]
    refine ⟨fun k => ?_, fun _ => rfl, rfl, rfl, ?_, ?_, fun op => ?_, rfl⟩
    · simp only [Expr.WF, h.wf]
    · simp only [Expr.leaves, leavesAny_eq, h.leaves]
    · simp only [linkLeaves, h.leaves]
    · cases op <;> rfl
  | .object kvs => fun st cs => by
    have h := getKvs_alike k kvs st cs
    simp only [getLocals]
    refine ⟨fun k => ?_, fun _ => rfl, rfl, rfl, rfl, rfl, fun op => ?_, rfl⟩
    · simp only [Expr.WF, h]
    · cases op <;> rfl
  | .array items => fun st cs => by
    have h := getAll_alike k items st cs
    simp only [getLocals]
    refine ⟨fun k => ?_, fun _ => rfl, rfl, rfl, rfl, rfl, fun op => ?_, rfl⟩
    · simp only [Expr.WF, h.wf]
    · cases op <;> rfl
  | .arrayFill f n => fun st cs => by
    have h := getLocals_alike k f st cs
    have h' := getLocals_alike k n (cutTo st (getLocals k f st cs).2) cs
    simp only [getLocals]
    refine ⟨fun k => ?_, fun _ => rfl, rfl, rfl, rfl, rfl, fun op => ?_, rfl⟩
    · simp only [Expr.WF, h.wf, h'.wf]
    · cases op <;> rfl
  | .ret e => fun st cs => by
    have h := getLocals_alike k e st cs
    simp only [getLocals]
    refine ⟨fun k => ?_, fun _ => rfl, rfl, rfl, rfl, rfl, fun op => ?_, rfl⟩
    · simp only [Expr.WF, h.wf]
    · cases op <;> rfl
  | .retVoid | .brk _ | .cont _ | .const _ | .in_ _ => fun st cs => by
    simp only [getLocals]; exact .refl _
  | .block es => fun st cs => by
    have h := getSeq_alike k es st cs
    simp only [getLocals]
    refine ⟨fun k => ?_, fun k => ?_, rfl, rfl, rfl, rfl, fun op => ?_, rfl⟩
    · simp only [Expr.WF, h.wf]
    · simp only [Valued, h.last]
    · cases op <;> rfl
  | .go name args => fun st cs => by
    have h := getAll_alike k args st cs
    simp only [getLocals]
    refine ⟨fun k => ?_, fun _ => rfl, rfl, rfl, rfl, rfl, fun op => ?_, rfl⟩
    · simp only [Expr.WF, h.wf]
    · cases op <;> rfl
  | .call f name args => fun st cs => by
    have h1 := getAll_alike k args st cs
    have h2 := getArgs_alike k args (st ++ callPre k f) cs
    cases f <;> simp only [getLocals]
    case binop g =>
      refine ⟨fun k => ?_, fun _ => rfl, rfl, rfl, rfl, rfl, fun op => ?_, rfl⟩
      · simp only [Expr.WF, h1.wf]
      · cases op <;> rfl
    all_goals
      refine ⟨fun k => ?_, fun _ => rfl, rfl, rfl, rfl, rfl, fun op => ?_, rfl⟩
      · simp only [Expr.WF, h2.wf, h2.length]
      · cases op <;> rfl
  | .item it => fun st cs => by
    have h := getItem_alike k it st cs
    simp only [getLocals]
    refine ⟨fun k => ?_, fun _ => rfl, rfl, rfl, rfl, rfl, fun op => ?_, rfl⟩
    · simp only [Expr.WF, h.1]
    · cases op <;> simp only [declName, h.2.1, h.2.2]
  | .assign op l r => fun st cs => by
    have hr := getLocals_alike k r st cs
    have hl := getLocals_alike k l (cutTo st (getLocals k r st cs).2) cs
    simp only [getLocals]
    cases hd : declName op l with
    | some n =>
      refine ⟨fun k => ?_, fun _ => rfl, rfl, rfl, rfl, rfl, fun op => ?_, rfl⟩
      · simp only [Expr.WF, hr.wf]
      · cases op <;> rfl
    | none =>
      refine ⟨fun k => ?_, fun _ => rfl, rfl, rfl, rfl, rfl, fun op => ?_, ?_⟩
      · simp only [Expr.WF, hr.wf, hl.wf]
      · cases op <;> rfl
      · simp only [decl, hl.declName]
  | .vec4 args => fun st cs => by
    have h := getArgs_alike k args st cs
    simp only [getLocals]
    refine ⟨fun k => ?_, fun _ => rfl, rfl, rfl, rfl, rfl, fun op => ?_, rfl⟩
    · simp only [Expr.WF, h.wf, h.vec, fits_congr h.widths]
    · cases op <;> rfl
  | .mat4 args => fun st cs => by
    have h := getRows_alike k args st cs
    simp only [getLocals]
    refine ⟨fun k => ?_, fun _ => rfl, rfl, rfl, rfl, rfl, fun op => ?_, rfl⟩
    · simp only [Expr.WF, h.wf, h.vec, h.widths]
    · cases op <;> rfl
  | .for_ i c s b l => fun st cs => by
    have hi := getLocals_alike k i st cs
    have hc := getLocals_alike k c (getLocals k i st cs).2 cs
    have hs := getLocals_alike k s
      (cutTo (getLocals k i st cs).2 (getLocals k c (getLocals k i st cs).2 cs).2) cs
    simp only [getLocals]
    refine ⟨fun k' => ?_, fun _ => rfl, rfl, rfl, rfl, rfl, fun op => ?_, rfl⟩
    · simp only [Expr.WF, hi.wf, hc.wf, hs.wf, (getSeq_alike k b _ cs).wf]
    · cases op <;> rfl
  | .forN kd name start stop body l => fun st cs => by
    have h1 := getOpt_alike k start st cs
    have h2 := getLocals_alike k stop st cs
    have h3 := getSeq_alike k body (cutTo st (getLocals k stop st cs).2 ++ [some name]) cs
    simp only [getLocals]
    refine ⟨fun k' => ?_, fun _ => rfl, rfl, rfl, rfl, rfl, fun op => ?_, rfl⟩
    · simp only [Expr.WF, h1, h2.wf, h3.wf, h3.body]
    · cases op <;> rfl
  | .forIn kd name iter body l => fun st cs => by
    have h2 := getLocals_alike k iter st cs
    have h3 := getSeq_alike k body (cutTo st (getLocals k iter st cs).2 ++ [some name]) cs
    simp only [getLocals]
    refine ⟨fun k' => ?_, fun _ => rfl, rfl, rfl, rfl, rfl, fun op => ?_, rfl⟩
    · simp only [Expr.WF, h2.wf, h3.wf, h3.body]
    · cases op <;> rfl
  | .ite c t elifs els => fun st cs => by
    have h1 := getLocals_alike k c st cs
    have h2 := getSeq_alike k t (cutTo st (getLocals k c st cs).2) cs
    have h3 := getElifs_alike k elifs st cs
    have h4 := getOptSeq_alike k els st cs
    simp only [getLocals]
    refine ⟨fun k' => ?_, fun k' => ?_, rfl, rfl, rfl, rfl, fun op => ?_, rfl⟩
    · simp only [Expr.WF, h1.wf, h2.wf, (h3 k').1, (h4 k').1]
    · cases els with
      | none => simp only [getOptSeq, Valued]
      | some es =>
        have := (h4 k').2
        simp only [getOptSeq, Valued, h2.last, (h3 k').2, this es rfl]
    · cases op <;> rfl
  | .try_ e => fun st cs => by
    have h := getLocals_alike k e st cs
    simp only [getLocals]
    refine ⟨fun k => ?_, fun _ => rfl, rfl, rfl, rfl, rfl, fun op => ?_, rfl⟩
    · simp only [Expr.WF, h.wf]
    · cases op <;> rfl
  | .swizzle s e => fun st cs => by
    have h := getLocals_alike k e st cs
    simp only [getLocals]
    refine ⟨fun k => ?_, fun _ => rfl, rfl, rfl, rfl, rfl, fun op => ?_, rfl⟩
    · simp only [Expr.WF, h.wf]
    · cases op <;> rfl
  | .closure args cur rt file e => fun st cs => by
    have h := getLocals_alike k e (st ++ fnEnv rt args cur) (cs ++ [st.length])
    simp only [getLocals]
    refine ⟨fun k => ?_, fun _ => rfl, rfl, rfl, rfl, rfl, fun op => ?_, rfl⟩
    · simp only [Expr.WF, h.wf]
    · cases op <;> rfl
  | .callClosure it args => fun st cs => by
    have h1 := getItem_alike k it st cs
    have h2 := getArgs_alike k args (st ++ [some "return"]) cs
    simp only [getLocals]
    refine ⟨fun k => ?_, fun _ => rfl, rfl, rfl, rfl, rfl, fun op => ?_, rfl⟩
    · simp only [Expr.WF, h1.1, h2.wf]
    · cases op <;> rfl
  | .grab level e => fun st cs => by
    rw [getLocals]
    cases cs[(if cs.length < level then 0 else cs.length - level : Nat)]? with
    | none => exact .refl _
    | some last =>
      have h := getLocals_alike k e (st.take last) cs
      refine ⟨fun k => ?_, fun _ => rfl, rfl, rfl, rfl, rfl, fun op => ?_, rfl⟩
      · simp only [Expr.WF, h.wf]
      · cases op <;> rfl
  | .tryExpr e => fun st cs => by
    have h := getLocals_alike k e st cs
    simp only [getLocals]
    refine ⟨fun k => ?_, fun _ => rfl, rfl, rfl, ?_, rfl, fun op => ?_, rfl⟩
    · simp only [Expr.WF, h.wf]
    · simp only [Expr.leaves, h.leaves]
    · cases op <;> rfl
theorem getSeq_alike (k : Ctx) : (es : List Expr) → ∀ st cs, AlikeL es (getSeq k es st cs).1
  | [] => fun st cs => by simp only [getSeq]; exact .nil
  | e :: es => fun st cs => by
    simp only [getSeq]; exact AlikeL.cons (getLocals_alike k e _ _) (getSeq_alike k es _ _)
theorem getAll_alike (k : Ctx) : (es : List Expr) → ∀ st cs, AlikeL es (getAll k es st cs)
  | [] => fun st cs => by simp only [getAll]; exact .nil
  | e :: es => fun st cs => by
    simp only [getAll]; exact AlikeL.cons (getLocals_alike k e _ _) (getAll_alike k es _ _)
theorem getArgs_alike (k : Ctx) : (es : List Expr) → ∀ st cs, AlikeL es (getArgs k es st cs)
  | [] => fun st cs => by simp only [getArgs]; exact .nil
  | e :: es => fun st cs => by
    simp only [getArgs]; exact AlikeL.cons (getLocals_alike k e _ _) (getArgs_alike k es _ _)
theorem getRows_alike (k : Ctx) : (es : List Expr) → ∀ st cs, AlikeL es (getRows k es st cs)
  | [] => fun st cs => by simp only [getRows]; exact .nil
  | e :: es => fun st cs => by
    simp only [getRows]; exact AlikeL.cons (getLocals_alike k e _ _) (getRows_alike k es _ _)
theorem getKvs_alike (k : Ctx) : (es : List (String × Expr)) → ∀ st cs k',
    WFkvs k' (getKvs k es st cs) ↔ WFkvs k' es
  | [] => fun st cs k' => by simp only [getKvs]
  | (key, e) :: es => fun st cs k' => by
    simp only [getKvs, WFkvs, (getLocals_alike k e st cs).wf, getKvs_alike k es]
theorem getElifs_alike (k : Ctx) : (es : List (Expr × List Expr)) → ∀ st cs k',
    (WFelifs k' (getElifs k es st cs) ↔ WFelifs k' es) ∧
    ValuedBlocks k' (getElifs k es st cs) = ValuedBlocks k' es
  | [] => fun st cs k' => by simp only [getElifs, and_self]
  | (c, b) :: es => fun st cs k' => by
    simp only [getElifs, WFelifs, ValuedBlocks, (getLocals_alike k c st cs).wf,
      (getSeq_alike k b st cs).wf, (getSeq_alike k b st cs).last, (getElifs_alike k es st cs k').1,
      (getElifs_alike k es st cs k').2, and_self]
theorem getOptSeq_alike (k : Ctx) : (o : Option (List Expr)) → ∀ st cs k',
    (WFoptList k' (getOptSeq k o st cs) ↔ WFoptList k' o) ∧
    ∀ es, o = some es → ValuedLast k' (getSeq k es st cs).1 = ValuedLast k' es
  | none => fun st cs k' => ⟨by simp only [getOptSeq], fun _ h => by cases h⟩
  | some es => fun st cs k' =>
    ⟨by simp only [getOptSeq, WFoptList, (getSeq_alike k es st cs).wf], fun es' h => by
      cases h; exact (getSeq_alike k es st cs).last k'⟩
theorem getOpt_alike (k : Ctx) : (o : Option Expr) → ∀ st cs k',
    WFopt k' (getOpt k o st cs) ↔ WFopt k' o
  | none => fun st cs k' => by simp only [getOpt]
  | some e => fun st cs k' => by simp only [getOpt, WFopt, (getLocals_alike k e st cs).wf]
theorem getItem_alike (k : Ctx) : (it : Item) → ∀ st cs,
    (∀ k', WFitem k' (getItem k it st cs) ↔ WFitem k' it) ∧
    (getItem k it st cs).ids.isEmpty = it.ids.isEmpty ∧ (getItem k it st cs).name = it.name
  | .mk name sid cur t ids tids => fun st cs => by
    have h := getIds_alike k ids st cs
    simp only [getItem, WFitem, h.1, Item.ids, Item.name, h.2, implies_true, and_self]
theorem getIds_alike (k : Ctx) : (ids : List Id) → ∀ st cs,
    (∀ k', WFids k' (getIds k ids st cs) ↔ WFids k' ids) ∧
    (getIds k ids st cs).isEmpty = ids.isEmpty
  | [] => fun st cs => by simp [getIds]
  | .str s :: r => fun st cs => by
    have h := (getIds_alike k r st cs).1
    simp [getIds, WFids, h]
  | .num x :: r => fun st cs => by
    have h := (getIds_alike k r st cs).1
    simp [getIds, WFids, h]
  | .expr e :: r => fun st cs => by
    have h := (getIds_alike k r (cutTo st (getLocals k e st cs).2 ++ [none]) cs).1
    have he := getLocals_alike k e st cs
    simp [getIds, WFids, h, he.wf]
end

end Dyon
