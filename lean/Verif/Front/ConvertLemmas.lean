import Verif.Front.Source
import Verif.Syntax.ChainProps

/-!
# C68: lemmas for the conversion
-/

namespace Dyon.Front

open Syn (BinOp callName)

variable [FloatOps] [Data.Lex]

/-! ## Lemmas -/

@[simp] theorem cv_ok {α β} (a : α) (f : α → Cv β) : ((.ok a : Cv α) >>= f) = f a := rfl
@[simp] theorem cv_err {α β} (b : Bad) (f : α → Cv β) : ((.error b : Cv α) >>= f) = .error b := rfl
@[simp] theorem want_some {α} (a : α) : want (some a) = .ok a := rfl
@[simp] theorem want_none {α} : want (none : Option α) = .error .err := rfl

/-- An option as a result. -/
def res {α} : Option α → Cv α
  | some a => .ok a
  | none => .error .err

@[simp] theorem res_some {α} (a : α) : res (some a) = .ok a := rfl
@[simp] theorem res_none {α} : res (none : Option α) = .error .err := rfl

theorem convs_append (file : String) (a b : List Cst) :
    convs file (a ++ b) = (do
      let x ← convs file a
      let y ← convs file b
      .ok (x ++ y)) := by
  induction a with
  | nil =>
    simp only [List.nil_append, convs, cv_ok]
    cases convs file b <;> rfl
  | cons t ts ih =>
    simp only [List.cons_append, convs, ih]
    cases conv file t with
    | error => rfl
    | ok p =>
      simp only [cv_ok]
      cases convs file ts with
      | error => rfl
      | ok ps =>
        simp only [cv_ok]
        cases convs file b <;> rfl

theorem conv_node {file : String} {l : L} {kids : List Cst} (h : l ≠ .ty) (h' : l ≠ .itemExtra) :
    conv file (.node l kids) = (do
      let ps ← convs file kids
      let v ← assemble file l ps
      .ok (.node l (startsMut kids) v)) := by
  rw [conv, if_neg h]
  cases convs file kids with
  | error => rfl
  | ok ps =>
    simp only [cv_ok, if_neg h']

/-! ### Types -/

mutual
theorem ty_tree (file : String) : ∀ t : TySrc, ∃ ps, convs file t.tree = .ok ps ∧ readTy none ps = .ok t.ty
  | .any | .bool | .f64 | .str | .vec4 | .mat4 | .link | .opt | .res | .secBool | .secF64 | .arr
  | .obj | .thr | .in' => ⟨_, rfl, rfl⟩
  | .optOf t => by
    obtain ⟨ps, h, h'⟩ := ty_tree file t
    refine ⟨[.node .opt (startsMut t.tree) (.ty t.ty)], ?_, rfl⟩
    simp [TySrc.tree, convs, conv_node, h, assemble, h']
  | .resOf t => by
    obtain ⟨ps, h, h'⟩ := ty_tree file t
    refine ⟨[.node .res (startsMut t.tree) (.ty t.ty)], ?_, rfl⟩
    simp [TySrc.tree, convs, conv_node, h, assemble, h']
  | .arrOf t => by
    obtain ⟨ps, h, h'⟩ := ty_tree file t
    refine ⟨[.node .arr (startsMut t.tree) (.ty t.ty)], ?_, rfl⟩
    simp [TySrc.tree, convs, conv_node, h, assemble, h']
  | .thrOf t => by
    obtain ⟨ps, h, h'⟩ := ty_tree file t
    refine ⟨[.node .thr (startsMut t.tree) (.ty t.ty)], ?_, rfl⟩
    simp [TySrc.tree, convs, conv_node, h, assemble, h']
  | .inOf t => by
    obtain ⟨ps, h, h'⟩ := ty_tree file t
    refine ⟨[.node .in' (startsMut t.tree) (.ty t.ty)], ?_, rfl⟩
    simp [TySrc.tree, convs, conv_node, h, assemble, h']
  | .closure args ret => by
    obtain ⟨ps, h, h'⟩ := ty_tree file ret
    obtain ⟨qs, g, g'⟩ := ty_trees file args
    refine ⟨[.node .closureType (startsMut (TySrc.trees args ++ [.node .clRet ret.tree])) (.ty (.closure (TySrc.tys args) ret.ty))],
      ?_, rfl⟩
    simp [TySrc.tree, convs, conv_node, convs_append, h, g, assemble, h', g', readClosureTy]
  | .adHoc n none => ⟨_, rfl, rfl⟩
  | .adHoc n (some t) => by
    obtain ⟨ps, h, h'⟩ := ty_tree file t
    refine ⟨[.str .adHoc n, .node .adHocTy (startsMut t.tree) (.ty t.ty)], ?_, rfl⟩
    simp [TySrc.tree, convs, conv, conv_node, h, assemble, h']
theorem ty_trees (file : String) : ∀ ts : List TySrc, ∃ ps, convs file (TySrc.trees ts) = .ok ps ∧
    ∀ acc r, readClosureTy acc (ps ++ r) = readClosureTy (acc ++ TySrc.tys ts) r
  | [] => ⟨[], rfl, fun acc r => by simp [TySrc.tys]⟩
  | t :: ts => by
    obtain ⟨ps, h, h'⟩ := ty_tree file t
    obtain ⟨qs, g, g'⟩ := ty_trees file ts
    refine ⟨.node .clArg (startsMut t.tree) (.ty t.ty) :: qs, ?_, fun acc r => ?_⟩
    · simp [TySrc.trees, convs, conv_node, h, assemble, h', g]
    · simp [readClosureTy, g', TySrc.tys]
end

/-! ### Expressions -/

/-- The nodes that hold an expression. -/
def Holds : L → Prop
  | .expr | .val | .callArg | .left | .right | .ret | .arrayItem | .fill | .n | .start | .end'
  | .init | .cond | .iter | .elseIfCond | .step | .id | .x | .y | .z | .w | .ex | .ey | .ez | .ew
  | .linkItem => True
  | _ => False

/-- The reports convert to the expression, whatever follows; or fail. -/
def Good (file : String) (ts : List Cst) : Option Expr → Prop
  | some e => ∃ ps, convs file ts = .ok ps ∧ ∀ r, readExpr none (ps ++ r) = readExpr (some e) r
  | none => convs file ts = .error .err ∨
      ∃ ps, convs file ts = .ok ps ∧ ∀ r, readExpr none (ps ++ r) = .error .err

theorem Good.hold {file : String} {ts : List Cst} {o : Option Expr} (h : Good file ts o) {l : L}
    (hl : Holds l) :
    conv file (.node l ts) = res (o.map fun e => .node l (startsMut ts) (.expr e)) := by
  have h1 : l ≠ .ty := by rintro rfl; exact hl
  have h2 : l ≠ .itemExtra := by rintro rfl; exact hl
  rw [conv_node h1 h2]
  have ha : ∀ ps, assemble file l ps = (do .ok (.expr (← readExpr none ps))) := by
    intro ps
    cases l <;> first | rfl | exact hl.elim
  cases o with
  | some e =>
    obtain ⟨ps, h, h'⟩ := h
    have := h' []
    rw [List.append_nil] at this
    simp [h, ha, this, readExpr]
  | none =>
    rcases h with h | ⟨ps, h, h'⟩
    · simp [h]
    · have := h' []
      rw [List.append_nil] at this
      simp [h, ha, this]

theorem Good.toExpr {file : String} {ts : List Cst} {o : Option Expr} (h : Good file ts o) :
    Front.toExpr file ts = res o := by
  cases o with
  | some e =>
    obtain ⟨ps, h, h'⟩ := h
    have := h' []
    rw [List.append_nil] at this
    simp [Front.toExpr, h, this, readExpr]
  | none =>
    rcases h with h | ⟨ps, h, h'⟩
    · simp [Front.toExpr, h]
    · have := h' []
      rw [List.append_nil] at this
      simp [Front.toExpr, h, this]

/-- A node that is an expression. -/
theorem Good.alt {file : String} {c : Cst} {l : L} {m : Bool} {o : Option Expr}
    (h : conv file c = res (o.map fun e => .node l m (.expr e)))
    (hl : ∀ e, altNode l (.expr e) = some e) : Good file [c] o := by
  cases o with
  | none => exact .inl (by simp [convs, h])
  | some e => exact ⟨[.node l m (.expr e)], by simp [convs, h], fun r => by simp [readExpr, altPart, hl]⟩

/-- The parts of expressions in nodes of their own. -/
def argParts (l : L) : List Src → List Expr → List Part
  | s :: ss, e :: es => .node l (Spec.isMut s) (.expr e) :: argParts l ss es
  | _, _ => []

/-- The parts of an object. -/
def kvParts : List (String × Expr) → List Part
  | [] => []
  | (k, e) :: r => .node .keyValue false (.kv k e) :: kvParts r

/-- The parts of arguments with words. -/
def wordParts : List (String × Src) → List Expr → List Part
  | (w, s) :: ss, e :: es => .str .word w :: .node .callArg (Spec.isMut s) (.expr e) :: wordParts ss es
  | _, _ => []

theorem exprs_argParts (l : L) : ∀ (ss : List Src) (es : List Expr), ss.length = es.length →
    exprs l (argParts l ss es) = .ok es
  | [], [], _ => rfl
  | s :: ss, e :: es, h => by
    simp [argParts, exprs, exprs_argParts l ss es (by simpa using h)]

theorem kvs_kvParts : ∀ es : List (String × Expr), kvs (kvParts es) = .ok es
  | [] => rfl
  | (k, e) :: es => by simp [kvParts, kvs, kvs_kvParts es]

theorem callParts_args (named closure : Bool) : ∀ (ss : List Src) (es : List Expr) (p : CallP),
    ss.length = es.length →
    (argParts .callArg ss es).foldlM (callPart named closure) p =
      .ok { p with args := p.args ++ es, mutable := p.mutable ++ ss.map Spec.isMut }
  | [], [], p, _ => by cases p; simp [argParts]; rfl
  | s :: ss, e :: es, p, h => by
    simp only [argParts, List.foldlM_cons, callPart, cv_ok]
    rw [callParts_args named closure ss es _ (by simpa using h)]
    simp

theorem spec_exprs_length {file : String} : ∀ {ss : List Src} {es : List Expr},
    Spec.exprs file ss = some es → ss.length = es.length
  | [], es, h => by
    simp only [Spec.exprs, Option.some.injEq] at h
    subst h
    rfl
  | s :: ss, es, h => by
    rw [Spec.exprs] at h
    cases h1 : Spec.expr file s with
    | none => simp [h1] at h
    | some e =>
      cases h2 : Spec.exprs file ss with
      | none => simp [h1, h2] at h
      | some es' =>
        simp [h1, h2] at h
        subst h
        simp [spec_exprs_length h2]

theorem spec_worded_length {file : String} : ∀ {ss : List (String × Src)} {es : List Expr},
    Spec.worded file ss = some es → ss.length = es.length
  | [], es, h => by
    simp only [Spec.worded, Option.some.injEq] at h
    subst h
    rfl
  | (w, s) :: ss, es, h => by
    rw [Spec.worded] at h
    cases h1 : Spec.expr file s with
    | none => simp [h1] at h
    | some e =>
      cases h2 : Spec.worded file ss with
      | none => simp [h1, h2] at h
      | some es' =>
        simp [h1, h2] at h
        subst h
        simp [spec_worded_length h2]

/-- A word of a call of a function after the first. -/
theorem append_ne_empty (s : String) : (s ++ "_").isEmpty = false := by
  rw [Bool.eq_false_iff]
  intro h
  have := String.isEmpty_iff.1 h
  have h2 := congrArg String.length this
  simp [String.length_append] at h2

theorem append3_ne_empty (s t : String) : (s ++ "_" ++ t).isEmpty = false := by
  rw [Bool.eq_false_iff]
  intro h
  have := String.isEmpty_iff.1 h
  have h2 := congrArg String.length this
  simp [String.length_append] at h2

theorem callParts_words : ∀ (ss : List (String × Src)) (es : List Expr) (p : CallP),
    ss.length = es.length → p.words.isEmpty = false →
    (wordParts ss es).foldlM (callPart true false) p =
      .ok { p with
        words := (ss.map (·.1)).foldl (fun n w => n ++ "_" ++ w) p.words
        args := p.args ++ es, mutable := p.mutable ++ ss.map fun x => Spec.isMut x.2 }
  | [], [], p, _, _ => by cases p; simp [wordParts]; rfl
  | (w, s) :: ss, e :: es, p, h, hw => by
    simp only [wordParts, List.foldlM_cons, callPart, cv_ok, Bool.not_true, Bool.false_eq_true, if_false, hw]
    rw [callParts_words ss es _ (by simpa using h) (append3_ne_empty _ _)]
    simp

theorem callParts_closure : ∀ (ss : List (String × Src)) (es : List Expr) (p : CallP),
    ss.length = es.length →
    (wordParts ss es).foldlM (callPart true true) p =
      .ok { p with
        words := (ss.map (·.1)).foldl (fun n w => if n = "" then w else n ++ "_" ++ w) p.words
        args := p.args ++ es, mutable := p.mutable ++ ss.map fun x => Spec.isMut x.2 }
  | [], [], p, _ => by cases p; simp [wordParts]; rfl
  | (w, s) :: ss, e :: es, p, h => by
    by_cases hw : p.words = ""
    · simp only [wordParts, List.foldlM_cons, callPart, cv_ok, Bool.not_true, Bool.false_eq_true, if_false,
        hw, show "".isEmpty = true from rfl, if_true]
      rw [callParts_closure ss es _ (by simpa using h)]
      simp [hw]
    · have hw' : p.words.isEmpty = false := by
        rw [Bool.eq_false_iff]
        exact fun h => hw (String.isEmpty_iff.1 h)
      simp only [wordParts, List.foldlM_cons, callPart, cv_ok, Bool.not_true, Bool.false_eq_true, if_false, hw']
      rw [callParts_closure ss es _ (by simpa using h)]
      simp [hw]

/-- The word for an argument. -/
def mutWord (m : Bool) : String := if m then "mut" else "_"

/-- The arguments after the first one. -/
def mutRest : List Bool → String
  | [] => ""
  | m :: ms => "," ++ mutWord m ++ mutRest ms

theorem mutArgs_rest : ∀ (ms : List Bool) (s : String), mutArgs false ms s = s ++ mutRest ms
  | [], s => by simp [mutArgs, mutRest]
  | m :: ms, s => by
    simp only [mutArgs, Bool.false_eq_true, if_false, mutRest]
    rw [mutArgs_rest ms]
    have : s.push ',' = s ++ "," := rfl
    rw [this, String.append_assoc, String.append_assoc, String.append_assoc]
    rfl

theorem intercalate_rest : ∀ (ms : List Bool) (m : Bool),
    ",".intercalate ((m :: ms).map mutWord) = mutWord m ++ mutRest ms
  | [], m => by simp [mutRest]
  | n :: ms, m => by
    have := intercalate_rest ms n
    simp only [List.map_cons] at this ⊢
    rw [String.intercalate_cons_cons, this, mutRest, String.append_assoc, String.append_assoc]

theorem mutName_eq (name : String) (ms : List Bool) : mutName name ms = Spec.nameWith name ms := by
  have : (ms.any id = true) = (true ∈ ms) := by simp
  simp only [mutName, Spec.nameWith, this]
  cases ms with
  | nil => rfl
  | cons m ms =>
    rw [show ((m :: ms).map fun m => if m then "mut" else "_") = (m :: ms).map mutWord from rfl, intercalate_rest]
    simp only [mutArgs, if_true, mutArgs_rest, String.append_assoc, mutWord]

theorem mutRest_inj : ∀ {a b : List Bool}, a.length = b.length → mutRest a = mutRest b → a = b
  | [], [], _, _ => rfl
  | m :: a, n :: b, hl, h => by
    have h' : (mutRest (m :: a)).toList = (mutRest (n :: b)).toList := by rw [h]
    simp only [mutRest, String.toList_append] at h'
    cases m <;> cases n
    · have := mutRest_inj (a := a) (b := b) (by simpa using hl) (String.ext (by simpa [mutWord] using h'))
      rw [this]
    · simp [mutWord] at h'
    · simp [mutWord] at h'
    · have := mutRest_inj (a := a) (b := b) (by simpa using hl) (String.ext (by simpa [mutWord] using h'))
      rw [this]

theorem nameWith_inj {n : String} {a b : List Bool} (hl : a.length = b.length) :
    Spec.nameWith n a = Spec.nameWith n b ↔ a = b := by
  refine ⟨fun h => ?_, fun h => by rw [h]⟩
  have hlen : ∀ s : String, n ++ "(" ++ s ++ ")" ≠ n := by
    intro s hs
    have := congrArg (fun s => s.toList.length) hs
    simp [String.toList_append] at this
  simp only [Spec.nameWith] at h
  by_cases ha : true ∈ a
  · by_cases hb : true ∈ b
    · rw [if_pos ha, if_pos hb] at h
      have h1 : (",".intercalate (a.map mutWord)) = ",".intercalate (b.map mutWord) := by
        have := congrArg String.toList h
        simp only [String.toList_append, List.append_assoc, List.append_cancel_left_eq, List.append_cancel_right_eq] at this
        exact String.ext this
      cases a with
      | nil => simp at ha
      | cons m a =>
        cases b with
        | nil => simp at hb
        | cons k b =>
          rw [intercalate_rest, intercalate_rest] at h1
          exact mutRest_inj hl (by rw [mutRest, mutRest, String.append_assoc, h1, String.append_assoc])
    · rw [if_pos ha, if_neg hb] at h
      exact absurd h (hlen _)
  · by_cases hb : true ∈ b
    · rw [if_neg ha, if_pos hb] at h
      exact absurd h.symm (hlen _)
    · have hall : ∀ {l : List Bool}, true ∉ l → l = List.replicate l.length false := by
        intro l hl
        exact List.eq_replicate_iff.2 ⟨rfl, fun x hx => by
          cases x
          · rfl
          · exact absurd hx hl⟩
      rw [hall ha, hall hb, hl]

theorem aliased_eq (a : Option String) (name : String) : aliased a name = Spec.inside a name := by
  cases a <;> rfl

theorem renameLast_append (words : String) (i : Id) : ∀ is : List Id,
    renameLast words (is ++ [i]) = is ++ renameLast words [i]
  | [] => rfl
  | j :: is => by
    have := renameLast_append words i is
    cases is with
    | nil => cases j <;> simp [renameLast]
    | cons k is => cases j <;> simp_all [renameLast]

theorem renameItem_eq (words : String) (it : Item) : renameItem words it = Spec.closureItem words it := by
  obtain ⟨n, sid, cur, t, ids, tids⟩ := it
  rcases List.eq_nil_or_concat ids with rfl | ⟨is, i, rfl⟩
  · rfl
  · simp only [renameItem, Spec.closureItem, List.concat_eq_append, List.getLast?_append,
      List.getLast?_singleton, Option.some_or, List.dropLast_concat, renameLast_append]
    rw [if_neg (by simp)]
    cases i <;> rfl

/-- The parts of a variable of a loop. -/
def varPart (ms : Bool × Bool) : String × Option Expr × Option Expr → List Part
  | (n, none, none) => [.str .name n]
  | (n, none, some b) => [.str .name n, .node .end' ms.2 (.expr b)]
  | (n, some a, none) => [.str .name n, .node .start ms.1 (.expr a)]
  | (n, some a, some b) => [.str .name n, .node .start ms.1 (.expr a), .node .end' ms.2 (.expr b)]

/-- The parts are those of variables of a loop, then a block. -/
inductive VarParts : List Part → List (String × Option Expr × Option Expr) → Prop
  | nil : VarParts [] []
  | cons {ps vs} (ms v) : VarParts ps vs → VarParts (varPart ms v ++ ps) (v :: vs)

theorem VarParts.indices {ps : List Part} {vs} (h : VarParts ps vs) (m : Bool) (b : List Expr) :
    Front.indices (ps ++ [.node .block m (.block b)]) = .ok vs := by
  induction h with
  | nil => rfl
  | @cons ps vs ms v hps ih =>
    obtain ⟨n, a, e⟩ := v
    have hnext : ∀ q r, ps = q :: r → ∃ n, q = .str .name n := by
      intro q r h
      cases hps with
      | nil => simp at h
      | cons ms v _ =>
        obtain ⟨n, a, e⟩ := v
        cases a <;> cases e <;> simp [varPart] at h <;> exact ⟨n, h.1.symm⟩
    cases a <;> cases e
    · cases ps with
      | nil => simp_all [varPart, Front.indices]
      | cons q r =>
        obtain ⟨n', rfl⟩ := hnext q r rfl
        simp only [varPart, List.cons_append, List.nil_append] at ih ⊢
        rw [Front.indices, ih]
        · rfl
        all_goals intros; simp_all
    · simp only [varPart, List.cons_append, List.nil_append, Front.indices, ih, cv_ok]
    · cases ps with
      | nil => simp_all [varPart, Front.indices]
      | cons q r =>
        obtain ⟨n', rfl⟩ := hnext q r rfl
        simp only [varPart, List.cons_append, List.nil_append] at ih ⊢
        rw [Front.indices, ih]
        · rfl
        all_goals intros; simp_all
    · simp only [varPart, List.cons_append, List.nil_append, Front.indices, ih, cv_ok]

theorem VarParts.lastBlock {ps : List Part} {vs} (h : VarParts ps vs) (m : Bool) (b : List Expr) :
    Front.lastBlock .block (ps ++ [.node .block m (.block b)]) = some b := by
  simp [Front.lastBlock, lastBlockStep, List.foldl_append]

theorem VarParts.label {ps : List Part} {vs} (h : VarParts ps vs) (acc : Option String) :
    ps.foldl (lastStrStep .label) acc = acc := by
  induction h generalizing acc with
  | nil => rfl
  | @cons ps vs ms v _ ih =>
    obtain ⟨n, a, e⟩ := v
    cases a <;> cases e <;> simp [varPart, lastStrStep, ih]

/-- Operands and operators after the first operand. -/
inductive OpParts : List Part → List (BinOp × Expr) → Prop
  | nil : OpParts [] []
  | cons {ps es} (op : BinOp) (l : L) (m : Bool) (e : Expr) : l = .neg ∨ l = .pow ∨ l = .expr → OpParts ps es →
      OpParts (.bool (opTok op) true :: .node l m (.expr e) :: ps) ((op, e) :: es)

theorem binOp_opTok (op : BinOp) : binOp (opTok op) = some op := by cases op <;> rfl

theorem OpParts.readSeq {ps : List Part} {es : List (BinOp × Expr)} (h : OpParts ps es)
    (items : List Expr) (ops : List BinOp) :
    Front.readSeq items ops ps = .ok (items ++ es.map (·.2), ops ++ es.map (·.1)) := by
  induction h generalizing items ops with
  | nil => simp [Front.readSeq]
  | cons op l m e hl _ ih =>
    rcases hl with rfl | rfl | rfl <;> simp [Front.readSeq, binOp_opTok, ih]

theorem OpParts.seqExpr {ps : List Part} {es : List (BinOp × Expr)} (h : OpParts ps es) {l : L} (m : Bool)
    (e : Expr) (hl : l = .neg ∨ l = .pow ∨ l = .expr) :
    Front.seqExpr (.node l m (.expr e) :: ps) = .ok (.expr (Syn.Spec.leftAssoc Syn.binCall e es)) := by
  have : Front.readSeq [] [] (.node l m (.expr e) :: ps) = .ok (e :: es.map (·.2), es.map (·.1)) := by
    rcases hl with rfl | rfl | rfl <;> simp [Front.readSeq, h.readSeq]
  simp [Front.seqExpr, this, Syn.C38_executed]

/-- Properties of an item. -/
theorem flag_convs (file : String) (l : B) (b : Bool) :
    convs file (flag l b) = .ok (if b then [.bool l true] else []) := by
  cases b <;> rfl

theorem strOpt_convs (file : String) (l : S) (o : Option String) :
    convs file (strOpt l o) = .ok (o.toList.map (.str l)) := by
  cases o <;> rfl

theorem tyOpt_convs (file : String) (o : Option TySrc) :
    ∃ m, convs file (tyOpt .type o) = .ok (o.toList.map fun t => .node .type m (.ty t.ty)) := by
  cases o with
  | none => exact ⟨false, rfl⟩
  | some t =>
    obtain ⟨ps, h, h'⟩ := ty_tree file t
    exact ⟨startsMut t.tree, by simp [tyOpt, convs, conv_node, h, assemble, h']⟩

theorem clArg_conv (file : String) (a : ClArg) : conv file a.tree = .ok (.node .arg false (.arg a.name false [])) := by
  obtain ⟨m, h⟩ := tyOpt_convs file a.ty
  have hm : startsMut (.str .name a.name :: tyOpt .type a.ty) = false := rfl
  simp only [ClArg.tree, conv_node, convs, conv, h, cv_ok, ne_eq, reduceCtorEq, not_false_eq_true, hm]
  cases a.ty <;> rfl

theorem clArgs_convs (file : String) : ∀ as : List ClArg,
    convs file (as.map ClArg.tree) = .ok (as.map fun a => .node .arg false (.arg a.name false []))
  | [] => rfl
  | a :: as => by simp [convs, clArg_conv, clArgs_convs file as]

theorem cur_conv (file : String) (c : Cur) : conv file c.tree = .ok (.node .current c.mutable (.current c.name)) := by
  obtain ⟨m, h⟩ := tyOpt_convs file c.ty
  obtain ⟨mu, n, ty⟩ := c
  simp only [Cur.tree, conv_node, convs, convs_append, flag_convs, conv, h, cv_ok, ne_eq, reduceCtorEq, not_false_eq_true]
  cases ty <;> cases mu <;> rfl

theorem curs_convs (file : String) : ∀ cs : List Cur,
    convs file (cs.map Cur.tree) = .ok (cs.map fun c => .node .current c.mutable (.current c.name))
  | [] => rfl
  | a :: as => by simp [convs, cur_conv, curs_convs file as]

theorem swTok_conv (file : String) (l : L) (i : Fin 4) (hl : l = .sw0 ∨ l = .sw1 ∨ l = .sw2 ∨ l = .sw3) :
    conv file (.node l [.bool (swTok i) true]) = .ok (.node l false (.sw i.val)) := by
  rcases hl with rfl | rfl | rfl | rfl <;> (match i with | 0 => rfl | 1 => rfl | 2 => rfl | 3 => rfl)

theorem swOpt_convs (file : String) (l : L) (o : Option (Fin 4)) (hl : l = .sw0 ∨ l = .sw1 ∨ l = .sw2 ∨ l = .sw3) :
    convs file (swOpt l o) = .ok (o.toList.map fun i => .node l false (.sw i.val)) := by
  cases o with
  | none => rfl
  | some i => simp [swOpt, convs, swTok_conv file l i hl]

theorem startsMut_append {a b : List Cst} (h : a ≠ []) : startsMut (a ++ b) = startsMut a := by
  cases a with
  | nil => exact absurd rfl h
  | cons c _ =>
    cases c with
    | bool l _ => cases l <;> rfl
    | _ => rfl

mutual
theorem tree_mut : ∀ s : Src, s.tree ≠ [] ∧ startsMut s.tree = Spec.isMut s
  | .paren e => tree_mut e
  | .try_ e => by
    obtain ⟨h, h'⟩ := tree_mut e
    exact ⟨by simp [Src.tree], by rw [Src.tree, startsMut_append h, h', Spec.isMut]⟩
  | .grab none e => ⟨by simp [Src.tree], rfl⟩
  | .grab (some _) e => ⟨by simp [Src.tree], rfl⟩
  | .call c => by
    cases c <;> exact ⟨by simp [Src.tree], by simp [Src.tree, Callee.tree, startsMut, Spec.isMut]⟩
  | .item (.mk c n t i) => by
    cases i <;> exact ⟨by simp [Src.tree], by simp [Src.tree, ItemSrc.tree, startsMut, Spec.isMut]⟩
  | .in_ .. | .closure .. | .object .. | .array .. | .arrayFill .. | .forIn .. | .forN .. | .for_ ..
  | .loop .. | .ite .. | .brk .. | .cont .. | .block .. | .assign .. | .compare .. | .ret ..
  | .retVoid | .add .. | .mat4 .. | .vec4 .. | .link .. | .tryExpr .. | .not .. | .norm .. | .text ..
  | .num .. | .bool .. | .color .. | .go .. | .callClosure .. | .namedCallClosure .. | .unloop ..
  | .mutItem .. | .swizzle .. => ⟨by simp [Src.tree], by simp [Src.tree, startsMut, Spec.isMut]⟩
end

theorem Good.hold' {file : String} {s : Src} (h : Good file s.tree (Spec.expr file s)) {l : L}
    (hl : Holds l) :
    conv file (.node l s.tree) =
      res ((Spec.expr file s).map fun e => .node l (Spec.isMut s) (.expr e)) := by
  rw [h.hold hl, (tree_mut s).2]

theorem item_tree_mut (it : ItemSrc) : ∃ kids, it.tree = .node .item kids ∧ startsMut kids = false := by
  obtain ⟨c, n, t, i⟩ := it
  cases i <;> cases c <;> exact ⟨_, by rw [ItemSrc.tree], by simp [flag, startsMut]⟩

/-- The parts that `itemPart` reads one after another. -/
theorem itemPart_flag (p : ItemP) (t : Bool) (h : p.ids ≠ []) :
    (if t then [Part.bool .tryId true] else []).foldlM itemPart p =
      .ok { p with tryIds := p.tryIds ++ if t then [p.ids.length - 1] else [] } := by
  cases t with
  | false => cases p; simp; rfl
  | true =>
    have : p.ids.isEmpty = false := by simpa using h
    simp [itemPart, this]

@[simp] theorem conv_str (file : String) (l : S) (x : String) : conv file (.str l x) = .ok (.str l x) := rfl
@[simp] theorem conv_num (file : String) (l : F) (x : F64) : conv file (.num l x) = .ok (.num l x) := rfl
@[simp] theorem conv_bool (file : String) (l : B) (x : Bool) : conv file (.bool l x) = .ok (.bool l x) := rfl

section
variable {file : String}

/-- The expression converts to what it means. -/
abbrev SrcOk (file : String) (s : Src) : Prop := Good file s.tree (Spec.expr file s)

/-- The expressions convert to what they mean. -/
def ListOk (file : String) (ss : List Src) : Prop := ∀ l, Holds l →
  convs file (trees l ss) = res ((Spec.exprs file ss).map (argParts l ss))

theorem ListOk.block {ss : List Src} (h : ListOk file ss) {l : L}
    (hl : l = .block ∨ l = .trueBlock ∨ l = .elseIfBlock ∨ l = .elseBlock) :
    conv file (.node l (trees .expr ss)) = res ((Spec.exprs file ss).map fun es => .node l false (.block es)) := by
  have hm : startsMut (trees .expr ss) = false := by cases ss <;> simp [trees, startsMut]
  rw [conv_node (by rcases hl with rfl | rfl | rfl | rfl <;> simp) (by rcases hl with rfl | rfl | rfl | rfl <;> simp),
    h .expr trivial, hm]
  cases he : Spec.exprs file ss with
  | none => rfl
  | some es =>
    have := exprs_argParts .expr ss es (spec_exprs_length he)
    rcases hl with rfl | rfl | rfl | rfl <;> simp [assemble, this]

theorem good_in (a : Option String) (n : String) : SrcOk file (.in_ a n) := by
  refine Good.alt (l := .in') (m := false) ?_ fun _ => rfl
  cases a <;> rfl

theorem argsOf_args (as : List ClArg) (r : List Part) :
    argsOf (as.map (fun a => .node .arg false (.arg a.name false [])) ++ r) =
      (as.map fun a => (a.name, false, [])) ++ argsOf r := by
  induction as with
  | nil => rfl
  | cons c cs ih => simpa [argsOf] using ih

theorem argsOf_currents (cs : List Cur) (r : List Part) :
    argsOf (cs.map (fun c => .node .current c.mutable (.current c.name)) ++ r) = argsOf r := by
  induction cs with
  | nil => rfl
  | cons c cs ih => simpa [argsOf] using ih

theorem currentsOf_args (as : List ClArg) (r : List Part) :
    currentsOf (as.map (fun a => .node .arg false (.arg a.name false [])) ++ r) = currentsOf r := by
  induction as with
  | nil => rfl
  | cons c cs ih => simpa [currentsOf] using ih

theorem currentsOf_currents (cs : List Cur) (r : List Part) :
    currentsOf (cs.map (fun c => .node .current c.mutable (.current c.name)) ++ r) =
      cs.map (·.name) ++ currentsOf r := by
  induction cs with
  | nil => rfl
  | cons c cs ih => simpa [currentsOf] using ih

theorem only_append {ss : List S} {bs : List B} {ls : List L} {a b : List Part}
    (ha : only ss bs ls a = .ok ()) (hb : only ss bs ls b = .ok ()) : only ss bs ls (a ++ b) = .ok () := by
  simp only [only] at *
  split at ha
  · split at hb
    · rename_i h1 h2
      rw [List.all_append, h1, h2]
      rfl
    · simp at hb
  · simp at ha

theorem only_of {ss : List S} {bs : List B} {ls : List L} {ps : List Part}
    (h : ∀ p ∈ ps, (∃ l s, p = .str l s ∧ l ∈ ss) ∨ (∃ l b, p = .bool l b ∧ l ∈ bs) ∨
      ∃ l m v, p = .node l m v ∧ l ∈ ls) : only ss bs ls ps = .ok () := by
  rw [only, if_pos]
  rw [List.all_eq_true]
  intro p hp
  rcases h p hp with ⟨l, s, rfl, hl⟩ | ⟨l, b, rfl, hl⟩ | ⟨l, m, v, rfl, hl⟩ <;> simpa [among] using hl

theorem good_closure {args : List ClArg} {cur : List Cur} {e : Src} (he : SrcOk file e) :
    SrcOk file (.closure args cur e) := by
  have h := he.hold' (l := .expr) trivial
  refine Good.alt (l := .closure) (m := startsMut (args.map ClArg.tree ++ cur.map Cur.tree ++ [.node .expr e.tree])) ?_
    fun _ => rfl
  rw [conv_node (by simp) (by simp)]
  simp only [convs_append, convs, clArgs_convs, curs_convs, h, cv_ok, Spec.expr]
  cases Spec.expr file e with
  | none => simp
  | some v =>
    have h1 : only [] [.returns] [.arg, .current, .retType, .expr]
        (args.map (fun a => Part.node .arg false (.arg a.name false [])) ++
          cur.map (fun c => .node .current c.mutable (.current c.name)) ++ [.node .expr (Spec.isMut e) (.expr v)]) =
        .ok () := by
      apply only_of
      intro p hp
      simp only [List.append_assoc, List.mem_append, List.mem_map, List.mem_singleton] at hp
      rcases hp with ⟨a, _, rfl⟩ | ⟨a, _, rfl⟩ | rfl
      · exact .inr (.inr ⟨_, _, _, rfl, by simp⟩)
      · exact .inr (.inr ⟨_, _, _, rfl, by simp⟩)
      · exact .inr (.inr ⟨_, _, _, rfl, by simp⟩)
    simp only [List.append_assoc] at h1
    simp only [Option.map_some, res_some, cv_ok, assemble, readClosure, h1, List.append_assoc, argsOf_args,
      argsOf_currents, currentsOf_args, currentsOf_currents]
    simp only [lastRet, last, lastStep, List.foldl_append]
    simp [argsOf, currentsOf, Function.comp_def, lastStep]

theorem good_object {kvs : List (String × Src)}
    (h : convs file (treeKVs kvs) = res ((Spec.pairs file kvs).map kvParts)) : SrcOk file (.object kvs) := by
  refine Good.alt (l := .object) (m := startsMut (treeKVs kvs)) ?_ fun _ => rfl
  rw [conv_node (by simp) (by simp), h]
  simp only [Spec.expr]
  cases Spec.pairs file kvs <;> simp [assemble, kvs_kvParts]

theorem good_array {items : List Src} (hi : ListOk file items) : SrcOk file (.array items) := by
  refine Good.alt (l := .array) (m := startsMut (trees .arrayItem items)) ?_ fun _ => rfl
  rw [conv_node (by simp) (by simp), hi .arrayItem trivial]
  simp only [Spec.expr]
  cases h : Spec.exprs file items with
  | none => simp
  | some es => simp [assemble, exprs_argParts _ _ _ (spec_exprs_length h)]

theorem good_link {items : List Src} (hi : ListOk file items) : SrcOk file (.link items) := by
  refine Good.alt (l := .link) (m := startsMut (trees .linkItem items)) ?_ fun _ => rfl
  rw [conv_node (by simp) (by simp), hi .linkItem trivial]
  simp only [Spec.expr]
  cases h : Spec.exprs file items with
  | none => simp
  | some es => simp [assemble, exprs_argParts _ _ _ (spec_exprs_length h)]

theorem good_arrayFill {a b : Src} (ha : SrcOk file a) (hb : SrcOk file b) : SrcOk file (.arrayFill a b) := by
  have h1 := ha.hold' (l := .fill) trivial
  have h2 := hb.hold' (l := .n) trivial
  refine Good.alt (l := .arrayFill) (m := false) ?_ fun _ => rfl
  rw [conv_node (by simp) (by simp)]
  simp only [convs, h1, h2, Spec.expr]
  cases Spec.expr file a <;> cases Spec.expr file b <;> simp [assemble, only, among, last, lastStep, startsMut]

theorem good_forIn {k : ForInKind} {label : Option String} {n : String} {iter : Src} {body : List Src}
    (hi : SrcOk file iter) (hb : ListOk file body) : SrcOk file (.forIn k label n iter body) := by
  have h1 := hi.hold' (l := .iter) trivial
  have h2 := hb.block (l := .block) (.inl rfl)
  refine Good.alt (l := .forIn k) (m := false) ?_ fun _ => rfl
  rw [conv_node (by simp) (by simp)]
  simp only [convs_append, strOpt_convs, convs, conv_str, h1, h2, Spec.expr, cv_ok]
  cases Spec.expr file iter <;> cases Spec.exprs file body <;> cases label <;>
    simp [assemble, readForIn, only, among, last, lastStep, lastStr, lastStrStep, lastBlock, lastBlockStep, startsMut, strOpt]

/-- The variables of a loop convert to what they mean. -/
def VarsOk (file : String) (vs : List Var) : Prop := match Spec.vars file vs with
  | none => convs file (treeVars vs) = .error .err
  | some ws => ∃ ps, convs file (treeVars vs) = .ok ps ∧ VarParts ps ws

theorem good_forN {k : ForKind} {label : Option String} {vs : List Var} {body : List Src}
    (hv : VarsOk file vs) (hb : ListOk file body) : SrcOk file (.forN k label vs body) := by
  have h2 := hb.block (l := .block) (.inl rfl)
  refine Good.alt (l := .forN k)
    (m := startsMut (strOpt .label label ++ treeVars vs ++ [.node .block (trees .expr body)])) ?_ fun _ => rfl
  rw [conv_node (by simp) (by simp)]
  simp only [convs_append, strOpt_convs, convs, h2, Spec.expr, cv_ok]
  unfold VarsOk at hv
  cases hw : Spec.vars file vs with
  | none =>
    rw [hw] at hv
    simp [hv]
  | some ws =>
    rw [hw] at hv
    obtain ⟨ps, h1, hp⟩ := hv
    cases hb : Spec.exprs file body with
    | none => simp [h1]
    | some es =>
      have e1 : indices (label.toList.map (Part.str .label) ++ ps ++ [.node .block false (.block es)]) = .ok ws := by
        cases label with
        | none => simpa using hp.indices false es
        | some s => simpa [indices] using hp.indices false es
      have e2 : lastBlock .block (label.toList.map (Part.str .label) ++ ps ++ [.node .block false (.block es)]) = some es := by
        simp [lastBlock, lastBlockStep, List.foldl_append]
      have e3 : lastStr .label (label.toList.map (Part.str .label) ++ ps ++ [.node .block false (.block es)]) = label := by
        cases label with
        | none =>
          simp only [Option.toList_none, List.map_nil, List.nil_append, lastStr, List.foldl_append]
          exact hp.label none
        | some s =>
          simp only [Option.toList_some, List.map_cons, List.map_nil, List.cons_append, List.nil_append, lastStr,
            List.foldl_append, List.foldl_cons]
          exact hp.label (some s)
      simp only [h1, cv_ok, Option.map_some, res_some, assemble, readForN, e1, e2, e3, want_some, Option.bind_eq_bind,
        Option.bind_some]
      cases Syn.createForN k label ws es <;> simp

theorem good_for {label : Option String} {i c s : Src} {body : List Src}
    (hi : SrcOk file i) (hc : SrcOk file c) (hs : SrcOk file s) (hb : ListOk file body) :
    SrcOk file (.for_ label i c s body) := by
  have h1 := hi.hold' (l := .init) trivial
  have h2 := hc.hold' (l := .cond) trivial
  have h3 := hs.hold' (l := .step) trivial
  have h4 := hb.block (l := .block) (.inl rfl)
  refine Good.alt (l := .for') (m := false) ?_ fun _ => rfl
  rw [conv_node (by simp) (by simp)]
  simp only [convs_append, strOpt_convs, convs, h1, h2, h3, h4, Spec.expr, cv_ok]
  cases Spec.expr file i with
  | none => simp
  | some a =>
    cases Spec.expr file c with
    | none => simp
    | some b =>
      cases Spec.expr file s with
      | none => simp
      | some d =>
        cases Spec.exprs file body with
        | none => simp
        | some es =>
          cases label <;> simp [assemble, readFor, only, among, last, lastStep, lastStr, lastStrStep, lastBlock, lastBlockStep, startsMut, strOpt]

theorem good_loop {label : Option String} {body : List Src} (hb : ListOk file body) :
    SrcOk file (.loop label body) := by
  have h4 := hb.block (l := .block) (.inl rfl)
  refine Good.alt (l := .loop) (m := false) ?_ fun _ => rfl
  rw [conv_node (by simp) (by simp)]
  simp only [convs_append, strOpt_convs, convs, h4, Spec.expr, cv_ok]
  cases Spec.exprs file body <;> cases label <;>
    simp [assemble, readLoop, only, among, lastStr, lastStrStep, lastBlock, lastBlockStep, startsMut, strOpt]

/-- The parts of `else if`. -/
inductive ElifParts : List Part → List (Expr × List Expr) → Prop
  | nil : ElifParts [] []
  | cons {ps es} (m : Bool) (c : Expr) (b : List Expr) : ElifParts ps es →
      ElifParts (.node .elseIfCond m (.expr c) :: .node .elseIfBlock false (.block b) :: ps) ((c, b) :: es)

theorem ElifParts.only {ps : List Part} {es} (h : ElifParts ps es) :
    Front.only [] [] [.cond, .trueBlock, .elseIfCond, .elseIfBlock, .elseBlock] ps = .ok () := by
  induction h with
  | nil => rfl
  | cons m c b _ ih => exact only_append (a := [_, _]) rfl ih

theorem ElifParts.allOf {ps : List Part} {es} (h : ElifParts ps es) (r : List Part) :
    Front.allOf .elseIfCond (ps ++ r) = es.map (·.1) ++ Front.allOf .elseIfCond r := by
  induction h with
  | nil => rfl
  | cons m c b _ ih => simp [Front.allOf, ih]

theorem ElifParts.blocksOf {ps : List Part} {es} (h : ElifParts ps es) (r : List Part) :
    Front.blocksOf .elseIfBlock (ps ++ r) = es.map (·.2) ++ Front.blocksOf .elseIfBlock r := by
  induction h with
  | nil => rfl
  | cons m c b _ ih => simp [Front.blocksOf, ih]

theorem ElifParts.last {ps : List Part} {es} (h : ElifParts ps es) (acc : Option Expr) :
    ps.foldl (lastStep .cond) acc = acc := by
  induction h generalizing acc with
  | nil => rfl
  | cons m c b _ ih => simp [lastStep, ih]

theorem ElifParts.lastBlock {ps : List Part} {es} (h : ElifParts ps es) {l : L} (hl : l ≠ .elseIfBlock)
    (acc : Option (List Expr)) :
    ps.foldl (lastBlockStep l) acc = acc := by
  induction h generalizing acc with
  | nil => rfl
  | cons m c b _ ih => simp [lastBlockStep, ih, hl.symm]

/-- The `else if` convert to what they mean. -/
def ElifsOk (file : String) (vs : List (Src × List Src)) : Prop := match Spec.elseIfs file vs with
  | none => convs file (treeElifs vs) = .error .err
  | some ws => ∃ ps, convs file (treeElifs vs) = .ok ps ∧ ElifParts ps ws

/-- The `else` converts to what it means. -/
def ElseOk (file : String) (e : Option (List Src)) : Prop :=
  convs file (treeElse e) =
    res ((Spec.otherwise file e).map fun o => o.toList.map fun b => .node .elseBlock false (.block b))

theorem zip_split {α β : Type _} : ∀ l : List (α × β), (l.map (·.1)).zip (l.map (·.2)) = l
  | [] => rfl
  | a :: l => by simp [zip_split l]

theorem good_ite {cond : Src} {thn : List Src} {elifs : List (Src × List Src)} {els : Option (List Src)}
    (hc : SrcOk file cond) (ht : ListOk file thn) (hi : ElifsOk file elifs) (he : ElseOk file els) :
    SrcOk file (.ite cond thn elifs els) := by
  have h1 := hc.hold' (l := .cond) trivial
  have h2 := ht.block (l := .trueBlock) (.inr (.inl rfl))
  refine Good.alt (l := .if') (m := false) ?_ fun _ => rfl
  rw [conv_node (by simp) (by simp)]
  unfold ElseOk at he
  simp only [convs_append, List.cons_append, convs, h1, h2, he, Spec.expr, cv_ok]
  cases Spec.expr file cond with
  | none => simp
  | some c =>
    cases Spec.exprs file thn with
    | none => simp
    | some t =>
      unfold ElifsOk at hi
      cases hw : Spec.elseIfs file elifs with
      | none =>
        rw [hw] at hi
        simp [hi]
      | some ws =>
        rw [hw] at hi
        obtain ⟨ps, h3, hp⟩ := hi
        cases Spec.otherwise file els with
        | none => simp [h3]
        | some e =>
          have e1 : only [] [] [.cond, .trueBlock, .elseIfCond, .elseIfBlock, .elseBlock]
              (.node .cond (Spec.isMut cond) (.expr c) :: .node .trueBlock false (.block t) ::
                (ps ++ e.toList.map fun x => .node .elseBlock false (.block x))) = .ok () :=
            only_append (a := [_, _]) rfl (only_append hp.only (by cases e <;> rfl))
          simp only [h3, cv_ok, Option.map_some, res_some, assemble, readIf, e1, Option.bind_eq_bind, Option.bind_some]
          have e2 : last .cond (.node .cond (Spec.isMut cond) (.expr c) :: .node .trueBlock false (.block t) ::
                (ps ++ e.toList.map fun x => .node .elseBlock false (.block x))) = some c := by
            simp only [last, List.foldl_cons, List.foldl_append]
            rw [show lastStep .cond (lastStep .cond none (.node .cond (Spec.isMut cond) (.expr c)))
              (.node .trueBlock false (.block t)) = some c from rfl, hp.last]
            cases e <;> rfl
          have e3 : lastBlock .trueBlock (.node .cond (Spec.isMut cond) (.expr c) :: .node .trueBlock false (.block t) ::
                (ps ++ e.toList.map fun x => .node .elseBlock false (.block x))) = some t := by
            simp only [lastBlock, List.foldl_cons, List.foldl_append]
            rw [show lastBlockStep .trueBlock (lastBlockStep .trueBlock none (.node .cond (Spec.isMut cond) (.expr c)))
              (.node .trueBlock false (.block t)) = some t from rfl, hp.lastBlock (by simp)]
            cases e <;> rfl
          have e4 : lastBlock .elseBlock (.node .cond (Spec.isMut cond) (.expr c) :: .node .trueBlock false (.block t) ::
                (ps ++ e.toList.map fun x => .node .elseBlock false (.block x))) = e := by
            simp only [lastBlock, List.foldl_cons, List.foldl_append]
            rw [show lastBlockStep .elseBlock (lastBlockStep .elseBlock none (.node .cond (Spec.isMut cond) (.expr c)))
              (.node .trueBlock false (.block t)) = none from rfl, hp.lastBlock (by simp)]
            cases e <;> rfl
          have e5 : allOf .elseIfCond (e.toList.map fun x => Part.node .elseBlock false (.block x)) = [] := by
            cases e <;> rfl
          have e6 : blocksOf .elseIfBlock (e.toList.map fun x => Part.node .elseBlock false (.block x)) = [] := by
            cases e <;> rfl
          simp [e2, e3, e4, allOf, blocksOf, hp.allOf, hp.blocksOf, e5, e6, zip_split, startsMut]

theorem good_block {es : List Src} (hb : ListOk file es) : SrcOk file (.block es) := by
  have h := hb.block (l := .block) (.inl rfl)
  simp only [SrcOk, Spec.expr]
  cases he : Spec.exprs file es with
  | none => exact .inl (by simp [Src.tree, convs, h, he])
  | some es => exact ⟨[.node .block false (.block es)], by simp [Src.tree, convs, h, he], fun r => rfl⟩

theorem good_assign {l r : Src} {op : AssignOp} (hl : SrcOk file l) (hr : SrcOk file r) :
    SrcOk file (.assign l op r) := by
  have h1 := hl.hold' (l := .left) trivial
  have h2 := hr.hold' (l := .right) trivial
  refine Good.alt (l := .assign) (m := false) ?_ fun _ => rfl
  rw [conv_node (by simp) (by simp)]
  simp only [convs, conv_bool, h1, h2, Spec.expr, cv_ok]
  cases Spec.expr file l with
  | none => simp
  | some a =>
    cases Spec.expr file r with
    | none => simp
    | some b => cases op <;> simp [assemble, readAssign, only, among, last, lastStep, lastAsg, startsMut]

theorem good_compare {l r : Src} {op : BinOp} (hl : SrcOk file l) (hr : SrcOk file r) :
    SrcOk file (.compare l op r) := by
  have h1 := hl.hold' (l := .expr) trivial
  have h2 := hr.hold' (l := .expr) trivial
  refine Good.alt (l := .compare) (m := false) ?_ fun _ => rfl
  rw [conv_node (by simp) (by simp)]
  simp only [convs, conv_bool, h1, h2, Spec.expr, cv_ok]
  cases Spec.expr file l with
  | none => simp
  | some e =>
    cases Spec.expr file r with
    | none => simp
    | some f =>
      have := (OpParts.cons op .expr (Spec.isMut r) f (.inr (.inr rfl)) .nil).seqExpr (l := .expr) (Spec.isMut l) e
        (.inr (.inr rfl))
      simp [assemble, this, Syn.Spec.leftAssoc, Syn.binCall, Spec.app, startsMut]

theorem good_ret {e : Src} (he : SrcOk file e) : SrcOk file (.ret e) := by
  have h := he.hold' (l := .ret) trivial
  simp only [SrcOk, Spec.expr]
  cases hv : Spec.expr file e with
  | none => exact .inl (by simp [Src.tree, convs, h, hv])
  | some v => exact ⟨[.node .ret (Spec.isMut e) (.expr v)], by simp [Src.tree, convs, h, hv], fun r => rfl⟩

/-- A product converts to what it means. -/
def ProdOk (file : String) (p : Prod') : Prop := conv file (.node .mul p.tree) =
  res ((Spec.product file p).map fun e => .node .mul false (.expr e))

theorem ProdOk.expr {p : Prod'} (h : ProdOk file p) : conv file (.node .expr [.node .mul p.tree]) =
    res ((Spec.product file p).map fun e => .node .expr false (.expr e)) :=
  (Good.alt (l := .mul) h fun _ => rfl).hold (l := .expr) trivial

/-- What follows in a sum converts to what it means. -/
def AddOk (file : String) (rest : List (BinOp × Prod')) : Prop :=
  (convs file (treeAdd rest) = .error .err ∧ ∀ l, Spec.addRest file l rest = none) ∨
    ∃ ps es, convs file (treeAdd rest) = .ok ps ∧ OpParts ps es ∧
      ∀ l, Spec.addRest file l rest = some (Syn.Spec.leftAssoc Syn.binCall l es)

/-- What follows in a product converts to what it means. -/
def MulOk (file : String) (rest : List (BinOp × Opd)) : Prop :=
  (convs file (treeMul rest) = .error .err ∧ ∀ l, Spec.mulRest file l rest = none) ∨
    ∃ ps es, convs file (treeMul rest) = .ok ps ∧ OpParts ps es ∧
      ∀ l, Spec.mulRest file l rest = some (Syn.Spec.leftAssoc Syn.binCall l es)

/-- A factor converts to what it means. -/
def OpdOk (file : String) (o : Opd) : Prop := ∃ l m, (l = .neg ∨ l = .pow ∨ l = .expr) ∧
  conv file o.tree = res ((Spec.operand file o).map fun e => .node l m (.expr e))

theorem good_add {first : Prod'} {rest : List (BinOp × Prod')} (hf : ProdOk file first) (hr : AddOk file rest) :
    SrcOk file (.add first rest) := by
  refine Good.alt (l := .add) (m := false) ?_ fun _ => rfl
  rw [conv_node (by simp) (by simp)]
  simp only [convs, hf.expr, Spec.expr]
  cases Spec.product file first with
  | none => simp
  | some e =>
    rcases hr with ⟨h2, h3⟩ | ⟨ps, es, h2, hp, h3⟩
    · simp [h2, h3]
    · simp [h2, h3, assemble, hp.seqExpr (l := .expr) false e (.inr (.inr rfl)), startsMut]

theorem good_prod {first : Opd} {rest : List (BinOp × Opd)} (hf : OpdOk file first) (hr : MulOk file rest) :
    ProdOk file (.mk first rest) := by
  obtain ⟨l, m, hl, h⟩ := hf
  have hm : startsMut (first.tree :: treeMul rest) = false := by
    cases first <;> simp [Opd.tree, startsMut]
  rw [ProdOk, Prod'.tree, conv_node (by simp) (by simp), hm]
  simp only [convs, h, Spec.product]
  cases Spec.operand file first with
  | none => simp
  | some e =>
    rcases hr with ⟨h2, h3⟩ | ⟨ps, es, h2, hp, h3⟩
    · simp [h2, h3]
    · simp [h2, h3, assemble, hp.seqExpr m e hl]

theorem good_addCons {op : BinOp} {p : Prod'} {rest : List (BinOp × Prod')} (hp : ProdOk file p)
    (hr : AddOk file rest) : AddOk file ((op, p) :: rest) := by
  unfold AddOk
  simp only [treeAdd, convs, conv_bool, hp.expr, cv_ok, Spec.addRest]
  cases Spec.product file p with
  | none => exact .inl (by simp)
  | some e =>
    rcases hr with ⟨h2, h3⟩ | ⟨ps, es, h2, hp, h3⟩
    · exact .inl (by simp [h2, h3])
    · refine .inr ⟨_, (op, e) :: es, by simp [h2], .cons op .expr false e (.inr (.inr rfl)) hp, fun l => ?_⟩
      simp [h3, Syn.Spec.leftAssoc, Syn.binCall, Spec.app]

theorem good_mulCons {op : BinOp} {o : Opd} {rest : List (BinOp × Opd)} (ho : OpdOk file o)
    (hr : MulOk file rest) : MulOk file ((op, o) :: rest) := by
  obtain ⟨l, m, hl, h⟩ := ho
  unfold MulOk
  simp only [treeMul, convs, conv_bool, h, cv_ok, Spec.mulRest]
  cases Spec.operand file o with
  | none => exact .inl (by simp)
  | some e =>
    rcases hr with ⟨h2, h3⟩ | ⟨ps, es, h2, hp, h3⟩
    · exact .inl (by simp [h2, h3])
    · refine .inr ⟨_, (op, e) :: es, by simp [h2], .cons op l m e hl hp, fun l => ?_⟩
      simp [h3, Syn.Spec.leftAssoc, Syn.binCall, Spec.app]

theorem good_neg {p : Prod'} (hp : ProdOk file p) : OpdOk file (.neg p) := by
  refine ⟨.neg, false, .inl rfl, ?_⟩
  rw [Opd.tree, conv_node (by simp) (by simp)]
  simp only [convs, hp.expr, Spec.operand]
  cases Spec.product file p <;> simp [assemble, readUnop, only, among, last, lastStep, startsMut, Spec.app]

theorem good_pow {l r : Src} (hl : SrcOk file l) (hr : SrcOk file r) : OpdOk file (.pow l r) := by
  have h1 := hl.hold' (l := .expr) trivial
  have h2 := hr.hold' (l := .expr) trivial
  refine ⟨.pow, false, .inr (.inl rfl), ?_⟩
  rw [Opd.tree, conv_node (by simp) (by simp)]
  simp only [convs, conv_bool, h1, h2, Spec.operand, cv_ok]
  cases Spec.expr file l with
  | none => simp
  | some e =>
    cases Spec.expr file r with
    | none => simp
    | some f =>
      have := (OpParts.cons .pow .expr (Spec.isMut r) f (.inr (.inr rfl)) .nil).seqExpr (l := .expr) (Spec.isMut l) e
        (.inr (.inr rfl))
      simp only [opTok] at this
      simp [assemble, this, Syn.Spec.leftAssoc, Syn.binCall, Spec.app, startsMut, callName]

theorem good_plain {e : Src} (he : SrcOk file e) : OpdOk file (.plain e) :=
  ⟨.expr, Spec.isMut e, .inr (.inr rfl), by rw [Opd.tree, he.hold' (l := .expr) trivial, Spec.operand]⟩

/-- An expression that may be missing converts to what it means. -/
def OptOk (file : String) (o : Option Src) : Prop := ∀ s, o = some s → SrcOk file s

theorem OptOk.conv {o : Option Src} (h : OptOk file o) {l : L} (hl : Holds l) (d : Expr) :
    convs file (treeOpt l o) = .error .err ∧ Spec.orElse file d o = none ∨
    (∃ m e, convs file (treeOpt l o) = .ok [.node l m (.expr e)] ∧ Spec.orElse file d o = some e) ∨
    convs file (treeOpt l o) = .ok [] ∧ Spec.orElse file d o = some d := by
  cases o with
  | none => exact .inr (.inr ⟨rfl, rfl⟩)
  | some s =>
    have h1 := (h s rfl).hold' hl
    simp only [treeOpt, convs, h1, Spec.orElse]
    cases Spec.expr file s with
    | none => exact .inl ⟨rfl, rfl⟩
    | some e => exact .inr (.inl ⟨_, e, rfl, rfl⟩)

theorem good_mat4 {x : Src} {y z w : Option Src} (hx : SrcOk file x) (hy : OptOk file y) (hz : OptOk file z)
    (hw : OptOk file w) : SrcOk file (.mat4 x y z w) := by
  have h1 := hx.hold' (l := .ex) trivial
  refine Good.alt (l := .mat4) (m := false) ?_ fun _ => rfl
  rw [conv_node (by simp) (by simp)]
  simp only [List.cons_append, convs_append, convs, h1, Spec.expr]
  cases Spec.expr file x with
  | none => simp
  | some x =>
    rcases hy.conv (l := .ey) trivial (.const (.vec4 ⟨0#32, one32, 0#32, 0#32⟩)) with ⟨h2, g2⟩ | ⟨_, _, h2, g2⟩ | ⟨h2, g2⟩
    · simp [h2, g2]
    all_goals
      rcases hz.conv (l := .ez) trivial (.const (.vec4 ⟨0#32, 0#32, one32, 0#32⟩)) with ⟨h3, g3⟩ | ⟨_, _, h3, g3⟩ | ⟨h3, g3⟩
      · simp [h2, h3, g2, g3]
      all_goals
        rcases hw.conv (l := .ew) trivial (.const (.vec4 ⟨0#32, 0#32, 0#32, one32⟩)) with ⟨h4, g4⟩ | ⟨_, _, h4, g4⟩ | ⟨h4, g4⟩ <;>
          simp [h2, h3, h4, g2, g3, g4, assemble, readMat4, only, among, last, lastStep, startsMut]

theorem good_vec4 {x : Src} {y z w : Option Src} (hx : SrcOk file x) (hy : OptOk file y) (hz : OptOk file z)
    (hw : OptOk file w) : SrcOk file (.vec4 x y z w) := by
  have h1 := hx.hold' (l := .x) trivial
  refine Good.alt (l := .vec4) (m := false) ?_ fun _ => rfl
  rw [conv_node (by simp) (by simp)]
  simp only [List.cons_append, convs_append, convs, h1, Spec.expr]
  cases Spec.expr file x with
  | none => simp
  | some x =>
    rcases hy.conv (l := .y) trivial (.const (.ofF64 F64.zero)) with ⟨h2, g2⟩ | ⟨_, _, h2, g2⟩ | ⟨h2, g2⟩
    · simp [h2, g2]
    all_goals
      rcases hz.conv (l := .z) trivial (.const (.ofF64 F64.zero)) with ⟨h3, g3⟩ | ⟨_, _, h3, g3⟩ | ⟨h3, g3⟩
      · simp [h2, h3, g2, g3]
      all_goals
        rcases hw.conv (l := .w) trivial (.const (.ofF64 F64.zero)) with ⟨h4, g4⟩ | ⟨_, _, h4, g4⟩ | ⟨h4, g4⟩ <;>
          simp [h2, h3, h4, g2, g3, g4, assemble, readVec4, only, among, last, lastStep, startsMut]

theorem good_grab {level : Option F64} {e : Src} (he : SrcOk file e) : SrcOk file (.grab level e) := by
  have h := he.hold' (l := .expr) trivial
  simp only [SrcOk, Spec.expr]
  have ht : (Src.grab level e).tree = [.node .grab (level.toList.map (Cst.num .grabLevel) ++ [.node .expr e.tree])] := by
    cases level <;> rfl
  rw [ht]
  cases hv : Spec.expr file e with
  | none =>
    refine .inl ?_
    rw [convs, conv_node (by simp) (by simp)]
    cases level <;> simp [convs, h, hv]
  | some v =>
    refine ⟨[.node .grab false (.grab ((level.map fun x => min x.toUsize 65535).getD 1) v)], ?_, fun r => rfl⟩
    rw [convs, conv_node (by simp) (by simp)]
    cases level <;>
      simp [convs, h, hv, assemble, readGrab, only, among, last, lastStep, lastLevel, startsMut, toU16]

theorem good_tryExpr {e : Src} (he : SrcOk file e) : SrcOk file (.tryExpr e) := by
  have h := he.hold' (l := .expr) trivial
  refine Good.alt (l := .tryExpr) (m := false) ?_ fun _ => rfl
  rw [conv_node (by simp) (by simp)]
  simp only [convs, h, Spec.expr]
  cases Spec.expr file e <;> simp [assemble, only, among, last, lastStep, startsMut]

theorem good_not {e : Src} (he : SrcOk file e) : SrcOk file (.not e) := by
  have h := he.hold' (l := .expr) trivial
  refine Good.alt (l := .not) (m := false) ?_ fun _ => rfl
  rw [conv_node (by simp) (by simp)]
  simp only [convs, h, Spec.expr]
  cases Spec.expr file e <;> simp [assemble, readUnop, only, among, last, lastStep, startsMut, Spec.app]

theorem good_norm {e : Src} (he : SrcOk file e) : SrcOk file (.norm e) := by
  have h := he.hold' (l := .expr) trivial
  refine Good.alt (l := .norm) (m := false) ?_ fun _ => rfl
  rw [conv_node (by simp) (by simp)]
  simp only [convs, h, Spec.expr]
  cases Spec.expr file e <;> simp [assemble, readUnop, only, among, last, lastStep, startsMut, Spec.app]

theorem good_color (s : String) : SrcOk file (.color s) := by
  have hc : Spec.expr file (.color s) = (color s).map .const := by
    rw [color, Spec.expr]
    cases Data.Lex.rgba s.toList <;> rfl
  rw [SrcOk, hc]
  cases h : color s with
  | none => exact .inr ⟨[.str .color s], rfl, fun r => by simp [readExpr, altPart, h]⟩
  | some v => exact ⟨[.str .color s], rfl, fun r => by simp [readExpr, altPart, h]⟩

/-- A call converts to what it means. -/
def CalleeOk (file : String) (c : Callee) : Prop := ∃ l, (l = .call ∨ l = .namedCall) ∧
  conv file c.tree = res ((Spec.callee file c).map fun v => .node l false (.call (Spec.via c) (Spec.bare c) v.2)) ∧
  ∀ v, Spec.callee file c = some v → v.1 = Spec.inside (Spec.via c) (Spec.bare c)

theorem good_go {c : Callee} (hc : CalleeOk file c) : SrcOk file (.go c) := by
  obtain ⟨l, hl, h, -⟩ := hc
  refine Good.alt (l := .go) (m := false) ?_ fun _ => rfl
  have hm : startsMut [c.tree] = false := by cases c <;> simp [Callee.tree, startsMut]
  rw [conv_node (by simp) (by simp), hm]
  simp only [convs, h, Spec.expr]
  cases Spec.callee file c with
  | none => simp
  | some v => rcases hl with rfl | rfl <;> simp [assemble, only, among]

theorem good_call {c : Callee} (hc : CalleeOk file c) : SrcOk file (.call c) := by
  obtain ⟨l, hl, h, hn⟩ := hc
  simp only [SrcOk, Spec.expr]
  cases hv : Spec.callee file c with
  | none => exact .inl (by simp [Src.tree, convs, h, hv])
  | some v =>
    refine ⟨[.node l false (.call (Spec.via c) (Spec.bare c) v.2)], by simp [Src.tree, convs, h, hv], fun r => ?_⟩
    simp only [hn v hv, ← aliased_eq]
    rcases hl with rfl | rfl <;> rfl

/-- Arguments with words convert to what they mean. -/
def WordsOk (file : String) (args : List (String × Src)) : Prop :=
  convs file (treeWords args) = res ((Spec.worded file args).map (wordParts args))

theorem good_plainCall {a : Option String} {n : String} {args : List Src} (ha : ListOk file args) :
    CalleeOk file (.plain a n args) := by
  refine ⟨.call, .inl rfl, ?_, fun v hv => by
    cases he : Spec.exprs file args <;> simp [Spec.callee, he] at hv
    rw [← hv]; rfl⟩
  have hm : startsMut (strOpt .alias a ++ .str .name n :: trees .callArg args) = false := by cases a <;> rfl
  rw [Callee.tree, conv_node (by simp) (by simp), hm]
  simp only [convs_append, strOpt_convs, convs, conv_str, ha .callArg trivial, Spec.callee, cv_ok]
  cases he : Spec.exprs file args with
  | none => simp
  | some es =>
    cases a <;>
      simp [assemble, readCall, callParts, callPart, callParts_args _ _ _ _ _ (spec_exprs_length he), mutName_eq, Spec.via, Spec.bare]

theorem good_namedCall {a : Option String} {n : String} {args : List (String × Src)} (ha : WordsOk file args) :
    CalleeOk file (.named a n args) := by
  refine ⟨.namedCall, .inr rfl, ?_, fun v hv => by
    cases he : Spec.worded file args <;> simp [Spec.callee, he] at hv
    rw [← hv]; rfl⟩
  unfold WordsOk at ha
  have hm : startsMut (strOpt .alias a ++ .str .word n :: treeWords args) = false := by cases a <;> rfl
  rw [Callee.tree, conv_node (by simp) (by simp), hm]
  simp only [convs_append, strOpt_convs, convs, conv_str, ha, Spec.callee, cv_ok]
  cases he : Spec.worded file args with
  | none => simp
  | some es =>
    have hw := fun p => callParts_words args es p (spec_worded_length he)
    cases a <;>
      simp [assemble, readNamedCall, callParts, callPart, hw, mutName_eq, Spec.via, Spec.bare, append_ne_empty, Spec.wordName,
        show "".isEmpty = true from rfl]

/-- An item converts to what it means. -/
def ItemOk (file : String) (it : ItemSrc) : Prop := conv file it.tree =
  res ((Spec.item file it).map fun v => .node .item false (.item v))

theorem good_item {it : ItemSrc} (h : ItemOk file it) : SrcOk file (.item it) := by
  unfold ItemOk at h
  simp only [SrcOk, Spec.expr]
  cases hv : Spec.item file it with
  | none => exact .inl (by simp [Src.tree, convs, h, hv])
  | some v => exact ⟨[.node .item false (.item v)], by simp [Src.tree, convs, h, hv], fun r => rfl⟩

theorem good_mutItem {it : ItemSrc} (h : ItemOk file it) : SrcOk file (.mutItem it) := by
  unfold ItemOk at h
  simp only [SrcOk, Spec.expr]
  cases hv : Spec.item file it with
  | none => exact .inl (by simp [Src.tree, convs, h, hv])
  | some v => exact ⟨[.bool .mut true, .node .item false (.item v)], by simp [Src.tree, convs, h, hv], fun r => rfl⟩

theorem good_callClosure {it : ItemSrc} {args : List Src} (hi : ItemOk file it) (ha : ListOk file args) :
    SrcOk file (.callClosure it args) := by
  unfold ItemOk at hi
  obtain ⟨kids, hk, _⟩ := item_tree_mut it
  refine Good.alt (l := .callClosure) (m := false) ?_ fun _ => rfl
  rw [conv_node (by simp) (by simp)]
  simp only [convs, hi, ha .callArg trivial, Spec.expr]
  cases Spec.item file it with
  | none => simp
  | some v =>
    cases he : Spec.exprs file args with
    | none => simp
    | some es =>
      simp [assemble, readCallClosure, callParts, callPart, callParts_args _ _ _ _ _ (spec_exprs_length he), hk, startsMut]

theorem good_namedCallClosure {it : ItemSrc} {args : List (String × Src)} (hi : ItemOk file it) (ha : WordsOk file args) :
    SrcOk file (.namedCallClosure it args) := by
  unfold ItemOk at hi
  unfold WordsOk at ha
  obtain ⟨kids, hk, _⟩ := item_tree_mut it
  refine Good.alt (l := .namedCallClosure) (m := false) ?_ fun _ => rfl
  rw [conv_node (by simp) (by simp)]
  simp only [convs, hi, ha, Spec.expr]
  cases Spec.item file it with
  | none => simp
  | some v =>
    cases he : Spec.worded file args with
    | none => simp
    | some es =>
      have hj : (args.map (·.1)).foldl (fun n w => if n = "" then w else n ++ "_" ++ w) "" = Spec.joined (args.map (·.1)) := by
        cases args <;> simp [Spec.joined]
      simp [assemble, readNamedCallClosure, callParts, callPart, callParts_closure _ _ _ (spec_worded_length he), hk, startsMut,
        renameItem_eq, hj]

theorem good_unloop {len : Fin 3} {n : String} {e : Src} (he : SrcOk file e) : SrcOk file (.unloop len n e) := by
  have h := he.hold' (l := .expr) trivial
  refine Good.alt (l := .vec4UnLoop) (m := false) ?_ fun _ => rfl
  rw [conv_node (by simp) (by simp)]
  simp only [convs, conv_str, conv_bool, h, Spec.expr, cv_ok]
  cases Spec.expr file e with
  | none => simp
  | some e =>
    match len with
    | 0 => simp [assemble, readUnloop, only, among, last, lastStep, lastStr, lastStrStep, lastLen, startsMut, lenTok]
    | 1 => simp [assemble, readUnloop, only, among, last, lastStep, lastStr, lastStrStep, lastLen, startsMut, lenTok]
    | 2 => simp [assemble, readUnloop, only, among, last, lastStep, lastStr, lastStrStep, lastLen, startsMut, lenTok]

theorem good_try {e : Src} (h : SrcOk file e) : SrcOk file (.try_ e) := by
  simp only [SrcOk, Spec.expr] at h ⊢
  cases he : Spec.expr file e with
  | none =>
    rw [he] at h
    rcases h with h | ⟨ps, h, h'⟩
    · exact .inl (by simp [Src.tree, convs_append, h])
    · exact .inr ⟨ps ++ [.bool .try' true], by simp [Src.tree, convs_append, convs, h], fun r => by
        rw [List.append_assoc, h']⟩
  | some v =>
    rw [he] at h
    obtain ⟨ps, h, h'⟩ := h
    exact ⟨ps ++ [.bool .try' true], by simp [Src.tree, convs_append, convs, h], fun r => by
      rw [List.append_assoc, h']; rfl⟩

theorem good_swizzle {a b : Fin 4} {c d : Option (Fin 4)} {e : Src} (he : SrcOk file e) :
    SrcOk file (.swizzle a b c d e) := by
  have h := he.hold' (l := .expr) trivial
  refine Good.alt (l := .swizzle) (m := false) ?_ fun _ => rfl
  rw [conv_node (by simp) (by simp)]
  simp only [convs, convs_append, List.cons_append, swTok_conv file .sw0 a (.inl rfl),
    swTok_conv file .sw1 b (.inr (.inl rfl)), swOpt_convs file .sw2 c (.inr (.inr (.inl rfl))),
    swOpt_convs file .sw3 d (.inr (.inr (.inr rfl))), h, Spec.expr, cv_ok]
  cases Spec.expr file e with
  | none => simp
  | some e => cases c <;> cases d <;> simp [assemble, readSwizzle, only, among, last, lastStep, lastSw, startsMut]

theorem good_nil : ListOk file [] := fun _ _ => rfl

theorem good_cons {s : Src} {ss : List Src} (hs : SrcOk file s) (h : ListOk file ss) : ListOk file (s :: ss) := by
  intro l hl
  have h1 := hs.hold' hl
  have h2 := h l hl
  simp only [trees, convs, h1, h2, Spec.exprs]
  cases Spec.expr file s <;> cases Spec.exprs file ss <;> simp [argParts]

theorem good_kvCons {k : String} {s : Src} {r : List (String × Src)} (hs : SrcOk file s)
    (h : convs file (treeKVs r) = res ((Spec.pairs file r).map kvParts)) :
    convs file (treeKVs ((k, s) :: r)) = res ((Spec.pairs file ((k, s) :: r)).map kvParts) := by
  have h1 := hs.hold' (l := .val) trivial
  rw [treeKVs, convs, conv_node (by simp) (by simp)]
  simp only [convs, conv_str, h1, h, Spec.pairs, cv_ok]
  cases Spec.expr file s <;> cases Spec.pairs file r <;>
    simp [kvParts, assemble, only, among, last, lastStep, lastStr, lastStrStep, startsMut]

theorem good_wordCons {k : String} {s : Src} {r : List (String × Src)} (hs : SrcOk file s)
    (h : WordsOk file r) : WordsOk file ((k, s) :: r) := by
  unfold WordsOk at h ⊢
  have h1 := hs.hold' (l := .callArg) trivial
  simp only [treeWords, convs, conv_str, h1, h, Spec.worded, cv_ok]
  cases Spec.expr file s <;> cases Spec.worded file r <;> simp [wordParts]

/-- A variable of a loop converts to what it means. -/
def VarOk (file : String) (v : Var) : Prop := match Spec.var file v with
  | none => convs file v.tree = .error .err
  | some w => ∃ ms, convs file v.tree = .ok (varPart ms w)

theorem good_varPlain (n : String) : VarOk file (.plain n) := ⟨(false, false), rfl⟩

theorem good_varUpto {n : String} {b : Src} (hb : SrcOk file b) : VarOk file (.upto n b) := by
  have h1 := hb.hold' (l := .end') trivial
  unfold VarOk
  simp only [Spec.var, Var.tree, convs, conv_str, h1, cv_ok]
  cases Spec.expr file b with
  | none => simp
  | some e => exact ⟨(false, Spec.isMut b), rfl⟩

theorem good_varRange {n : String} {a b : Src} (ha : SrcOk file a) (hb : SrcOk file b) : VarOk file (.range n a b) := by
  have h0 := ha.hold' (l := .start) trivial
  have h1 := hb.hold' (l := .end') trivial
  unfold VarOk
  simp only [Spec.var, Var.tree, convs, conv_str, h0, h1, cv_ok]
  cases Spec.expr file a with
  | none => simp
  | some d =>
    cases Spec.expr file b with
    | none => simp
    | some e => exact ⟨(Spec.isMut a, Spec.isMut b), rfl⟩

theorem good_varCons {v : Var} {vs : List Var} (hv : VarOk file v) (h : VarsOk file vs) : VarsOk file (v :: vs) := by
  unfold VarsOk VarOk at *
  simp only [Spec.vars, treeVars, convs_append]
  cases h1 : Spec.var file v with
  | none =>
    rw [h1] at hv
    simp [hv]
  | some w =>
    rw [h1] at hv
    obtain ⟨ms, hv⟩ := hv
    cases h2 : Spec.vars file vs with
    | none =>
      rw [h2] at h
      simp [hv, h]
    | some ws =>
      rw [h2] at h
      obtain ⟨ps, h, hp⟩ := h
      simp only [hv, h, cv_ok, Option.bind_eq_bind, Option.bind_some]
      exact ⟨_, rfl, .cons ms w hp⟩

theorem good_elifCons {c : Src} {b : List Src} {r : List (Src × List Src)} (hc : SrcOk file c) (hb : ListOk file b)
    (h : ElifsOk file r) : ElifsOk file ((c, b) :: r) := by
  have h1 := hc.hold' (l := .elseIfCond) trivial
  have h2 := hb.block (l := .elseIfBlock) (.inr (.inr (.inl rfl)))
  unfold ElifsOk at *
  simp only [Spec.elseIfs, treeElifs, convs, h1, h2]
  cases Spec.expr file c with
  | none => simp
  | some e =>
    cases Spec.exprs file b with
    | none => simp
    | some es =>
      cases h3 : Spec.elseIfs file r with
      | none =>
        rw [h3] at h
        simp [h]
      | some ws =>
        rw [h3] at h
        obtain ⟨ps, h, hp⟩ := h
        simp only [h, cv_ok, Option.map_some, res_some, Option.bind_eq_bind, Option.bind_some]
        exact ⟨_, rfl, .cons _ e es hp⟩

theorem good_else {b : List Src} (hb : ListOk file b) : ElseOk file (some b) := by
  have h2 := hb.block (l := .elseBlock) (.inr (.inr (.inr rfl)))
  unfold ElseOk
  simp only [treeElse, convs, h2, Spec.otherwise]
  cases Spec.exprs file b <;> simp

/-- Properties convert to what they mean. -/
def IdsOk (file : String) (is : List IdSrc) : Prop := match Spec.ids file is with
  | none => convs file (treeIds is) = .error .err
  | some js => ∃ ps, convs file (treeIds is) = .ok ps ∧ ∀ p : ItemP, ps.foldlM itemPart p =
      .ok { p with ids := p.ids ++ js, tryIds := p.tryIds ++ Spec.tries p.ids.length is }

/-- Whether there is a `?`. -/
def IdSrc.t : IdSrc → Bool
  | .str _ t | .num _ t | .expr _ t => t

/-- A property converts to what it means. -/
def IdOk (file : String) (i : IdSrc) : Prop := match Spec.id' file i with
  | none => convs file i.tree = .error .err
  | some j => ∃ ps, convs file i.tree = .ok ps ∧ ∀ p : ItemP, ps.foldlM itemPart p =
      .ok { p with ids := p.ids ++ [j], tryIds := p.tryIds ++ if i.t then [p.ids.length] else [] }

theorem good_idStr (s : String) (t : Bool) : IdOk file (.str s t) := by
  refine ⟨.str .id s :: if t then [.bool .tryId true] else [], by simp [IdSrc.tree, convs, flag_convs], fun p => ?_⟩
  rw [List.foldlM_cons, itemPart, cv_ok, itemPart_flag _ _ (by simp)]
  cases t <;> simp [IdSrc.t]

theorem good_idNum (x : F64) (t : Bool) : IdOk file (.num x t) := by
  refine ⟨.num .id x :: if t then [.bool .tryId true] else [], by simp [IdSrc.tree, convs, flag_convs], fun p => ?_⟩
  rw [List.foldlM_cons, itemPart, cv_ok, itemPart_flag _ _ (by simp)]
  cases t <;> simp [IdSrc.t]

theorem good_idExpr {e : Src} (t : Bool) (he : SrcOk file e) : IdOk file (.expr e t) := by
  have h1 := he.hold' (l := .id) trivial
  unfold IdOk
  simp only [Spec.id', IdSrc.tree, convs, h1, flag_convs]
  cases Spec.expr file e with
  | none => simp
  | some v =>
    refine ⟨.node .id (Spec.isMut e) (.expr v) :: if t then [.bool .tryId true] else [], by simp, fun p => ?_⟩
    rw [List.foldlM_cons, itemPart, cv_ok, itemPart_flag _ _ (by simp)]
    cases t <;> simp [IdSrc.t]

theorem good_idNil : IdsOk file [] := ⟨[], rfl, fun p => by cases p; simp [Spec.tries]; rfl⟩

theorem good_idCons {i : IdSrc} {is : List IdSrc} (hi : IdOk file i) (h : IdsOk file is) : IdsOk file (i :: is) := by
  unfold IdsOk IdOk at *
  simp only [Spec.ids, treeIds, convs_append]
  cases h1 : Spec.id' file i with
  | none =>
    rw [h1] at hi
    simp [hi]
  | some w =>
    rw [h1] at hi
    obtain ⟨ps, hi, hp⟩ := hi
    cases h2 : Spec.ids file is with
    | none =>
      rw [h2] at h
      simp [hi, h]
    | some ws =>
      rw [h2] at h
      obtain ⟨qs, h, hq⟩ := h
      simp only [hi, h, cv_ok, Option.bind_eq_bind, Option.bind_some]
      refine ⟨_, rfl, fun p => ?_⟩
      rw [List.foldlM_append, hp, cv_ok, hq]
      cases i <;> rename_i t <;> cases t <;> simp [Spec.tries, IdSrc.t]

theorem good_mkItem {cur : Bool} {n : String} {t : Bool} {is : List IdSrc} (h : IdsOk file is) :
    ItemOk file (.mk cur n t is) := by
  cases is with
  | nil =>
    rw [ItemOk, ItemSrc.tree, conv_node (by simp) (by simp)]
    cases cur <;> cases t <;> rfl
  | cons i is =>
    unfold IdsOk at h
    have hm : startsMut (flag .current cur ++ .str .name n :: flag .tryItem t ++ [.node .itemExtra (treeIds (i :: is))]) =
        false := by cases cur <;> rfl
    rw [ItemOk, ItemSrc.tree, conv_node (by simp) (by simp), hm]
    have he : conv file (.node .itemExtra (treeIds (i :: is))) = (do .ok (.extra (← convs file (treeIds (i :: is))))) := by
      rw [conv, if_neg (by simp)]
      rfl
    simp only [List.cons_append, convs_append, flag_convs, convs, conv_str, he, Spec.item, cv_ok]
    cases h1 : Spec.ids file (i :: is) with
    | none =>
      rw [h1] at h
      simp [h]
    | some js =>
      rw [h1] at h
      obtain ⟨ps, h, hp⟩ := h
      cases cur <;> cases t <;> simp [h, assemble, readItem, itemParts, itemPart, hp]

end

/-! ## The whole text -/

mutual
theorem src_ok (file : String) : ∀ s : Src, SrcOk file s
  | .in_ a n => good_in a n
  | .closure _ _ e => good_closure (src_ok file e)
  | .object kvs => good_object (kvs_ok file kvs)
  | .array items => good_array (list_ok file items)
  | .arrayFill a b => good_arrayFill (src_ok file a) (src_ok file b)
  | .forIn _ _ _ i b => good_forIn (src_ok file i) (list_ok file b)
  | .forN _ _ vs b => good_forN (vars_ok file vs) (list_ok file b)
  | .for_ _ i c s b => good_for (src_ok file i) (src_ok file c) (src_ok file s) (list_ok file b)
  | .loop _ b => good_loop (list_ok file b)
  | .ite c t ei e => good_ite (src_ok file c) (list_ok file t) (elifs_ok file ei) (else_ok file e)
  | .brk label => by
    refine Good.alt (l := .brk) (m := false) ?_ fun _ => rfl
    cases label <;> rfl
  | .cont label => by
    refine Good.alt (l := .cont) (m := false) ?_ fun _ => rfl
    cases label <;> rfl
  | .block es => good_block (list_ok file es)
  | .assign l _ r => good_assign (src_ok file l) (src_ok file r)
  | .compare l _ r => good_compare (src_ok file l) (src_ok file r)
  | .ret e => good_ret (src_ok file e)
  | .retVoid => ⟨[.bool .returnVoid true], rfl, fun _ => rfl⟩
  | .add f r => good_add (prod_ok file f) (add_ok file r)
  | .mat4 x y z w => good_mat4 (src_ok file x) (opt_ok file y) (opt_ok file z) (opt_ok file w)
  | .vec4 x y z w => good_vec4 (src_ok file x) (opt_ok file y) (opt_ok file z) (opt_ok file w)
  | .link items => good_link (list_ok file items)
  | .grab _ e => good_grab (src_ok file e)
  | .tryExpr e => good_tryExpr (src_ok file e)
  | .paren e => src_ok file e
  | .not e => good_not (src_ok file e)
  | .norm e => good_norm (src_ok file e)
  | .text s => ⟨[.str .text s], rfl, fun _ => rfl⟩
  | .num x => ⟨[.num .num x], rfl, fun _ => rfl⟩
  | .bool b => ⟨[.bool .bool b], rfl, fun _ => rfl⟩
  | .color s => good_color s
  | .go c => good_go (callee_ok file c)
  | .call c => good_call (callee_ok file c)
  | .callClosure it args => good_callClosure (item_ok file it) (list_ok file args)
  | .namedCallClosure it args => good_namedCallClosure (item_ok file it) (words_ok file args)
  | .item it => good_item (item_ok file it)
  | .unloop _ _ e => good_unloop (src_ok file e)
  | .try_ e => good_try (src_ok file e)
  | .mutItem it => good_mutItem (item_ok file it)
  | .swizzle _ _ _ _ e => good_swizzle (src_ok file e)
theorem list_ok (file : String) : ∀ ss : List Src, ListOk file ss
  | [] => good_nil
  | s :: ss => good_cons (src_ok file s) (list_ok file ss)
theorem kvs_ok (file : String) : ∀ kvs : List (String × Src),
    convs file (treeKVs kvs) = res ((Spec.pairs file kvs).map kvParts)
  | [] => rfl
  | (_, s) :: r => good_kvCons (src_ok file s) (kvs_ok file r)
theorem words_ok (file : String) : ∀ args : List (String × Src), WordsOk file args
  | [] => rfl
  | (_, s) :: r => good_wordCons (src_ok file s) (words_ok file r)
theorem vars_ok (file : String) : ∀ vs : List Var, VarsOk file vs
  | [] => ⟨[], rfl, .nil⟩
  | v :: vs => good_varCons (var_ok file v) (vars_ok file vs)
theorem var_ok (file : String) : ∀ v : Var, VarOk file v
  | .plain n => good_varPlain n
  | .upto _ b => good_varUpto (src_ok file b)
  | .range _ a b => good_varRange (src_ok file a) (src_ok file b)
theorem elifs_ok (file : String) : ∀ vs : List (Src × List Src), ElifsOk file vs
  | [] => ⟨[], rfl, .nil⟩
  | (c, b) :: r => good_elifCons (src_ok file c) (list_ok file b) (elifs_ok file r)
theorem else_ok (file : String) : ∀ e : Option (List Src), ElseOk file e
  | none => rfl
  | some b => good_else (list_ok file b)
theorem opt_ok (file : String) : ∀ o : Option Src, OptOk file o
  | none => fun _ h => by simp at h
  | some s => fun t h => by
    have h1 := src_ok file s
    cases h
    exact h1
theorem prod_ok (file : String) : ∀ p : Prod', ProdOk file p
  | .mk f r => good_prod (opd_ok file f) (mul_ok file r)
theorem add_ok (file : String) : ∀ r : List (BinOp × Prod'), AddOk file r
  | [] => .inr ⟨[], [], rfl, .nil, fun _ => rfl⟩
  | (_, p) :: r => good_addCons (prod_ok file p) (add_ok file r)
theorem mul_ok (file : String) : ∀ r : List (BinOp × Opd), MulOk file r
  | [] => .inr ⟨[], [], rfl, .nil, fun _ => rfl⟩
  | (_, o) :: r => good_mulCons (opd_ok file o) (mul_ok file r)
theorem opd_ok (file : String) : ∀ o : Opd, OpdOk file o
  | .neg p => good_neg (prod_ok file p)
  | .pow l r => good_pow (src_ok file l) (src_ok file r)
  | .plain e => good_plain (src_ok file e)
theorem item_ok (file : String) : ∀ it : ItemSrc, ItemOk file it
  | .mk _ _ _ is => good_mkItem (ids_ok file is)
theorem ids_ok (file : String) : ∀ is : List IdSrc, IdsOk file is
  | [] => good_idNil
  | i :: is => good_idCons (id_ok file i) (ids_ok file is)
theorem id_ok (file : String) : ∀ i : IdSrc, IdOk file i
  | .str s t => good_idStr s t
  | .num x t => good_idNum x t
  | .expr e t => good_idExpr t (src_ok file e)
theorem callee_ok (file : String) : ∀ c : Callee, CalleeOk file c
  | .plain _ _ args => good_plainCall (list_ok file args)
  | .named _ _ args => good_namedCall (words_ok file args)
end

/-! ## Functions -/

theorem fold_same {α : Type} (f : α → Part → α) (ps : List Part) (h : ∀ p ∈ ps, ∀ acc, f acc p = acc) (acc : α) :
    ps.foldl f acc = acc := by
  induction ps generalizing acc with
  | nil => rfl
  | cons p ps ih =>
    rw [List.foldl_cons, h p (by simp)]
    exact ih (fun q hq => h q (by simp [hq])) acc

theorem trimLazy_eq (l : List (List Lazy)) : trimLazy l = Spec.upToLast l := by
  induction l with
  | nil => rfl
  | cons a l ih =>
    rw [trimLazy] at *
    rw [List.reverse_cons, List.dropWhile_append, Spec.upToLast, ← ih]
    cases h : (List.dropWhile List.isEmpty l.reverse).isEmpty with
    | false => simp [h]
    | true =>
      have h' : List.dropWhile List.isEmpty l.reverse = [] := by simpa using h
      cases a <;> simp [h']

theorem lazy_conv (file : String) (z : LazySrc) : match Spec.lazy file z with
    | none => conv file z.tree = .error .err ∨
        ∃ p, conv file z.tree = .ok p ∧ ∀ q : ArgP, argPart q p = .error .err
    | some v => ∃ p, conv file z.tree = .ok p ∧ ∀ q : ArgP, argPart q p = .ok { q with lazy := q.lazy ++ [v] } := by
  cases z with
  | ok => exact ⟨_, rfl, fun q => rfl⟩
  | err => exact ⟨_, rfl, fun q => rfl⟩
  | some => exact ⟨_, rfl, fun q => rfl⟩
  | expr e =>
    have h := (src_ok file e).hold' (l := .expr) trivial
    have h' : conv file (LazySrc.expr e).tree =
        res ((Spec.expr file e).map fun v => .node .grab false (.grab 1 v)) := by
      rw [LazySrc.tree, conv_node (by simp) (by simp)]
      simp only [convs, h]
      cases Spec.expr file e <;> simp [assemble, readGrab, only, among, last, lastStep, lastLevel, startsMut]
    rw [h']
    simp only [Spec.lazy]
    cases Spec.expr file e with
    | none => exact .inl rfl
    | some v =>
      cases hv : preExpr v with
      | none =>
        simp only [Option.bind_eq_bind, Option.bind_some, hv, Option.bind_none]
        exact .inr ⟨_, rfl, fun q => by simp [argPart, hv]⟩
      | some w =>
        simp only [Option.bind_eq_bind, Option.bind_some, hv]
        exact ⟨_, rfl, fun q => by simp [argPart, hv]⟩

theorem lazies_conv (file : String) (zs : List LazySrc) : match zs.mapM (Spec.lazy file) with
    | none => convs file (zs.map LazySrc.tree) = .error .err ∨
        ∃ ps, convs file (zs.map LazySrc.tree) = .ok ps ∧ ∀ q : ArgP, ps.foldlM argPart q = .error .err
    | some vs => ∃ ps, convs file (zs.map LazySrc.tree) = .ok ps ∧
        ∀ q : ArgP, ps.foldlM argPart q = .ok { q with lazy := q.lazy ++ vs } := by
  induction zs with
  | nil => exact ⟨[], rfl, fun q => by simp; rfl⟩
  | cons z zs ih =>
    have h := lazy_conv file z
    rw [List.mapM_cons]
    simp only [List.map_cons, convs]
    cases h1 : Spec.lazy file z with
    | none =>
      rw [h1] at h
      rcases h with h | ⟨p, h, hp⟩
      · exact .inl (by simp [h])
      · cases h2 : convs file (zs.map LazySrc.tree) with
        | error b =>
          refine .inl ?_
          cases h3 : zs.mapM (Spec.lazy file) with
          | none =>
            rw [h3, h2] at ih
            rcases ih with ih | ⟨ps, ih, _⟩
            · simpa [h] using ih
            · simp at ih
          | some vs =>
            rw [h3, h2] at ih
            obtain ⟨ps, ih, _⟩ := ih
            simp at ih
        | ok ps => exact .inr ⟨p :: ps, by simp [h], fun q => by simp [List.foldlM_cons, hp]⟩
    | some v =>
      rw [h1] at h
      obtain ⟨p, h, hp⟩ := h
      cases h3 : zs.mapM (Spec.lazy file) with
      | none =>
        rw [h3] at ih
        rcases ih with ih | ⟨ps, ih, hq⟩
        · exact .inl (by simp [h, ih])
        · exact .inr ⟨p :: ps, by simp [h, ih], fun q => by simp [List.foldlM_cons, hp, hq]⟩
      | some vs =>
        rw [h3] at ih
        obtain ⟨ps, ih, hq⟩ := ih
        exact ⟨p :: ps, by simp [h, ih], fun q => by simp [List.foldlM_cons, hp, hq]⟩

theorem fnArg_conv (file : String) (a : FnArg) : conv file a.tree =
    res ((a.lazy.mapM (Spec.lazy file)).map fun vs => .node .arg a.mutable (.arg a.name a.mutable vs)) := by
  obtain ⟨m, n, lt, ty, lz⟩ := a
  obtain ⟨m', h⟩ := tyOpt_convs file ty
  have hm : startsMut (flag .mut m ++ .str .name n :: strOpt .lifetime lt ++ tyOpt .type ty ++
      lz.map LazySrc.tree) = m := by cases m <;> rfl
  have hz := lazies_conv file lz
  rw [FnArg.tree, conv_node (by simp) (by simp), hm]
  simp only [List.cons_append, convs_append, flag_convs, convs, conv_str, strOpt_convs, h, cv_ok, List.append_assoc]
  cases hl : lz.mapM (Spec.lazy file) with
  | none =>
    rw [hl] at hz
    rcases hz with hz | ⟨ps, hz, hq⟩
    · simp [hz]
    · cases m <;> cases lt <;> cases ty <;> simp [hz, assemble, readArg, argPart, hq]
  | some vs =>
    rw [hl] at hz
    obtain ⟨ps, hz, hq⟩ := hz
    cases m <;> cases lt <;> cases ty <;> simp [hz, assemble, readArg, argPart, hq]

/-- The parts of the arguments of a function. -/
def fnArgParts : List FnArg → List (List Lazy) → List Part
  | a :: as, v :: vs => .node .arg a.mutable (.arg a.name a.mutable v) :: fnArgParts as vs
  | _, _ => []

theorem fnArgs_convs (file : String) (as : List FnArg) : convs file (as.map FnArg.tree) =
    res ((as.mapM fun (a : FnArg) => a.lazy.mapM (Spec.lazy file)).map (fnArgParts as)) := by
  induction as with
  | nil => rfl
  | cons a as ih =>
    rw [List.mapM_cons]
    simp only [List.map_cons, convs, fnArg_conv, ih]
    cases a.lazy.mapM (Spec.lazy file) with
    | none => simp
    | some v => cases as.mapM fun (a : FnArg) => a.lazy.mapM (Spec.lazy file) <;> simp [fnArgParts]

theorem mem_fnArgParts {as : List FnArg} {vs : List (List Lazy)} {p : Part} (h : p ∈ fnArgParts as vs) :
    ∃ m n v, p = .node .arg m (.arg n m v) := by
  induction as generalizing vs with
  | nil => simp [fnArgParts] at h
  | cons a as ih =>
    cases vs with
    | nil => simp [fnArgParts] at h
    | cons v vs =>
      simp only [fnArgParts, List.mem_cons] at h
      rcases h with rfl | h
      · exact ⟨_, _, _, rfl⟩
      · exact ih h

theorem argsOf_fnArgs : ∀ (as : List FnArg) (vs : List (List Lazy)) (r : List Part), as.length = vs.length →
    (argsOf (fnArgParts as vs ++ r)).map (·.1) = as.map (·.name) ++ (argsOf r).map (·.1) ∧
    (argsOf (fnArgParts as vs ++ r)).map (·.2.1) = as.map (·.mutable) ++ (argsOf r).map (·.2.1) ∧
    (argsOf (fnArgParts as vs ++ r)).map (·.2.2) = vs ++ (argsOf r).map (·.2.2)
  | [], [], r, _ => by simp [fnArgParts]
  | a :: as, v :: vs, r, h => by
    obtain ⟨h1, h2, h3⟩ := argsOf_fnArgs as vs r (by simpa using h)
    simp only [fnArgParts, List.cons_append, argsOf, List.map_cons, h1, h2, h3, and_self]

theorem currentsOf_fnArgs (as : List FnArg) (vs : List (List Lazy)) (r : List Part) :
    currentsOf (fnArgParts as vs ++ r) = currentsOf r := by
  induction as generalizing vs with
  | nil => rfl
  | cons a as ih => cases vs with
    | nil => rfl
    | cons v vs => simp [fnArgParts, currentsOf, ih]

theorem tys_convs (file : String) (tys : List (List Cst)) :
    convs file (tys.map (.node .ty)) = .ok (tys.map fun _ => .node .ty false .skip) := by
  induction tys with
  | nil => rfl
  | cons t tys ih =>
    have h : conv file (.node .ty t) = .ok (.node .ty false .skip) := by rw [conv, if_pos rfl]
    simp [convs, h, ih]

theorem argsOf_tys (tys : List (List Cst)) : argsOf (tys.map fun _ => Part.node .ty false .skip) = [] := by
  induction tys with
  | nil => rfl
  | cons _ _ ih => simpa [argsOf] using ih

theorem currentsOf_tys (tys : List (List Cst)) : currentsOf (tys.map fun _ => Part.node .ty false .skip) = [] := by
  induction tys with
  | nil => rfl
  | cons _ _ ih => simpa [currentsOf] using ih

/-- One step of the search for the result. -/
theorem lastRet_same (ps : List Part) (h : ∀ p ∈ ps, ∃ l m v, p = .node l m v ∧ l ≠ .retType ∧ l ≠ .expr) (r : List Part) :
    lastRet (ps ++ r) = lastRet r := by
  unfold lastRet
  rw [List.foldl_append, fold_same _ ps]
  intro p hp acc
  obtain ⟨l, m, v, rfl, h1, h2⟩ := h p hp
  cases l <;> first | rfl | exact absurd rfl h1 | exact absurd rfl h2

theorem lastRet_after (ps : List Part) (h : ∀ p ∈ ps, ∃ l m v, p = .node l m v ∧ l ≠ .retType ∧ l ≠ .expr) (r : List Part) :
    lastRet (r ++ ps) = lastRet r := by
  unfold lastRet
  rw [List.foldl_append, fold_same _ ps]
  intro p hp acc
  obtain ⟨l, m, v, rfl, h1, h2⟩ := h p hp
  cases l <;> first | rfl | exact absurd rfl h1 | exact absurd rfl h2

theorem last_same (ps : List Part) (k : L) (h : ∀ p ∈ ps, ∃ l m v, p = .node l m v ∧ l ≠ k) (acc : Option Expr) :
    ps.foldl (lastStep k) acc = acc := by
  apply fold_same
  intro p hp acc
  obtain ⟨l, m, v, rfl, h1⟩ := h p hp
  cases v <;> simp [lastStep, h1]

theorem lastBlock_same (ps : List Part) (k : L) (h : ∀ p ∈ ps, ∃ l m v, p = .node l m v ∧ l ≠ k)
    (acc : Option (List Expr)) : ps.foldl (lastBlockStep k) acc = acc := by
  apply fold_same
  intro p hp acc
  obtain ⟨l, m, v, rfl, h1⟩ := h p hp
  cases v <;> simp [lastBlockStep, h1]

theorem lastStr_same (ps : List Part) (k : S) (h : ∀ p ∈ ps, ∃ l m v, p = .node l m v)
    (acc : Option String) : ps.foldl (lastStrStep k) acc = acc := by
  apply fold_same
  intro p hp acc
  obtain ⟨l, m, v, rfl⟩ := h p hp
  rfl

theorem block_parts {es : List Expr} (tys : List (List Cst)) (pre : List Part)
    (hpre : ∀ p ∈ pre, ∃ l m v, p = .node l m v ∧ l = .retType) :
    let ps := pre ++ .node .block false (.block es) :: tys.map fun _ => Part.node .ty false .skip
    only [.name] [.returns] [.arg, .current, .retType, .block, .expr, .ty] ps = .ok () ∧
    (∀ acc, ps.foldl (lastStrStep .name) acc = acc) ∧
    (∀ acc, ps.foldl (lastStep .expr) acc = acc) ∧
    (∀ acc, ps.foldl (lastBlockStep .block) acc = some es) := by
  have hty : ∀ p ∈ tys.map fun _ => Part.node .ty false .skip, ∃ l m v, p = .node l m v ∧ l = .ty := by
    intro p hp
    simp only [List.mem_map] at hp
    obtain ⟨_, _, rfl⟩ := hp
    exact ⟨_, _, _, rfl, rfl⟩
  intro ps
  have hps : ∀ p ∈ ps, ∃ l m v, p = .node l m v ∧ (l = .retType ∨ l = .block ∨ l = .ty) := by
    intro p hp
    simp only [ps, List.mem_append, List.mem_cons] at hp
    rcases hp with hp | rfl | hp
    · obtain ⟨l, m, v, rfl, rfl⟩ := hpre p hp
      exact ⟨_, _, _, rfl, .inl rfl⟩
    · exact ⟨_, _, _, rfl, .inr (.inl rfl)⟩
    · obtain ⟨l, m, v, rfl, rfl⟩ := hty p hp
      exact ⟨_, _, _, rfl, .inr (.inr rfl)⟩
  refine ⟨only_of fun p hp => ?_, lastStr_same ps _ fun p hp => ?_, last_same ps _ fun p hp => ?_, fun acc => ?_⟩
  · obtain ⟨l, m, v, rfl, rfl | rfl | rfl⟩ := hps p hp <;> exact .inr (.inr ⟨_, _, _, rfl, by simp⟩)
  · obtain ⟨l, m, v, rfl, _⟩ := hps p hp
    exact ⟨_, _, _, rfl⟩
  · obtain ⟨l, m, v, rfl, rfl | rfl | rfl⟩ := hps p hp <;> exact ⟨_, _, _, rfl, by simp⟩
  · simp only [ps, List.foldl_append, List.foldl_cons]
    rw [lastBlock_same pre _ fun p hp => by
        obtain ⟨l, m, v, rfl, rfl⟩ := hpre p hp
        exact ⟨_, _, _, rfl, by simp⟩,
      lastBlock_same _ _ fun p hp => by
        obtain ⟨l, m, v, rfl, rfl⟩ := hty p hp
        exact ⟨_, _, _, rfl, by simp⟩]
    rfl

/-- The parts of the block or expression of a function. -/
theorem body_convs (file : String) (b : BodySrc) : match Spec.body file b with
    | none => convs file b.tree = .error .err
    | some es => ∃ ps, convs file b.tree = .ok ps ∧
        only [.name] [.returns] [.arg, .current, .retType, .block, .expr, .ty] ps = .ok () ∧
        (∀ acc, ps.foldl (lastStrStep .name) acc = acc) ∧ argsOf ps = [] ∧ currentsOf ps = [] ∧
        lastRet ps = some (Spec.returns b) ∧ bodyOf ps = .ok es := by
  have hty : ∀ tys : List (List Cst), ∀ p ∈ tys.map fun _ => Part.node .ty false .skip,
      ∃ l m v, p = .node l m v ∧ l ≠ .retType ∧ l ≠ .expr := by
    intro tys p hp
    simp only [List.mem_map] at hp
    obtain ⟨_, _, rfl⟩ := hp
    exact ⟨_, _, _, rfl, by simp, by simp⟩
  cases b with
  | block es tys =>
    have h := (list_ok file es).block (l := .block) (.inl rfl)
    simp only [Spec.body, BodySrc.tree, convs, conv_bool, h, tys_convs, cv_ok]
    cases Spec.exprs file es with
    | none => simp
    | some es =>
      obtain ⟨h1, h2, h3, h4⟩ := block_parts (es := es) tys [] (by simp)
      refine ⟨_, rfl, only_append (a := [_]) rfl h1, fun acc => ?_, ?_, ?_, ?_, ?_⟩
      · rw [List.foldl_cons]
        exact h2 acc
      · simp only [argsOf, argsOf_tys]
      · simp only [currentsOf, currentsOf_tys]
      · exact lastRet_after _ (hty tys) [.bool .returns false, .node .block false (.block es)]
      · simp only [bodyOf, last, lastBlock, List.foldl_cons]
        simp only [List.nil_append, List.foldl_cons] at h3 h4
        rw [show lastStep .expr none (.bool .returns false) = none from rfl, h3,
          show lastBlockStep .block none (.bool .returns false) = none from rfl, h4]
        rfl
  | returns ty es tys =>
    have h := (list_ok file es).block (l := .block) (.inl rfl)
    have ht : ∃ m, convs file (tyOpt .retType ty) = .ok (ty.toList.map fun t => .node .retType m (.ty t.ty)) := by
      cases ty with
      | none => exact ⟨false, rfl⟩
      | some t =>
        obtain ⟨ps, h, h'⟩ := ty_tree file t
        exact ⟨startsMut t.tree, by simp [tyOpt, convs, conv_node, h, assemble, h']⟩
    obtain ⟨m, ht⟩ := ht
    simp only [Spec.body, BodySrc.tree, convs, convs_append, List.cons_append, conv_bool, h, ht, tys_convs, cv_ok]
    cases Spec.exprs file es with
    | none => simp
    | some es =>
      obtain ⟨h1, h2, h3, h4⟩ := block_parts (es := es) tys (ty.toList.map fun t => .node .retType m (.ty t.ty))
        (by simp)
      refine ⟨_, rfl, only_append (a := [_]) rfl h1, fun acc => ?_, ?_, ?_, ?_, ?_⟩
      · rw [List.foldl_cons]
        exact h2 acc
      · cases ty <;> exact argsOf_tys tys
      · cases ty <;> exact currentsOf_tys tys
      · have := lastRet_after _ (hty tys) (.bool .returns true :: ty.toList.map (fun t => .node .retType m (.ty t.ty)) ++
          [.node .block false (.block es)])
        simp only [List.append_assoc, List.cons_append, List.nil_append] at this
        rw [this]
        cases ty <;> rfl
      · simp only [bodyOf, last, lastBlock, List.foldl_cons]
        rw [show lastStep .expr none (.bool .returns true) = none from rfl, h3,
          show lastBlockStep .block none (.bool .returns true) = none from rfl, h4]
        rfl
  | expr e =>
    have h := (src_ok file e).hold' (l := .expr) trivial
    simp only [Spec.body, BodySrc.tree, convs, h]
    cases Spec.expr file e with
    | none => simp
    | some v => exact ⟨_, rfl, rfl, fun acc => rfl, rfl, rfl, rfl, rfl⟩

/-- What `readFn` does. -/
theorem readFn_eq (file : String) (ps : List Part) : readFn file ps = (do
    only [.name] [.returns] [.arg, .current, .retType, .block, .expr, .ty] ps
    let name ← want (lastStr .name ps)
    let body ← bodyOf ps
    let ret ← want (lastRet ps)
    .ok (.fn {
      name := mutName name ((argsOf ps).map (·.2.1)), file := file, args := (argsOf ps).map (·.1)
      lazyInv := trimLazy ((argsOf ps).map (·.2.2)), currents := currentsOf ps, returns := ret, body := body })) := rfl

theorem mapM_length {α β : Type} {f : α → Option β} : ∀ {l : List α} {r : List β}, l.mapM f = some r → l.length = r.length
  | [], r, h => by
    simp at h
    simp [h]
  | a :: l, r, h => by
    rw [List.mapM_cons] at h
    cases h1 : f a with
    | none => simp [h1] at h
    | some b =>
      cases h2 : l.mapM f with
      | none => simp [h1, h2] at h
      | some bs =>
        simp only [h1, h2, Option.bind_eq_bind, Option.bind_some, Option.pure_def, Option.some.injEq] at h
        rw [← h]
        simp [mapM_length h2]

theorem fn_conv (file : String) (f : FnSrc) : conv file f.tree = res ((Spec.fn file f).map fun g => .node .fn false (.fn g)) := by
  obtain ⟨n, args, cur, b⟩ := f
  have hb := body_convs file b
  rw [FnSrc.tree, conv_node (by simp) (by simp)]
  simp only [List.cons_append, convs_append, convs, conv_str, fnArgs_convs, curs_convs, cv_ok, Spec.fn]
  cases ha : args.mapM fun a => a.lazy.mapM (Spec.lazy file) with
  | none => simp
  | some vs =>
    cases he : Spec.body file b with
    | none =>
      rw [he] at hb
      simp [hb]
    | some es =>
      rw [he] at hb
      obtain ⟨ps, h1, h2, h3, h4, h5, h6, h7⟩ := hb
      have hlen := mapM_length ha
      have hargs : ∀ p ∈ fnArgParts args vs, ∃ l m v, p = .node l m v ∧ l = .arg := fun p hp => by
        obtain ⟨m, n, v, rfl⟩ := mem_fnArgParts hp
        exact ⟨_, _, _, rfl, rfl⟩
      have hcur : ∀ p ∈ cur.map fun c => Part.node .current c.mutable (.current c.name),
          ∃ l m v, p = .node l m v ∧ l = .current := fun p hp => by
        simp only [List.mem_map] at hp
        obtain ⟨c, _, rfl⟩ := hp
        exact ⟨_, _, _, rfl, rfl⟩
      obtain ⟨a1, a2, a3⟩ := argsOf_fnArgs args vs
        (cur.map (fun c => Part.node .current c.mutable (.current c.name)) ++ ps) hlen
      have c1 : argsOf (cur.map (fun c => Part.node .current c.mutable (.current c.name)) ++ ps) = [] := by
        rw [argsOf_currents, h4]
      rw [c1] at a1 a2 a3
      simp only [List.map_nil, List.append_nil] at a1 a2 a3
      simp only [Option.map_some, res_some, cv_ok, h1, assemble, readFn_eq, Option.bind_eq_bind, Option.bind_some,
        List.append_assoc, List.cons_append]
      have e0 : only [.name] [.returns] [.arg, .current, .retType, .block, .expr, .ty]
          (.str .name n :: (fnArgParts args vs ++
            (cur.map (fun c => Part.node .current c.mutable (.current c.name)) ++ ps))) = .ok () := by
        refine only_append (a := [.str .name n]) rfl (only_append (only_of fun p hp => ?_)
          (only_append (only_of fun p hp => ?_) h2))
        · obtain ⟨l, m, v, rfl, rfl⟩ := hargs p hp
          exact .inr (.inr ⟨_, _, _, rfl, by simp⟩)
        · obtain ⟨l, m, v, rfl, rfl⟩ := hcur p hp
          exact .inr (.inr ⟨_, _, _, rfl, by simp⟩)
      have e1 : lastStr .name (.str .name n :: (fnArgParts args vs ++
          (cur.map (fun c => Part.node .current c.mutable (.current c.name)) ++ ps))) = some n := by
        simp only [lastStr, List.foldl_cons, List.foldl_append]
        rw [lastStr_same (fnArgParts args vs) _ fun p hp => by
            obtain ⟨l, m, v, rfl, _⟩ := hargs p hp
            exact ⟨_, _, _, rfl⟩,
          lastStr_same (cur.map _) _ fun p hp => by
            obtain ⟨l, m, v, rfl, _⟩ := hcur p hp
            exact ⟨_, _, _, rfl⟩, h3]
        rfl
      have e2 : bodyOf (.str .name n :: (fnArgParts args vs ++
          (cur.map (fun c => Part.node .current c.mutable (.current c.name)) ++ ps))) = .ok es := by
        rw [← h7]
        simp only [bodyOf, last, lastBlock, List.foldl_cons, List.foldl_append]
        rw [show lastStep .expr none (.str .name n) = none from rfl,
          show lastBlockStep .block none (.str .name n) = none from rfl,
          last_same (fnArgParts args vs) _ fun p hp => by
            obtain ⟨l, m, v, rfl, rfl⟩ := hargs p hp
            exact ⟨_, _, _, rfl, by simp⟩,
          last_same (cur.map _) _ fun p hp => by
            obtain ⟨l, m, v, rfl, rfl⟩ := hcur p hp
            exact ⟨_, _, _, rfl, by simp⟩,
          lastBlock_same (fnArgParts args vs) _ fun p hp => by
            obtain ⟨l, m, v, rfl, rfl⟩ := hargs p hp
            exact ⟨_, _, _, rfl, by simp⟩,
          lastBlock_same (cur.map _) _ fun p hp => by
            obtain ⟨l, m, v, rfl, rfl⟩ := hcur p hp
            exact ⟨_, _, _, rfl, by simp⟩]
      have e3 : lastRet (.str .name n :: (fnArgParts args vs ++
          (cur.map (fun c => Part.node .current c.mutable (.current c.name)) ++ ps))) = some (Spec.returns b) := by
        rw [← h6]
        show lastRet (fnArgParts args vs ++ _) = _
        rw [lastRet_same _ fun p hp => by
            obtain ⟨l, m, v, rfl, rfl⟩ := hargs p hp
            exact ⟨_, _, _, rfl, by simp, by simp⟩,
          lastRet_same _ fun p hp => by
            obtain ⟨l, m, v, rfl, rfl⟩ := hcur p hp
            exact ⟨_, _, _, rfl, by simp, by simp⟩]
      have e4 : argsOf (.str .name n :: (fnArgParts args vs ++
          (cur.map (fun c => Part.node .current c.mutable (.current c.name)) ++ ps))) = argsOf (fnArgParts args vs ++
          (cur.map (fun c => Part.node .current c.mutable (.current c.name)) ++ ps)) := rfl
      have e5 : currentsOf (.str .name n :: (fnArgParts args vs ++
          (cur.map (fun c => Part.node .current c.mutable (.current c.name)) ++ ps))) = cur.map (·.name) := by
        show currentsOf (fnArgParts args vs ++ _) = _
        rw [currentsOf_fnArgs, currentsOf_currents, h5, List.append_nil]
      simp [e0, e1, e2, e3, e4, e5, a1, a2, a3, trimLazy_eq, mutName_eq, startsMut]

theorem fns_conv (file : String) (fs : List FnSrc) : toFns file (fs.map FnSrc.tree) = res (fs.mapM (Spec.fn file)) := by
  induction fs with
  | nil => rfl
  | cons f fs ih =>
    have h := fn_conv file f
    rw [FnSrc.tree, conv_node (by simp) (by simp)] at h
    rw [List.map_cons, FnSrc.tree, toFns, ih, List.mapM_cons]
    generalize convs file _ = c at h ⊢
    cases c with
    | error b =>
      cases hf : Spec.fn file f with
      | none => simpa [hf] using h
      | some g => simp [hf] at h
    | ok ps =>
      simp only [cv_ok, assemble] at h ⊢
      cases hr : readFn file ps with
      | error b =>
        cases hf : Spec.fn file f with
        | none => simpa [hf, hr] using h
        | some g => simp [hf, hr] at h
      | ok m =>
        cases hf : Spec.fn file f with
        | none => simp [hf, hr] at h
        | some g =>
          simp only [hf, hr, cv_ok, Option.map_some, res_some, Except.ok.injEq, Part.node.injEq] at h
          rw [h.2.2]
          cases fs.mapM (Spec.fn file) <;> simp

end Dyon.Front
