import Verif.Check.EndLinked
import Verif.Check.Layout
import Verif.Check.TextLemmas

/-!
# The nodes of program text are as the grammar has them

Lemmas for C70.
-/

namespace Dyon.Check

open Spec
open Front (Src Prod' Opd ItemSrc IdSrc Var Callee FnSrc FnArg LazySrc BodySrc ClArg Cur Cst L S F B TySrc
  strOpt flag opTok swTok swOpt lenTok tyOpt trees treeKVs treeVars treeElifs treeElse treeOpt treeAdd
  treeMul treeIds treeWords)
open Syn (BinOp)

/-! ## Reports -/

/-- Neither a left side nor an operator of an assignment. -/
def noLeft : Cst → Bool
  | .node .left _ => false
  | .bool (.asg _) _ => false
  | _ => true

/-- Neither a left side nor an operator. -/
def plainC : Cst → Bool
  | .node .left _ => false
  | .bool (.asg _) _ => false
  | .bool b _ => (addOp b).isEmpty
  | _ => true

theorem plain_noLeft {c : Cst} (h : plainC c = true) : noLeft c = true := by
  cases c with
  | node l k => cases l <;> first | rfl | (simp [plainC] at h)
  | bool b v => cases b <;> first | rfl | (simp [plainC] at h)
  | _ => rfl

/-- A node. -/
def isNode : Cst → Bool
  | .node _ _ => true
  | _ => false

/-- `return` -/
def isVoid : Cst → Bool
  | .bool .returnVoid _ => true
  | _ => false

/-- `?` -/
def isTry : Cst → Bool
  | .bool .try' _ | .bool .tryItem _ => true
  | _ => false

/-- The reports of an expression in its node. -/
structure Frag (cs : List Cst) : Prop where
  plain : ∀ c ∈ cs, plainC c = true
  one : cs.countP isNode ≤ 1
  void : cs.any isVoid = true → cs.countP isNode = 0

/-- What a node consists of. -/
def shape : L → List Cst → Prop
  | .assign, kids => ∃ a o v b, kids = [.node .left a, .bool (.asg o) v, .node .right b]
  | .norm, kids | .not, kids | .neg, kids => ∃ a, kids = [.node .expr a]
  | .left, kids => Frag kids
  | .right, kids => ∀ c ∈ kids, plainC c = true
  | _, kids => ∀ c ∈ kids, noLeft c = true

mutual
/-- What all nodes of a tree consist of. -/
def wf : Cst → Prop
  | .node l kids => shape l kids ∧ wfs kids
  | _ => True
/-- What all nodes of trees consist of. -/
def wfs : List Cst → Prop
  | [] => True
  | c :: cs => wf c ∧ wfs cs
end

theorem wfs_iff : ∀ cs : List Cst, wfs cs ↔ ∀ c ∈ cs, wf c
  | [] => by simp [wfs]
  | c :: cs => by rw [wfs, wfs_iff cs, List.forall_mem_cons]

/-- Reports inside a usual node. -/
def OK (cs : List Cst) : Prop := ∀ c ∈ cs, noLeft c = true ∧ wf c

theorem ok_nil : OK [] := fun _ h => by cases h
theorem ok_cons {c : Cst} {cs : List Cst} : OK (c :: cs) ↔ (noLeft c = true ∧ wf c) ∧ OK cs := List.forall_mem_cons
theorem ok_append {a b : List Cst} : OK (a ++ b) ↔ OK a ∧ OK b := List.forall_mem_append

/-- Nodes that may hold anything but left sides. -/
def usual : L → Bool
  | .assign | .norm | .not | .neg | .left | .right => false
  | _ => true

theorem wf_node {l : L} (h : usual l = true) (kids : List Cst) : wf (.node l kids) ↔ OK kids := by
  rw [wf, wfs_iff]
  have : shape l kids ↔ ∀ c ∈ kids, noLeft c = true := by
    unfold shape
    unfold usual at h
    split <;> first | rfl | cases h
  rw [this]
  unfold OK
  exact ⟨fun h c hc => ⟨h.1 c hc, h.2 c hc⟩, fun h => ⟨fun c hc => (h c hc).1, fun c hc => (h c hc).2⟩⟩

theorem noLeft_node {l : L} (h : usual l = true) (kids : List Cst) : noLeft (.node l kids) = true := by
  unfold usual at h
  split at h <;> first | cases h | skip
  unfold noLeft
  split <;> simp_all

theorem ok_node' {l : L} (h : usual l = true) {kids : List Cst} (hk : OK kids) :
    noLeft (.node l kids) = true ∧ wf (.node l kids) := ⟨noLeft_node h kids, (wf_node h kids).2 hk⟩

theorem ok_bool {b : B} (v : Bool) (h : ∀ o, b ≠ .asg o) : noLeft (.bool b v) = true ∧ wf (.bool b v) := by
  refine ⟨?_, by simp [wf]⟩
  unfold noLeft
  split <;> simp_all

theorem ok_str (l : S) (s : String) : noLeft (.str l s) = true ∧ wf (.str l s) := ⟨rfl, by simp [wf]⟩

theorem ok_num (l : F) (x : F64) : noLeft (.num l x) = true ∧ wf (.num l x) := ⟨rfl, by simp [wf]⟩

theorem ok_strOpt (l : S) (o : Option String) : OK (strOpt l o) := by
  cases o with
  | none => exact ok_nil
  | some s => exact ok_cons.2 ⟨ok_str l s, ok_nil⟩

theorem ok_flag (b : B) (h : ∀ o, b ≠ .asg o) (v : Bool) : OK (flag b v) := by
  cases v with
  | false => exact ok_nil
  | true => exact ok_cons.2 ⟨ok_bool _ h, ok_nil⟩

theorem opTok_asg (op : BinOp) : ∀ o, opTok op ≠ .asg o := by intro o; cases op <;> simp [opTok]
theorem swTok_asg (i : Fin 4) : ∀ o, swTok i ≠ .asg o := by
  intro o
  unfold swTok
  split <;> simp
theorem lenTok_asg (i : Fin 3) : ∀ o, lenTok i ≠ .asg o := by
  intro o
  unfold lenTok
  split <;> simp

mutual
theorem ok_ty : ∀ t : TySrc, OK t.tree
  | .any | .bool | .f64 | .str | .vec4 | .mat4 | .link | .opt | .res | .secBool | .secF64 | .arr | .obj | .thr | .in' => by
    simp [TySrc.tree, OK, noLeft, wf]
  | .optOf t | .resOf t | .arrOf t | .thrOf t | .inOf t => by
    rw [TySrc.tree]
    exact ok_cons.2 ⟨ok_node' rfl (ok_ty t), ok_nil⟩
  | .closure args ret => by
    rw [TySrc.tree]
    exact ok_cons.2 ⟨ok_node' rfl (ok_append.2 ⟨ok_tys args, ok_cons.2 ⟨ok_node' rfl (ok_ty ret), ok_nil⟩⟩), ok_nil⟩
  | .adHoc n none => by
    rw [TySrc.tree]
    exact ok_cons.2 ⟨ok_str _ _, ok_nil⟩
  | .adHoc n (some t) => by
    rw [TySrc.tree]
    exact ok_cons.2 ⟨ok_str _ _, ok_cons.2 ⟨ok_node' rfl (ok_ty t), ok_nil⟩⟩
theorem ok_tys : ∀ ts : List TySrc, OK (TySrc.trees ts)
  | [] => ok_nil
  | t :: ts => by
    rw [TySrc.trees]
    exact ok_cons.2 ⟨ok_node' rfl (ok_ty t), ok_tys ts⟩
end

theorem ok_tyOpt {l : L} (h : usual l = true) (o : Option TySrc) : OK (tyOpt l o) := by
  cases o with
  | none => exact ok_nil
  | some t => exact ok_cons.2 ⟨ok_node' h (ok_ty t), ok_nil⟩

theorem ok_map {α : Type} (f : α → Cst) (h : ∀ a, noLeft (f a) = true ∧ wf (f a)) (as : List α) : OK (as.map f) := by
  intro c hc
  obtain ⟨a, -, rfl⟩ := List.mem_map.1 hc
  exact h a

theorem ok_clArg (a : ClArg) : noLeft a.tree = true ∧ wf a.tree :=
  ok_node' rfl (ok_cons.2 ⟨ok_str _ _, ok_tyOpt rfl _⟩)

theorem ok_cur (a : Cur) : noLeft a.tree = true ∧ wf a.tree :=
  ok_node' rfl (ok_append.2 ⟨ok_flag _ (by simp) _, ok_cons.2 ⟨ok_str _ _, ok_tyOpt rfl _⟩⟩)

theorem ok_sw {l : L} (h : usual l = true) (o : Option (Fin 4)) : OK (swOpt l o) := by
  cases o with
  | none => exact ok_nil
  | some t => exact ok_cons.2 ⟨ok_node' h (ok_cons.2 ⟨ok_bool _ (swTok_asg t), ok_nil⟩), ok_nil⟩

theorem frag_one {c : Cst} (h : plainC c = true) (hv : isVoid c = true → isNode c = false) : Frag [c] := by
  refine ⟨by simpa using h, ?_, ?_⟩
  · rw [List.countP_singleton]; split <;> omega
  · intro h
    rw [List.any_cons, List.any_nil, Bool.or_false] at h
    rw [List.countP_singleton, hv h]; rfl

theorem frag_node {l : L} (h : l ≠ .left) (kids : List Cst) : Frag [.node l kids] := by
  refine frag_one ?_ (by simp [isVoid])
  unfold plainC
  split <;> simp_all

theorem frag_src : ∀ e : Src, Frag e.tree
  | .retVoid => ⟨by simp [Src.tree, plainC, addOp], by simp [Src.tree, isNode], by simp [Src.tree, isNode]⟩
  | .text _ | .num _ | .bool _ | .color _ => by
    rw [Src.tree]
    exact frag_one (by simp [plainC, addOp]) (by simp [isVoid])
  | .paren e => by rw [Src.tree]; exact frag_src e
  | .try_ e => by
    rw [Src.tree]
    obtain ⟨h1, h2, h3⟩ := frag_src e
    refine ⟨?_, ?_, ?_⟩
    · intro c hc
      rcases List.mem_append.1 hc with h | h
      · exact h1 c h
      · rw [List.mem_singleton.1 h]; rfl
    · simpa [isNode] using h2
    · simpa [isNode, isVoid] using h3
  | .mutItem (.mk _ _ _ []) | .mutItem (.mk _ _ _ (_ :: _)) => by
    rw [Src.tree, ItemSrc.tree]
    refine ⟨?_, ?_, ?_⟩ <;> simp [plainC, addOp, isNode, isVoid]
  | .grab none _ | .grab (some _) _ | .in_ _ _ | .closure _ _ _ | .object _ | .array _ | .arrayFill _ _ | .forIn _ _ _ _ _
  | .forN _ _ _ _ | .for_ _ _ _ _ _ | .loop _ _ | .ite _ _ _ _ | .brk _ | .cont _ | .block _ | .assign _ _ _
  | .compare _ _ _ | .ret _ | .add _ _ | .mat4 _ _ _ _ | .vec4 _ _ _ _ | .link _ | .tryExpr _ | .not _ | .norm _
  | .go _ | .callClosure _ _ | .namedCallClosure _ _ | .unloop _ _ _ | .swizzle _ _ _ _ _ => by
    rw [Src.tree]
    exact frag_node (by simp) _
  | .call (.plain _ _ _) | .call (.named _ _ _) => by
    rw [Src.tree, Callee.tree]
    exact frag_node (by simp) _
  | .item (.mk _ _ _ []) | .item (.mk _ _ _ (_ :: _)) => by
    rw [Src.tree, ItemSrc.tree]
    exact frag_node (by simp) _

theorem ok_frag {cs : List Cst} (h : OK cs) : wfs cs := (wfs_iff cs).2 fun c hc => (h c hc).2

theorem ok_expr {a : List Cst} (l : L) (hl : l = .norm ∨ l = .not ∨ l = .neg) (h : OK a) :
    OK [.node l [.node .expr a]] := by
  have : wfs [.node .expr a] := by
    rw [wfs, wfs]
    exact ⟨(ok_node' (l := .expr) rfl h).2, trivial⟩
  rcases hl with rfl | rfl | rfl <;>
    exact ok_cons.2 ⟨⟨rfl, by rw [wf]; exact ⟨⟨a, rfl⟩, this⟩⟩, ok_nil⟩

theorem ok_usual {l : L} (hl : usual l = true) {a : List Cst} (h : OK a) : OK [.node l a] :=
  ok_cons.2 ⟨ok_node' hl h, ok_nil⟩

mutual
theorem ok_src : ∀ e : Src, OK e.tree
  | .in_ a n => by
    rw [Src.tree]
    exact ok_usual rfl (ok_append.2 ⟨ok_strOpt _ _, ok_cons.2 ⟨ok_str _ _, ok_nil⟩⟩)
  | .closure args cur e => by
    rw [Src.tree]
    exact ok_usual rfl (ok_append.2 ⟨ok_append.2 ⟨ok_map _ ok_clArg _, ok_map _ ok_cur _⟩, ok_usual rfl (ok_src e)⟩)
  | .object kvs => by
    rw [Src.tree]
    exact ok_usual rfl (ok_kvs kvs)
  | .array es => by
    rw [Src.tree]
    exact ok_usual rfl (ok_srcs rfl es)
  | .arrayFill a b => by
    rw [Src.tree]
    exact ok_usual rfl (ok_cons.2 ⟨ok_node' rfl (ok_src a), ok_usual rfl (ok_src b)⟩)
  | .forIn k label n e es => by
    rw [Src.tree]
    exact ok_usual rfl (ok_append.2 ⟨ok_strOpt _ _, ok_cons.2 ⟨ok_str _ _, ok_cons.2 ⟨ok_node' rfl (ok_src e),
      ok_usual rfl (ok_srcs rfl es)⟩⟩⟩)
  | .forN k label vs es => by
    rw [Src.tree]
    exact ok_usual rfl (ok_append.2 ⟨ok_append.2 ⟨ok_strOpt _ _, ok_vars vs⟩, ok_usual rfl (ok_srcs rfl es)⟩)
  | .for_ label a b c es => by
    rw [Src.tree]
    exact ok_usual rfl (ok_append.2 ⟨ok_strOpt _ _, ok_cons.2 ⟨ok_node' rfl (ok_src a), ok_cons.2 ⟨ok_node' rfl (ok_src b),
      ok_cons.2 ⟨ok_node' rfl (ok_src c), ok_usual rfl (ok_srcs rfl es)⟩⟩⟩⟩)
  | .loop label es => by
    rw [Src.tree]
    exact ok_usual rfl (ok_append.2 ⟨ok_strOpt _ _, ok_usual rfl (ok_srcs rfl es)⟩)
  | .ite c thn es els => by
    rw [Src.tree]
    exact ok_usual rfl (ok_append (a := .node .cond c.tree :: .node .trueBlock (trees .expr thn) :: treeElifs es) |>.2
      ⟨ok_cons.2 ⟨ok_node' rfl (ok_src c), ok_cons.2 ⟨ok_node' rfl (ok_srcs rfl thn), ok_elifs es⟩⟩, ok_else els⟩)
  | .brk label | .cont label => by
    rw [Src.tree]
    exact ok_usual rfl (ok_strOpt _ _)
  | .block es => by
    rw [Src.tree]
    exact ok_usual rfl (ok_srcs rfl es)
  | .assign l op r => by
    rw [Src.tree]
    refine ok_cons.2 ⟨⟨rfl, ?_⟩, ok_nil⟩
    simp only [wf, wfs]
    exact ⟨⟨_, _, _, _, rfl⟩, ⟨frag_src l, ok_frag (ok_src l)⟩, trivial, ⟨(frag_src r).plain, ok_frag (ok_src r)⟩, trivial⟩
  | .compare l op r => by
    rw [Src.tree]
    exact ok_usual rfl (ok_cons.2 ⟨ok_node' rfl (ok_src l), ok_cons.2 ⟨ok_bool _ (opTok_asg op), ok_usual rfl (ok_src r)⟩⟩)
  | .ret e => by
    rw [Src.tree]
    exact ok_usual rfl (ok_src e)
  | .retVoid => by
    rw [Src.tree]
    exact ok_cons.2 ⟨ok_bool _ (by simp), ok_nil⟩
  | .add p rest => by
    rw [Src.tree]
    exact ok_usual rfl (ok_cons.2 ⟨ok_node' rfl (ok_usual rfl (ok_prod p)), ok_adds rest⟩)
  | .mat4 x y z w => by
    rw [Src.tree]
    exact ok_usual rfl (ok_cons.2 ⟨ok_node' rfl (ok_src x), ok_append.2 ⟨ok_append.2 ⟨ok_opt rfl y, ok_opt rfl z⟩, ok_opt rfl w⟩⟩)
  | .vec4 x y z w => by
    rw [Src.tree]
    exact ok_usual rfl (ok_cons.2 ⟨ok_node' rfl (ok_src x), ok_append.2 ⟨ok_append.2 ⟨ok_opt rfl y, ok_opt rfl z⟩, ok_opt rfl w⟩⟩)
  | .link es => by
    rw [Src.tree]
    exact ok_usual rfl (ok_srcs rfl es)
  | .grab none e => by
    rw [Src.tree]
    exact ok_usual rfl (ok_usual rfl (ok_src e))
  | .grab (some x) e => by
    rw [Src.tree]
    exact ok_usual rfl (ok_cons.2 ⟨ok_num _ _, ok_usual rfl (ok_src e)⟩)
  | .tryExpr e => by
    rw [Src.tree]
    exact ok_usual rfl (ok_usual rfl (ok_src e))
  | .paren e => by rw [Src.tree]; exact ok_src e
  | .not e => by rw [Src.tree]; exact ok_expr _ (by simp) (ok_src e)
  | .norm e => by rw [Src.tree]; exact ok_expr _ (by simp) (ok_src e)
  | .text _ => by rw [Src.tree]; exact ok_cons.2 ⟨ok_str _ _, ok_nil⟩
  | .num _ => by rw [Src.tree]; exact ok_cons.2 ⟨ok_num _ _, ok_nil⟩
  | .bool _ => by rw [Src.tree]; exact ok_cons.2 ⟨ok_bool _ (by simp), ok_nil⟩
  | .color _ => by rw [Src.tree]; exact ok_cons.2 ⟨ok_str _ _, ok_nil⟩
  | .go c => by rw [Src.tree]; exact ok_usual rfl (ok_cons.2 ⟨ok_callee c, ok_nil⟩)
  | .call c => by rw [Src.tree]; exact ok_cons.2 ⟨ok_callee c, ok_nil⟩
  | .callClosure it es => by
    rw [Src.tree]
    exact ok_usual rfl (ok_cons.2 ⟨ok_item it, ok_srcs rfl es⟩)
  | .namedCallClosure it es => by
    rw [Src.tree]
    exact ok_usual rfl (ok_cons.2 ⟨ok_item it, ok_words es⟩)
  | .item it => by rw [Src.tree]; exact ok_cons.2 ⟨ok_item it, ok_nil⟩
  | .unloop len n e => by
    rw [Src.tree]
    exact ok_usual rfl (ok_cons.2 ⟨ok_bool _ (lenTok_asg len), ok_cons.2 ⟨ok_str _ _, ok_usual rfl (ok_src e)⟩⟩)
  | .try_ e => by
    rw [Src.tree]
    exact ok_append.2 ⟨ok_src e, ok_cons.2 ⟨ok_bool _ (by simp), ok_nil⟩⟩
  | .mutItem it => by
    rw [Src.tree]
    exact ok_cons.2 ⟨ok_bool _ (by simp), ok_cons.2 ⟨ok_item it, ok_nil⟩⟩
  | .swizzle a b c d e => by
    rw [Src.tree]
    exact ok_usual rfl (ok_append.2 ⟨ok_cons.2 ⟨ok_node' rfl (ok_cons.2 ⟨ok_bool _ (swTok_asg a), ok_nil⟩),
      ok_cons.2 ⟨ok_node' rfl (ok_cons.2 ⟨ok_bool _ (swTok_asg b), ok_nil⟩), ok_append.2 ⟨ok_sw rfl c, ok_sw rfl d⟩⟩⟩,
      ok_usual rfl (ok_src e)⟩)
theorem ok_srcs {l : L} (hl : usual l = true) : ∀ es : List Src, OK (trees l es)
  | [] => by rw [trees]; exact ok_nil
  | e :: es => by rw [trees]; exact ok_cons.2 ⟨ok_node' hl (ok_src e), ok_srcs hl es⟩
theorem ok_kvs : ∀ es : List (String × Src), OK (treeKVs es)
  | [] => by rw [treeKVs]; exact ok_nil
  | (k, e) :: es => by
    rw [treeKVs]
    exact ok_cons.2 ⟨ok_node' rfl (ok_cons.2 ⟨ok_str _ _, ok_usual rfl (ok_src e)⟩), ok_kvs es⟩
theorem ok_vars : ∀ vs : List Var, OK (treeVars vs)
  | [] => by rw [treeVars]; exact ok_nil
  | .plain n :: vs => by
    rw [treeVars, Var.tree]
    exact ok_append.2 ⟨ok_cons.2 ⟨ok_str _ _, ok_nil⟩, ok_vars vs⟩
  | .upto n b :: vs => by
    rw [treeVars, Var.tree]
    exact ok_append.2 ⟨ok_cons.2 ⟨ok_str _ _, ok_usual rfl (ok_src b)⟩, ok_vars vs⟩
  | .range n a b :: vs => by
    rw [treeVars, Var.tree]
    exact ok_append.2 ⟨ok_cons.2 ⟨ok_str _ _, ok_cons.2 ⟨ok_node' rfl (ok_src a), ok_usual rfl (ok_src b)⟩⟩, ok_vars vs⟩
theorem ok_elifs : ∀ es : List (Src × List Src), OK (treeElifs es)
  | [] => by rw [treeElifs]; exact ok_nil
  | (c, b) :: es => by
    rw [treeElifs]
    exact ok_cons.2 ⟨ok_node' rfl (ok_src c), ok_cons.2 ⟨ok_node' rfl (ok_srcs rfl b), ok_elifs es⟩⟩
theorem ok_else : ∀ o : Option (List Src), OK (treeElse o)
  | none => by rw [treeElse]; exact ok_nil
  | some b => by rw [treeElse]; exact ok_usual rfl (ok_srcs rfl b)
theorem ok_opt {l : L} (hl : usual l = true) : ∀ o : Option Src, OK (treeOpt l o)
  | none => by rw [treeOpt]; exact ok_nil
  | some e => by rw [treeOpt]; exact ok_usual hl (ok_src e)
theorem ok_prod : ∀ p : Prod', OK p.tree
  | .mk o rest => by
    rw [Prod'.tree]
    exact ok_cons.2 ⟨ok_opd o, ok_muls rest⟩
theorem ok_opd : ∀ o : Opd, noLeft o.tree = true ∧ wf o.tree
  | .neg p => by
    rw [Opd.tree]
    exact (ok_cons.1 (ok_expr _ (by simp) (ok_usual rfl (ok_prod p)))).1
  | .pow l r => by
    rw [Opd.tree]
    exact ok_node' rfl (ok_cons.2 ⟨ok_node' rfl (ok_src l), ok_cons.2 ⟨ok_bool _ (by simp), ok_usual rfl (ok_src r)⟩⟩)
  | .plain e => by
    rw [Opd.tree]
    exact ok_node' rfl (ok_src e)
theorem ok_adds : ∀ rest : List (BinOp × Prod'), OK (treeAdd rest)
  | [] => by rw [treeAdd]; exact ok_nil
  | (op, p) :: rest => by
    rw [treeAdd]
    exact ok_cons.2 ⟨ok_bool _ (opTok_asg op), ok_cons.2 ⟨ok_node' rfl (ok_usual rfl (ok_prod p)), ok_adds rest⟩⟩
theorem ok_muls : ∀ rest : List (BinOp × Opd), OK (treeMul rest)
  | [] => by rw [treeMul]; exact ok_nil
  | (op, o) :: rest => by
    rw [treeMul]
    exact ok_cons.2 ⟨ok_bool _ (opTok_asg op), ok_cons.2 ⟨ok_opd o, ok_muls rest⟩⟩
theorem ok_item : ∀ it : ItemSrc, noLeft it.tree = true ∧ wf it.tree
  | .mk cur n t [] => by
    rw [ItemSrc.tree]
    exact ok_node' rfl (ok_append.2 ⟨ok_flag _ (by simp) _, ok_cons.2 ⟨ok_str _ _, ok_flag _ (by simp) _⟩⟩)
  | .mk cur n t (i :: ids) => by
    rw [ItemSrc.tree]
    exact ok_node' rfl (ok_append.2 ⟨ok_append.2 ⟨ok_flag _ (by simp) _, ok_cons.2 ⟨ok_str _ _, ok_flag _ (by simp) _⟩⟩,
      ok_usual rfl (ok_ids (i :: ids))⟩)
theorem ok_ids : ∀ ids : List IdSrc, OK (treeIds ids)
  | [] => by rw [treeIds]; exact ok_nil
  | i :: ids => by
    rw [treeIds]
    exact ok_append.2 ⟨ok_id i, ok_ids ids⟩
theorem ok_id : ∀ i : IdSrc, OK i.tree
  | .str s t => by
    rw [IdSrc.tree]
    exact ok_cons.2 ⟨ok_str _ _, ok_flag _ (by simp) _⟩
  | .num s t => by
    rw [IdSrc.tree]
    exact ok_cons.2 ⟨ok_num _ _, ok_flag _ (by simp) _⟩
  | .expr e t => by
    rw [IdSrc.tree]
    exact ok_cons.2 ⟨ok_node' rfl (ok_src e), ok_flag _ (by simp) _⟩
theorem ok_callee : ∀ c : Front.Callee, noLeft c.tree = true ∧ wf c.tree
  | .plain a n es => by
    rw [Callee.tree]
    exact ok_node' rfl (ok_append.2 ⟨ok_strOpt _ _, ok_cons.2 ⟨ok_str _ _, ok_srcs rfl es⟩⟩)
  | .named a w es => by
    rw [Callee.tree]
    exact ok_node' rfl (ok_append.2 ⟨ok_strOpt _ _, ok_cons.2 ⟨ok_str _ _, ok_words es⟩⟩)
theorem ok_words : ∀ es : List (String × Src), OK (treeWords es)
  | [] => by rw [treeWords]; exact ok_nil
  | (w, e) :: es => by
    rw [treeWords]
    exact ok_cons.2 ⟨ok_str _ _, ok_cons.2 ⟨ok_node' rfl (ok_src e), ok_words es⟩⟩
end

theorem ok_lazy (z : LazySrc) : noLeft z.tree = true ∧ wf z.tree := by
  cases z with
  | expr e => exact ok_node' rfl (ok_usual rfl (ok_src e))
  | _ => exact ok_bool _ (by simp)

theorem ok_fnArg (a : FnArg) : noLeft a.tree = true ∧ wf a.tree :=
  ok_node' rfl (ok_append.2 ⟨ok_append.2 ⟨ok_append.2 ⟨ok_flag _ (by simp) _, ok_cons.2 ⟨ok_str _ _, ok_strOpt _ _⟩⟩,
    ok_tyOpt rfl _⟩, ok_map _ ok_lazy _⟩)

theorem ok_sig {k : List Cst} (h : SigOf k) : OK k := by
  obtain ⟨vars, args, ret, rfl⟩ := h
  exact ok_append.2 ⟨ok_append.2 ⟨ok_map _ (fun s => ok_str _ s) _, ok_map _ (fun t => ok_node' rfl (ok_ty t)) _⟩,
    ok_usual rfl (ok_ty ret)⟩

theorem ok_sigs {tys : List (List Cst)} (h : ∀ k ∈ tys, SigOf k) : OK (tys.map (.node .ty)) := by
  intro c hc
  obtain ⟨k, hk, rfl⟩ := List.mem_map.1 hc
  exact ok_node' rfl (ok_sig (h k hk))

/-- A function. -/
theorem ok_fn (f : FnSrc) (h : ∀ k ∈ sigs f.body, SigOf k) : noLeft f.tree = true ∧ wf f.tree := by
  refine ok_node' rfl (ok_append.2 ⟨ok_append.2 ⟨ok_cons.2 ⟨ok_str _ _, ok_map _ ok_fnArg _⟩, ok_map _ ok_cur _⟩, ?_⟩)
  cases hb : f.body with
  | block es tys =>
    rw [hb] at h
    exact ok_cons.2 ⟨ok_bool _ (by simp), ok_cons.2 ⟨ok_node' rfl (ok_srcs rfl es), ok_sigs h⟩⟩
  | returns ty es tys =>
    rw [hb] at h
    exact ok_cons.2 ⟨ok_bool _ (by simp), ok_append.2 ⟨ok_tyOpt rfl _, ok_cons.2 ⟨ok_node' rfl (ok_srcs rfl es), ok_sigs h⟩⟩⟩
  | expr e => exact ok_usual rfl (ok_src e)

end Dyon.Check
