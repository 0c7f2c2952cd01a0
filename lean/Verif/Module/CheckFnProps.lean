import Verif.Module.CheckFn
import Verif.Module.MakeProps
import Verif.Check.TypesProps
import Std.Data.String.ToNat

/-!
# C90: the data of the checker
-/

namespace Dyon.Mod

open Spec

/-! ## Specification -/

namespace Spec

/-- The value is an object with this field. -/
def Field (v : Val) (key : String) (w : Val) : Prop := ∃ kvs, v = .object kvs ∧ kvs.lookup key = some w

/-- The number nearest to `n`. -/
def num (n : Nat) : Val := .f64 (F64.ofNatRound n) none

/-- The flag `usetr`; by default the transitive functions of the running module are used. -/
inductive Usetr (st : Stack) : Option Val → Bool → Prop
  | default : Usetr st none true
  | given {v usetr s} : Holds st v (.bool usetr s) → Usetr st (some v) usetr

/-- The module that a text is checked against: the transitive functions of the running module, if wanted,
and those of the imports, in this order; and the functions of the host. -/
structure Against (running : Module) (imps : List Module) (usetr : Bool) (M : Module) : Prop where
  functions : M.functions = running.functions.take (inherited running usetr) ++ imps.flatMap (·.functions)
  host : running.externals <+: M.externals
  hostImports : ∀ ns name, hostNamed running.externals ns name = [] →
    ∀ imp ∈ imps, hostNamed imp.externals ns name ≠ [] → hostNamed M.externals ns name ≠ []

/-- All kinds of nodes. -/
def kinds : List Check.Kind := [
  .ns, .uses, .use, .fn, .arg, .current, .block, .expr, .add, .mul, .pow, .val, .call, .callArg,
  .assign, .left, .right, .item, .itemExtra, .ret, .object, .array, .arrayItem, .arrayFill, .fill, .n,
  .keyValue, .for, .forN, .forIn, .sum, .sumIn, .sumVec4, .prod, .prodIn, .prodVec4, .min, .minIn,
  .max, .maxIn, .sift, .siftIn, .any, .anyIn, .all, .allIn, .vec4UnLoop, .start, .end', .init, .cond,
  .iter, .elseIfCond, .elseIfBlock, .step, .compare, .if', .trueBlock, .elseBlock, .loop, .id, .brk,
  .cont, .norm, .not, .neg, .vec4, .x, .y, .z, .w, .mat4, .ex, .ey, .ez, .ew, .type, .arr, .opt, .res,
  .retType, .returnVoid, .go, .swizzle, .sw0, .sw1, .sw2, .sw3, .link, .linkFor, .linkIn, .linkItem,
  .closure, .callClosure, .closureType, .clArg, .clRet, .grab, .tryExpr, .in', .ty, .tyArg, .tyRet]

/-- The names of all kinds of nodes, in the same order. -/
def kindNames : List String := [
  "Ns", "Uses", "Use", "Fn", "Arg", "Current", "Block", "Expr", "Add", "Mul", "Pow", "Val", "Call",
  "CallArg", "Assign", "Left", "Right", "Item", "ItemExtra", "Return", "Object", "Array", "ArrayItem",
  "ArrayFill", "Fill", "N", "KeyValue", "For", "ForN", "ForIn", "Sum", "SumIn", "SumVec4", "Prod",
  "ProdIn", "ProdVec4", "Min", "MinIn", "Max", "MaxIn", "Sift", "SiftIn", "Any", "AnyIn", "All",
  "AllIn", "Vec4UnLoop", "Start", "End", "Init", "Cond", "Iter", "ElseIfCond", "ElseIfBlock", "Step",
  "Compare", "If", "TrueBlock", "ElseBlock", "Loop", "Id", "Break", "Continue", "Norm", "Not", "Neg",
  "Vec4", "X", "Y", "Z", "W", "Mat4", "EX", "EY", "EZ", "EW", "Type", "Arr", "Opt", "Res", "RetType",
  "ReturnVoid", "Go", "Swizzle", "Sw0", "Sw1", "Sw2", "Sw3", "Link", "LinkFor", "LinkIn", "LinkItem",
  "Closure", "CallClosure", "ClosureType", "ClArg", "ClRet", "Grab", "TryExpr", "In", "Ty", "TyArg",
  "TyRet"]

/-- The names of the assignment operators `:=`, `=`, `+=`, `-=`, `*=`, `/=`, `%=` and `^=`. -/
def opNames : List (AssignOp × String) := [(.assign, "Assign"), (.set, "Set"), (.add, "Add"), (.sub, "Sub"),
  (.mul, "Mul"), (.div, "Div"), (.rem, "Rem"), (.pow, "Pow")]

/-- The texts of lifetimes of arguments: that of another argument, that of the returned value, or none. -/
inductive LtShown : Lt → Val → Prop
  | arg (i : Nat) : LtShown (.arg i) (.str s!"Arg({i})")
  | ret : LtShown .ret (.str "Return")
  | default : LtShown .default (.str "Default")

/-- The value says what the checker knows about the node. -/
structure Shows (p : Placed) (v : Val) : Prop where
  kind : ∃ s, (p.node.kind, s) ∈ kinds.zip kindNames ∧ Field v "kind" (.str s)
  children : Field v "children" (.array (p.node.children.map num))
  names : Field v "names" (.array (p.node.names.map .str))
  parent : Field v "parent" (.option (p.node.parent.map num))
  untyped : p.node.ty = none → Field v "ty" (.option none)
  typed : ∀ t, p.node.ty = some t → ∃ s, description t = some s ∧ Field v "ty" (.option (some (.str s)))
  «alias» : Field v "alias" (.option (p.node.alias.map .str))
  mutable : Field v "mutable" (.bool p.node.mutable none)
  tryFlag : Field v "try" (.bool p.node.tryFlag none)
  grab : Field v "grab_level" (.f64 (F64.ofNat p.node.grabLevel) none)
  offset : Field v "source_offset" (num p.offset)
  length : Field v "source_length" (num p.length)
  start : Field v "start" (num p.start)
  stop : Field v "end" (num p.stop)
  lifetime : Field v "lifetime" (.option (p.node.lifetime.map .str))
  declaration : Field v "declaration" (.option (p.node.declaration.map num))
  noOp : p.node.op = none → Field v "op" (.option none)
  op : ∀ o, p.node.op = some o → ∃ s, (o, s) ∈ opNames ∧ Field v "op" (.option (some (.str s)))
  lts : ∃ ws, List.Forall₂ LtShown p.node.lts ws ∧ Field v "lts" (.array ws)

/-- The nodes agree on everything but the types, of which the data have the text. -/
structure Same (p q : Placed) : Prop where
  kind : p.node.kind = q.node.kind
  children : p.node.children = q.node.children
  names : p.node.names = q.node.names
  parent : p.node.parent = q.node.parent
  «alias» : p.node.alias = q.node.alias
  mutable : p.node.mutable = q.node.mutable
  tryFlag : p.node.tryFlag = q.node.tryFlag
  lifetime : p.node.lifetime = q.node.lifetime
  declaration : p.node.declaration = q.node.declaration
  op : p.node.op = q.node.op
  grab : p.node.grabLevel = q.node.grabLevel
  lts : p.node.lts = q.node.lts
  ranges : (p.offset, p.length, p.start, p.stop) = (q.offset, q.length, q.start, q.stop)

/-- All numbers of the node are exact as `f64`. -/
def Small (p : Placed) : Prop :=
  (∀ c ∈ p.node.children, c < 2 ^ 53) ∧ (∀ c ∈ p.node.parent, c < 2 ^ 53) ∧ (∀ c ∈ p.node.declaration, c < 2 ^ 53) ∧
    p.offset < 2 ^ 53 ∧ p.length < 2 ^ 53 ∧ p.start < 2 ^ 53 ∧ p.stop < 2 ^ 53 ∧
    p.node.grabLevel < 2 ^ 16

end Spec

/-! ## Lemmas -/

theorem Spec.Field.inj {v w w' : Val} {k : String} (h : Field v k w) (h' : Field v k w') : w = w' := by
  obtain ⟨a, rfl, h⟩ := h
  obtain ⟨b, hb, h'⟩ := h'
  cases hb
  rw [h] at h'
  exact Option.some.inj h'

theorem kindText_mem (k : Check.Kind) : (k, kindText k) ∈ kinds.zip kindNames := by
  cases k <;> decide +kernel

theorem opText_mem (o : AssignOp) : (o, opText o) ∈ opNames := by
  cases o <;> decide

theorem ltText_shown (l : Lt) : LtShown l (.str (ltText l)) := by
  cases l with
  | arg i =>
    have : ltText (.arg i) = s!"Arg({i})" := rfl
    rw [this]
    exact .arg i
  | ret => exact .ret
  | default => exact .default

theorem lts_shown (ls : List Lt) : List.Forall₂ LtShown ls (ls.map fun l => .str (ltText l)) := by
  induction ls with
  | nil => exact .nil
  | cons l ls ih => exact .cons (ltText_shown l) ih

theorem nodeObject_shows {p : Placed} (h : ∀ t, p.node.ty = some t → Described t) :
    ∃ v, nodeObject p = some v ∧ Shows p v := by
  cases ht : p.node.ty with
  | none =>
    refine ⟨_, by simp only [nodeObject, ht, Option.map_some]; rfl, ?_⟩
    exact { kind := ⟨_, kindText_mem _, _, rfl, rfl⟩, untyped := fun _ => ⟨_, rfl, rfl⟩,
            typed := fun t h => (nomatch ht.symm.trans h),
            noOp := fun h => ⟨_, rfl, by rw [h]; rfl⟩, op := fun o h => ⟨_, opText_mem o, _, rfl, by rw [h]; rfl⟩,
            lts := ⟨_, lts_shown _, _, rfl, rfl⟩, children := ⟨_, rfl, rfl⟩, names := ⟨_, rfl, rfl⟩,
            parent := ⟨_, rfl, rfl⟩, «alias» := ⟨_, rfl, rfl⟩, mutable := ⟨_, rfl, rfl⟩, tryFlag := ⟨_, rfl, rfl⟩,
            grab := ⟨_, rfl, rfl⟩, offset := ⟨_, rfl, rfl⟩, length := ⟨_, rfl, rfl⟩, start := ⟨_, rfl, rfl⟩,
            stop := ⟨_, rfl, rfl⟩, lifetime := ⟨_, rfl, rfl⟩, declaration := ⟨_, rfl, rfl⟩ }
  | some t =>
    obtain ⟨s, hs⟩ := description_some (h t ht)
    refine ⟨_, by simp only [nodeObject, ht, hs, Option.map_some]; rfl, ?_⟩
    exact { kind := ⟨_, kindText_mem _, _, rfl, rfl⟩, untyped := fun h => (nomatch ht.symm.trans h),
            typed := fun t' h => ⟨s, (Option.some.inj (ht.symm.trans h)) ▸ hs, _, rfl, rfl⟩,
            noOp := fun h => ⟨_, rfl, by rw [h]; rfl⟩, op := fun o h => ⟨_, opText_mem o, _, rfl, by rw [h]; rfl⟩,
            lts := ⟨_, lts_shown _, _, rfl, rfl⟩, children := ⟨_, rfl, rfl⟩, names := ⟨_, rfl, rfl⟩,
            parent := ⟨_, rfl, rfl⟩, «alias» := ⟨_, rfl, rfl⟩, mutable := ⟨_, rfl, rfl⟩, tryFlag := ⟨_, rfl, rfl⟩,
            grab := ⟨_, rfl, rfl⟩, offset := ⟨_, rfl, rfl⟩, length := ⟨_, rfl, rfl⟩, start := ⟨_, rfl, rfl⟩,
            stop := ⟨_, rfl, rfl⟩, lifetime := ⟨_, rfl, rfl⟩, declaration := ⟨_, rfl, rfl⟩ }

theorem toArray_shows {ps : List Placed} (h : ∀ p ∈ ps, ∀ t, p.node.ty = some t → Described t) :
    ∃ vs, toArray ps = some vs ∧ List.Forall₂ Shows ps vs := by
  obtain ⟨vs, hv, hf⟩ := mapM_forall₂ (f := nodeObject) (g := id) (R := fun v p => Shows p v) ps
    (fun p hp => nodeObject_shows (h p hp))
  rw [List.map_id] at hf
  exact ⟨vs, hv, hf.flip⟩

theorem usetrArg_spec {st : Stack} {fl : Option Val} {usetr : Bool} (h : Usetr st fl usetr) :
    usetrArg st fl = .ok usetr := by
  cases h with
  | default => rfl
  | given hv =>
    rw [usetrArg, flagArg, getVal_holds (by intro i; simp) hv]
    rfl

theorem round_exact {n : Nat} (h : n < 2 ^ 53) : F64.ofNatRound n = F64.ofNat n := by
  rw [F64.ofNatRound, if_pos h]

theorem num_inj {a b : Nat} (ha : a < 2 ^ 53) (hb : b < 2 ^ 53) (h : num a = num b) : a = b := by
  simp only [num, Val.f64.injEq, and_true] at h
  rw [round_exact ha, round_exact hb] at h
  rw [← F64.ofNat_toUsize ha, h, F64.ofNat_toUsize hb]

theorem map_num_inj {a b : List Nat} (ha : ∀ c ∈ a, c < 2 ^ 53) (hb : ∀ c ∈ b, c < 2 ^ 53)
    (h : a.map num = b.map num) : a = b := by
  induction a generalizing b with
  | nil => cases b <;> simp_all
  | cons x a ih =>
    cases b with
    | nil => simp at h
    | cons y b =>
      simp only [List.map_cons, List.cons.injEq] at h
      rw [num_inj (ha x (by simp)) (hb y (by simp)) h.1,
        ih (fun c hc => ha c (List.mem_cons_of_mem _ hc)) (fun c hc => hb c (List.mem_cons_of_mem _ hc)) h.2]

theorem opt_num_inj {a b : Option Nat} (ha : ∀ c ∈ a, c < 2 ^ 53) (hb : ∀ c ∈ b, c < 2 ^ 53)
    (h : a.map num = b.map num) : a = b := by
  cases a <;> cases b <;> simp at h ⊢
  exact num_inj (ha _ rfl) (hb _ rfl) h

theorem kindNames_inj {a b : Check.Kind} {s : String} (ha : (a, s) ∈ kinds.zip kindNames)
    (hb : (b, s) ∈ kinds.zip kindNames) : a = b := by
  have h : (kinds.zip kindNames).Pairwise fun p q => p.2 ≠ q.2 := by decide +kernel
  obtain ⟨i, hi, ei⟩ := List.getElem_of_mem ha
  obtain ⟨j, hj, ej⟩ := List.getElem_of_mem hb
  rcases Nat.lt_trichotomy i j with hij | hij | hij
  · exact absurd (by rw [ei, ej]) (List.pairwise_iff_getElem.1 h i j hi hj hij)
  · subst hij
    exact congrArg Prod.fst (ei.symm.trans ej)
  · exact absurd (by rw [ei, ej]) (List.pairwise_iff_getElem.1 h j i hj hi hij)

theorem opNames_inj {a b : AssignOp} {s : String} (ha : (a, s) ∈ opNames) (hb : (b, s) ∈ opNames) : a = b := by
  revert ha hb
  cases a <;> cases b <;> simp [opNames] <;> (intro h; subst h; decide)

theorem ltText_inj {a b : Lt} (h : ltText a = ltText b) : a = b := by
  have ne : ∀ i s, s.toList.head? ≠ some 'A' → "Arg(" ++ toString (i : Nat) ++ ")" ≠ s := by
    intro i s hs he
    subst he
    exact hs (by simp)
  cases a <;> cases b <;> simp only [ltText] at h <;> first
    | rfl
    | exact absurd h (ne _ _ (by decide))
    | exact absurd h.symm (ne _ _ (by decide))
    | exact absurd h (by decide)
    | skip
  rename_i i j
  have h := congrArg String.toList h
  simp only [String.toList_append] at h
  have h := List.append_cancel_left (List.append_cancel_right h)
  rw [Nat.repr_injective (String.toList_inj.1 h)]

theorem Spec.LtShown.text {l : Lt} {v : Val} (h : LtShown l v) : v = .str (ltText l) := by
  cases h <;> rfl

theorem lts_inj {a b : List Lt} {vs : List Val} (ha : List.Forall₂ LtShown a vs) (hb : List.Forall₂ LtShown b vs) :
    a = b := by
  induction ha generalizing b with
  | nil => cases hb; rfl
  | cons h _ ih =>
    cases hb with
    | cons h' hb => rw [ltText_inj (Val.str.inj (h.text.symm.trans h'.text)), ih hb]

theorem str_inj {a b : Option String} (h : a.map Val.str = b.map Val.str) : a = b := by
  cases a <;> cases b <;> simp_all

theorem strs_inj {a b : List String} (h : a.map Val.str = b.map Val.str) : a = b :=
  List.map_injective_iff.2 (fun _ _ h => Val.str.inj h) h

/-! ## The theorems -/

variable {parse : String → String → Module → Except String (List Placed × Option String)} {obj : Nat → Option Module}
  {trace : String} {st : Stack} {running : Module}

/-- **C90.** A text with a syntax error gives an error value. Any other text gives an array with one object
for each node, in their order, with what is known about it, whatever the verdict of the checker. -/
theorem C90_check {vn vt vi : Val} {fl : Option Val} {name text : String} {items : List Val} {imps : List Module}
    {usetr : Bool} (hn : Holds st vn (.str name)) (ht : Holds st vt (.str text)) (hi : Holds st vi (.array items))
    (hm : AreModules obj st items imps) (hf : Usetr st fl usetr) :
    ∃ M, Against running imps usetr M ∧
      (∀ e, parse name text M = .error e → checkFn parse obj trace st running vn vt vi fl =
        .ok (.resErr (.str ("When attempting to load module:\n" ++ e)) [])) ∧
      ∀ ps verdict, parse name text M = .ok (ps, verdict) →
        (∀ p ∈ ps, ∀ t, p.node.ty = some t → Described t) →
        ∃ vs, checkFn parse obj trace st running vn vt vi fl = .ok (.resOk (.array vs)) ∧ List.Forall₂ Shows ps vs := by
  have hM := foldl_import_host imps (newModule running usetr)
  rw [newModule_externals] at hM
  refine ⟨imps.foldl Module.import (newModule running usetr), ⟨?_, hM.1, hM.2⟩, ?_, ?_⟩
  · rw [foldl_import_functions, newModule_functions]
  all_goals
    have hc : checkFn parse obj trace st running vn vt vi fl =
        match checkStr parse name text (imps.foldl Module.import (newModule running usetr)) with
        | .error e => .ok (.resErr (.str ("When attempting to load module:\n" ++ e)) [])
        | .ok ps => match toArray ps with
          | none => .panic
          | some vs => .ok (.resOk (.array vs)) := by
      rw [checkFn, usetrArg_spec hf]
      simp only [Pop.bind]
      rw [textArg_str ht]
      simp only
      rw [textArg_str hn]
      simp only
      rw [importArg_modules hi hm]
      rfl
  · intro e he
    rw [hc, checkStr, he]
  · intro ps verdict hp hd
    obtain ⟨vs, hv, hs⟩ := toArray_shows hd
    refine ⟨vs, ?_, hs⟩
    rw [hc, checkStr, hp]
    simp only [hv]

/-- **C90.** The array is a tree for the program that gets it: a number in `children`, used as an index, gives
the object of a child, and the number in its `parent`, used as an index, gives the object it was reached from. -/
theorem C90_tree {ps : List Placed} {vs : List Val} (h : List.Forall₂ Shows ps vs)
    (hs : ps.length < 2 ^ 53) (htree : Check.Spec.Tree (ps.map (·.node))) {i : Nat} {v : Val} (hv : vs[i]? = some v) :
    ∃ cs, Field v "children" (.array cs) ∧ ∀ x ∈ cs, ∃ n w y, x = .f64 n none ∧ vs[n.toUsize]? = some w ∧
      Field w "parent" (.option (some (.f64 y none))) ∧ vs[y.toUsize]? = some v := by
  have hl := h.length_eq
  obtain ⟨hi, rfl⟩ := List.getElem?_eq_some_iff.1 hv
  have get : ∀ j (hj : j < vs.length), Shows (ps[j]'(hl ▸ hj)) vs[j] := fun j hj =>
    (List.forall₂_iff_get.1 h).2 j (hl ▸ hj) hj
  have node : ∀ j (hj : j < ps.length), (Check.Nodes.at (ps.map (·.node)) j) = ps[j].node := by
    intro j hj
    simp [Check.Nodes.at, List.getD, hj]
  refine ⟨_, (get i hi).children, ?_⟩
  intro x hx
  obtain ⟨c, hc, rfl⟩ := List.mem_map.1 hx
  obtain ⟨h1, h2, h3⟩ := htree i c (by rw [node i (hl ▸ hi)]; exact hc)
  rw [List.length_map] at h3
  have hcv : c < vs.length := hl ▸ h3
  have e1 : (F64.ofNatRound c).toUsize = c := by
    rw [round_exact (by omega)]; exact F64.ofNat_toUsize (by omega)
  have e2 : (F64.ofNatRound i).toUsize = i := by
    rw [round_exact (by omega)]; exact F64.ofNat_toUsize (by omega)
  refine ⟨F64.ofNatRound c, vs[c], F64.ofNatRound i, rfl, ?_, ?_, ?_⟩
  · rw [e1]; exact List.getElem?_eq_getElem hcv
  · have := (get c hcv).parent
    rw [node c h3] at h1
    rw [h1] at this
    exact this
  · rw [e2]; exact hv

/-- **C90.** Nothing is lost: two lists of nodes with the same data agree. -/
theorem C90_faithful {ps qs : List Placed} {vs : List Val} (hp : List.Forall₂ Shows ps vs)
    (hq : List.Forall₂ Shows qs vs) (sp : ∀ p ∈ ps, Small p) (sq : ∀ q ∈ qs, Small q) : List.Forall₂ Same ps qs := by
  induction hp generalizing qs with
  | nil => cases hq; exact .nil
  | @cons p v ps vs h _ ih =>
    cases hq with
    | @cons q _ qs _ h' hq =>
      refine .cons ?_ (ih hq (fun p hp => sp p (List.mem_cons_of_mem _ hp)) fun q hq => sq q (List.mem_cons_of_mem _ hq))
      obtain ⟨a1, a2, a3, a4, a5, a6, a7, a8⟩ := sp p (by simp)
      obtain ⟨b1, b2, b3, b4, b5, b6, b7, b8⟩ := sq q (by simp)
      constructor
      · obtain ⟨s, hs, h1⟩ := h.kind
        obtain ⟨s', hs', h2⟩ := h'.kind
        cases Val.str.inj (h1.inj h2)
        exact kindNames_inj hs hs'
      · exact map_num_inj a1 b1 (Val.array.inj (h.children.inj h'.children))
      · exact strs_inj (Val.array.inj (h.names.inj h'.names))
      · exact opt_num_inj a2 b2 (Val.option.inj (h.parent.inj h'.parent))
      · exact str_inj (Val.option.inj (h.alias.inj h'.alias))
      · exact (Val.bool.inj (h.mutable.inj h'.mutable)).1
      · exact (Val.bool.inj (h.tryFlag.inj h'.tryFlag)).1
      · exact str_inj (Val.option.inj (h.lifetime.inj h'.lifetime))
      · exact opt_num_inj a3 b3 (Val.option.inj (h.declaration.inj h'.declaration))
      · cases ho : p.node.op with
        | none =>
          cases ho' : q.node.op with
          | none => rfl
          | some o' =>
            obtain ⟨s', _, h2⟩ := h'.op o' ho'
            exact nomatch (h.noOp ho).inj h2
        | some o =>
          obtain ⟨s, hs, h1⟩ := h.op o ho
          cases ho' : q.node.op with
          | none => exact nomatch h1.inj (h'.noOp ho')
          | some o' =>
            obtain ⟨s', hs', h2⟩ := h'.op o' ho'
            cases Val.str.inj (Option.some.inj (Val.option.inj (h1.inj h2)))
            rw [opNames_inj hs hs']
      · have := (Val.f64.inj (h.grab.inj h'.grab)).1
        rw [← F64.ofNat_toUsize (n := p.node.grabLevel) (by omega), this, F64.ofNat_toUsize (by omega)]
      · obtain ⟨ws, hw, h1⟩ := h.lts
        obtain ⟨ws', hw', h2⟩ := h'.lts
        cases Val.array.inj (h1.inj h2)
        exact lts_inj hw hw'
      · rw [num_inj a4 b4 (h.offset.inj h'.offset), num_inj a5 b5 (h.length.inj h'.length),
          num_inj a6 b6 (h.start.inj h'.start), num_inj a7 b7 (h.stop.inj h'.stop)]

/-- Finding: the data of a text in which a node has a type that is a secret of something other than `bool` and
`f64`, such as the result of a host function, crash the program. -/
theorem C90_secret_panics {vn vt vi : Val} {fl : Option Val} {name text : String} {items : List Val} {imps : List Module}
    {usetr : Bool} (hn : Holds st vn (.str name)) (ht : Holds st vt (.str text)) (hi : Holds st vi (.array items))
    (hm : AreModules obj st items imps) (hf : Usetr st fl usetr) {ps : List Placed} {verdict : Option String}
    (hp : ∀ M, parse name text M = .ok (ps, verdict)) {p : Placed} (hmem : p ∈ ps) {t : Ty}
    (hty : p.node.ty = some (.secret t)) (hb : t ≠ .bool) (hx : t ≠ .f64) :
    checkFn parse obj trace st running vn vt vi fl = .panic := by
  have hnone : nodeObject p = none := by
    have : description (.secret t) = none := by
      cases t <;> first | exact absurd rfl hb | exact absurd rfl hx | rfl
    simp [nodeObject, hty, this]
  have harr : toArray ps = none := by
    cases h : toArray ps with
    | none => rfl
    | some vs =>
      obtain ⟨s, r, rfl⟩ := List.append_of_mem hmem
      simp [toArray, List.mapM_append, List.mapM_cons, hnone] at h
  rw [checkFn, usetrArg_spec hf]
  simp only [Pop.bind]
  rw [textArg_str ht]
  simp only
  rw [textArg_str hn]
  simp only
  rw [importArg_modules hi hm]
  simp only [checkStr, hp, harr]

/-- Finding: a flag that is not a boolean crashes the program. -/
theorem C90_flag_panics {vn vt vi vf x : Val} (hx : Holds st vf x) (hr : ∀ i, x ≠ .ref i) (hb : ∀ b s, x ≠ .bool b s) :
    checkFn parse obj trace st running vn vt vi (some vf) = .panic := by
  have : usetrArg st (some vf) = .panic := by
    rw [usetrArg, flagArg, getVal_holds hr hx]
    cases x <;> first | exact absurd rfl (hb _ _) | rfl
  rw [checkFn, this]; rfl

/-! ## Cases -/

namespace Demo

/-- The nodes of `fn f() -> { return 1 }`, shortened. -/
def nodes : List Placed := [
  ⟨{ kind := .fn, names := ["f"], ty := some .any, children := [1] }, 0, 21, 0, 9⟩,
  ⟨{ kind := .ret, ty := some .f64, children := [2], parent := some 0 }, 10, 8, 3, 8⟩,
  ⟨{ kind := .val, ty := some .f64, parent := some 1, declaration := none, lts := [.arg 0] }, 17, 1, 4, 7⟩]

def parseDemo (_ text : String) (_ : Module) : Except String (List Placed × Option String) :=
  if text = "fn" then .error "In `a:`" else .ok (nodes, some "some error of the checker")

example : (∀ p ∈ nodes, ∀ t, p.node.ty = some t → Described t) ∧ Check.Spec.Tree (nodes.map (·.node)) ∧
    nodes.length < 2 ^ 53 ∧ ∀ p ∈ nodes, Small p := by
  refine ⟨?_, ?_, by decide, ?_⟩
  · intro p hp t ht
    simp [nodes] at hp
    rcases hp with rfl | rfl | rfl <;> cases ht <;> constructor
  · intro i c hc
    rcases i with _ | _ | _ | i <;> simp [nodes, Check.Nodes.at] at hc ⊢ <;> first | (subst hc; simp) | (cases hc)
  · intro p hp
    simp [nodes] at hp
    rcases hp with rfl | rfl | rfl <;> simp [Small]

example : (match checkFn parseDemo (fun _ => none) "" [] .empty (.str "a") (.str "..") (.array []) none with
    | .ok (.resOk (.array vs)) => vs.length
    | _ => 0) = 3 := by decide +kernel

example : Usetr [.bool false none] (some (.ref 0)) false ∧ AreModules (fun _ => none) [] [] [] :=
  ⟨.given (.inr ⟨0, rfl, rfl⟩), .nil⟩

/-- A node with the type of a host function that returns a secret text. -/
def secretNodes : List Placed := nodes ++ [⟨{ kind := .call, ty := some (.secret .str) }, 0, 0, 0, 0⟩]

example : ∃ p ∈ secretNodes, p.node.ty = some (.secret .str) := ⟨_, List.mem_append_right _ (by simp; rfl), rfl⟩

end Demo

end Dyon.Mod
