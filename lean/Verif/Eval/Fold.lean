import Verif.Eval.TryProps
import Verif.Builtin.CloneProps

/-!
# C42: constant folding of grabbed expressions

Models `Expression::precompute` and the functions it calls; a `grab` expression (and a
lazy invariant) whose expression can be precomputed is replaced by the value when the
file is loaded (ast/mod.rs:1376-1383, 874-882).
-/

namespace Dyon

section Model
variable [FloatOps]

mutual
/-- `Expression::precompute`, ast/mod.rs:1447-1459. -/
def preExpr : Expr → Option Val
  | .arrayFill fill n => preFill fill n
  | .array items => (preList items).map .array
  | .object kvs => (preObj [] kvs).map .object
  | .vec4 args => (preNums 0 args).map fun l =>
      .vec4 ⟨l[0]?.getD 0, l[1]?.getD 0, l[2]?.getD 0, l[3]?.getD 0⟩
  | .link items => (preLink [] items).map .link
  | .const v => some v
  | _ => none
/-- `Link::precompute`, ast/mod.rs:1739-1751. -/
def preLink (l : List Link.Scalar) : List Expr → Option (List Link.Scalar)
  | [] => some l
  | e :: es => match preExpr e with
    | some v => match linkPush l v with
      | .ok l' => preLink l' es
      | .error _ => none
    | none => none
/-- `Object::precompute`, ast/mod.rs:1817-1827. -/
def preObj (acc : List (String × Val)) : List (String × Expr) → Option (List (String × Val))
  | [] => some acc
  | (k, e) :: kvs => match preExpr e with
    | some v => preObj (insertKey k v acc) kvs
    | none => none
/-- `Array::precompute`, ast/mod.rs:1930-1940. -/
def preList : List Expr → Option (List Val)
  | [] => some []
  | e :: es => match preExpr e with
    | some v => (preList es).map (v :: ·)
    | none => none
/-- The loop of `Vec4::precompute`, ast/mod.rs:3617-3628, at component `i`. -/
def preNums (i : Nat) : List Expr → Option (List F32)
  | [] => some []
  | e :: es => if i < 4 then
      match preExpr e with
      | some (.f64 x _) => (preNums (i + 1) es).map (FloatOps.toF32 x :: ·)
      | _ => none
    else some []
/-- `ArrayFill::precompute`, ast/mod.rs:2017-2026. -/
def preFill : Expr → Expr → Option Val
  | .const x, .const (.f64 n _) => some (.array (List.replicate n.toUsize x))
  | _, _ => none
end

/-- What the parser makes of a `grab` expression, ast/mod.rs:1376-1383. -/
def foldGrab (level : Nat) (e : Expr) : Expr :=
  match preExpr e with
  | some v => .const v
  | none => .grab level e

end Model

/-! ## Specification -/

namespace Spec

mutual
/-- Syntax trees as the parser makes them, with distinct keys in objects: literals do not
contain references, and `vec4` has four arguments (ast/mod.rs:3597-3612). -/
def Parsed : Expr → Prop
  | .arrayFill fill n => Parsed fill ∧ Parsed n
  | .array items => ParsedAll items
  | .object kvs => (kvs.map (·.1)).Nodup ∧ ParsedKVs kvs
  | .vec4 args => args.length = 4 ∧ ParsedAll args
  | .link items => ParsedAll items
  | .const v => RefFree v
  | _ => True
/-- All parts. -/
def ParsedAll : List Expr → Prop
  | [] => True
  | e :: es => Parsed e ∧ ParsedAll es
/-- All values of an object. -/
def ParsedKVs : List (String × Expr) → Prop
  | [] => True
  | (_, e) :: es => Parsed e ∧ ParsedKVs es
end

end Spec

open Spec

/-! ## Lemmas -/

section
variable [FloatOps] [VecMath]
variable {c : ECfg}

theorem derefE_refFree {v : Val} (h : RefFree v) (st : St) : derefE v st = .ok v st := by
  cases h <;> rfl

theorem scope3_still {α} {m : EM (Bool × α)} {st : St} {b a} (h : m st = .ok (b, a) st) :
    scope3 m st = .ok a st := by
  unfold scope3
  rw [EM.bind_ok (show EM.get st = .ok st st from rfl), EM.bind_ok h]
  cases b with
  | false => rfl
  | true =>
    simp only [if_true]
    have e1 : truncStack st.stack.length st = .ok () st := by
      simp [truncStack, EM.modify]
    have e2 : truncLocals st.locals.length st = .ok () st := by
      simp [truncLocals, EM.modify]
    have e3 : truncCurrents st.currents.length st = .ok () st := by
      simp [truncCurrents, EM.modify]
    rw [EM.bind_ok e1, EM.bind_ok e2, EM.bind_ok e3]
    rfl

theorem want_ok {ev : Evl} {e : Expr} {side : Side} {msg : String} {k : Val → EM R} {st s : St} {v : Val}
    (h : ev e side st = .ok (some v, .cont) s) : want ev e side msg k st = k v s := by
  unfold want wantK
  rw [EM.bind_ok h]

/-- The expression evaluates to a value without effect if there is enough fuel. -/
def Yields (c : ECfg) (e : Expr) (v : Val) : Prop :=
  ∃ N, ∀ n ≥ N, ∀ side st, eval c n e side st = .ok (some v, .cont) st

theorem Yields.step {e : Expr} {v : Val}
    (h : ∃ N, ∀ n ≥ N, ∀ side st, evalStep c n (eval c n) e side st = .ok (some v, .cont) st) : Yields c e v := by
  obtain ⟨N, h⟩ := h
  refine ⟨N + 1, fun n hn side st => ?_⟩
  obtain ⟨k, rfl⟩ : ∃ k, n = k + 1 := ⟨n - 1, by omega⟩
  exact h k (by omega) side st

theorem Yields.const (v : Val) : Yields c (.const v) v := .step ⟨0, fun _ _ _ _ => rfl⟩

theorem lookup_append_none {k : String} {v : Val} {acc : List (String × Val)} {x : String}
    (h : acc.lookup x = none) (hx : x ≠ k) : (acc ++ [(k, v)]).lookup x = none := by
  induction acc with
  | nil => simp [List.lookup, beq_eq_false_iff_ne.2 hx]
  | cons p acc ih =>
    obtain ⟨y, w⟩ := p
    simp only [List.cons_append, List.lookup] at h ⊢
    cases hxy : x == y with
    | true => rw [hxy] at h; cases h
    | false => rw [hxy] at h; exact ih h

theorem popNum_ok {st : St} {l : Stack} {x : F64} {sec} (h : st.stack = l ++ [.f64 x sec]) :
    popNum st = .ok x { st with stack := l } := by
  unfold popNum
  have : popE st = .ok (.f64 x sec) { st with stack := l } := by
    unfold popE
    simp [h]
  rw [EM.bind_ok this]
  rfl

mutual
theorem fold_expr : ∀ (e : Expr) (v : Val), Parsed e → preExpr e = some v → Yields c e v ∧ RefFree v
  | .const v, w, hp, h => by
    simp only [preExpr, Option.some.injEq] at h
    subst h
    exact ⟨.const v, by simpa [Parsed] using hp⟩
  | .array items, w, hp, h => by
    simp only [preExpr, Option.map_eq_some_iff] at h
    obtain ⟨vs, hvs, rfl⟩ := h
    obtain ⟨⟨N, hN⟩, hr⟩ := fold_list items vs (by simpa [Parsed] using hp) hvs
    exact ⟨.step ⟨N, fun n hn side st => hN n hn [] st⟩, .array hr⟩
  | .object kvs, w, hp, h => by
    simp only [preExpr, Option.map_eq_some_iff] at h
    obtain ⟨vs, hvs, rfl⟩ := h
    simp only [Parsed] at hp
    obtain ⟨⟨N, hN⟩, hr⟩ := fold_obj kvs [] vs hp.2 hp.1 (by simp) (by simp) hvs
    exact ⟨.step ⟨N, fun n hn side st => hN n hn st⟩, .object hr⟩
  | .link items, w, hp, h => by
    simp only [preExpr, Option.map_eq_some_iff] at h
    obtain ⟨l, hl, rfl⟩ := h
    obtain ⟨N, hN⟩ := fold_link items [] l (by simpa [Parsed] using hp) hl
    refine ⟨.step ⟨N, fun n hn side st => ?_⟩, .link⟩
    show linkE (eval c n) items st = _
    unfold linkE
    by_cases hi : items.isEmpty
    · have : items = [] := by simpa using hi
      subst this
      simp only [preLink, Option.some.injEq] at hl
      subst hl
      rfl
    · rw [if_neg hi]
      exact scope3_still (hN n hn st)
  | .vec4 args, w, hp, h => by
    simp only [preExpr, Option.map_eq_some_iff] at h
    obtain ⟨l, hl, rfl⟩ := h
    simp only [Parsed] at hp
    obtain ⟨hlen, hpa⟩ := hp
    refine ⟨?_, .vec4⟩
    match args, hlen, hl, hpa with
    | [e1, e2, e3, e4], _, hl, hpa =>
      simp only [ParsedAll] at hpa
      obtain ⟨p1, p2, p3, p4, _⟩ := hpa
      have key : ∀ i es l, i < 4 → preNums i es = some l → ∀ e es', es = e :: es' →
          ∃ x s l', preExpr e = some (.f64 x s) ∧ preNums (i + 1) es' = some l' ∧
            l = FloatOps.toF32 x :: l' := by
        intro i es l hi h e es' he
        subst he
        rw [preNums, if_pos hi] at h
        cases hx : preExpr e with
        | none => rw [hx] at h; simp at h
        | some v =>
          rw [hx] at h
          cases v <;> simp at h
          rename_i x s
          obtain ⟨l', h1, h2⟩ := h
          exact ⟨x, s, l', rfl, h1, h2.symm⟩
      obtain ⟨x1, s1, l1, h1, g1, rfl⟩ := key 0 _ _ (by omega) hl e1 _ rfl
      obtain ⟨x2, s2, l2, h2, g2, rfl⟩ := key 1 _ _ (by omega) g1 e2 _ rfl
      obtain ⟨x3, s3, l3, h3, g3, rfl⟩ := key 2 _ _ (by omega) g2 e3 _ rfl
      obtain ⟨x4, s4, l4, h4, g4, rfl⟩ := key 3 _ _ (by omega) g3 e4 _ rfl
      obtain ⟨⟨N1, hN1⟩, _⟩ := fold_expr e1 _ p1 h1
      obtain ⟨⟨N2, hN2⟩, _⟩ := fold_expr e2 _ p2 h2
      obtain ⟨⟨N3, hN3⟩, _⟩ := fold_expr e3 _ p3 h3
      obtain ⟨⟨N4, hN4⟩, _⟩ := fold_expr e4 _ p4 h4
      refine .step ⟨max (max N1 N2) (max N3 N4), fun n hn side st => ?_⟩
      show vec4E (eval c n) [e1, e2, e3, e4] side st = _
      unfold vec4E
      rw [EM.bind_ok (show EM.get st = .ok st st from rfl)]
      have push : ∀ {e es k v} {s : St} {msg : String}, (∀ s, eval c n e side s = .ok (some v, .cont) s) →
          vecArgs (eval c n) side msg (some st.stack.length) (e :: es) k s =
          vecArgs.vecNext (some st.stack.length) (vecArgs (eval c n) side msg (some st.stack.length) es k) k
            { s with stack := s.stack ++ [v] } := by
        intro e es k v s msg h
        rw [vecArgs, EM.bind_ok (h s)]
        rfl
      have more : ∀ {a b : EM R} {s : St}, s.stack.length - st.stack.length ≤ 3 →
          vecArgs.vecNext (some st.stack.length) a b s = a s := by
        intro a b s h
        unfold vecArgs.vecNext
        rw [EM.bind_ok (show EM.get s = .ok s s from rfl)]
        simp only
        rw [if_neg (by omega)]
      have done : ∀ {a b : EM R} {s : St}, 3 < s.stack.length - st.stack.length →
          vecArgs.vecNext (some st.stack.length) a b s = b s := by
        intro a b s h
        unfold vecArgs.vecNext
        rw [EM.bind_ok (show EM.get s = .ok s s from rfl)]
        simp only
        rw [if_pos (by omega)]
      rw [push fun s => hN1 n (by omega) side s, more (by simp), push fun s => hN2 n (by omega) side s,
        more (by simp), push fun s => hN3 n (by omega) side s, more (by simp),
        push fun s => hN4 n (by omega) side s, done (by simp)]
      rw [EM.bind_ok (popNum_ok rfl), EM.bind_ok (popNum_ok rfl), EM.bind_ok (popNum_ok rfl),
        EM.bind_ok (popNum_ok rfl)]
      rfl
  | .arrayFill fill m, w, hp, h => by
    match fill, m, hp, h with
    | .const x, .const (.f64 n s), hp, h =>
      simp only [preExpr, preFill, Option.some.injEq] at h
      subst h
      simp only [Parsed] at hp
      refine ⟨.step ⟨1, fun k hk side st => ?_⟩, .array fun y hy => ?_⟩
      · obtain ⟨k, rfl⟩ : ∃ j, k = j + 1 := ⟨k - 1, by omega⟩
        show arrayFillE (eval c (k + 1)) (.const x) (.const (.f64 n s)) st = _
        unfold arrayFillE
        rw [want_ok (v := x) (s := st) rfl, want_ok (v := .f64 n s) (s := st) rfl,
          EM.bind_ok (derefE_refFree hp.1 st)]
        rfl
      · rw [List.eq_of_mem_replicate hy]; exact hp.1
    | .const x, .const (.bool ..), _, h | .const x, .const (.ref ..), _, h | .const x, .const .ret, _, h
    | .const x, .const (.vec4 ..), _, h | .const x, .const (.mat4 ..), _, h | .const x, .const (.str ..), _, h
    | .const x, .const (.array ..), _, h | .const x, .const (.object ..), _, h | .const x, .const (.link ..), _, h
    | .const x, .const (.unsafeRef ..), _, h | .const x, .const (.rustObject ..), _, h
    | .const x, .const (.option ..), _, h | .const x, .const (.resOk ..), _, h | .const x, .const (.resErr ..), _, h
    | .const x, .const (.thread ..), _, h | .const x, .const (.closure ..), _, h | .const x, .const (.inTy ..), _, h =>
      simp [preExpr, preFill] at h
    | .const x, .link .., _, h | .const x, .object .., _, h | .const x, .array .., _, h | .const x, .arrayFill .., _, h
    | .const x, .ret .., _, h | .const x, .retVoid, _, h | .const x, .brk .., _, h | .const x, .cont .., _, h
    | .const x, .block .., _, h | .const x, .go .., _, h | .const x, .call .., _, h | .const x, .item .., _, h
    | .const x, .assign .., _, h | .const x, .vec4 .., _, h | .const x, .mat4 .., _, h | .const x, .for_ .., _, h
    | .const x, .forN .., _, h | .const x, .forIn .., _, h | .const x, .ite .., _, h | .const x, .try_ .., _, h
    | .const x, .swizzle .., _, h | .const x, .closure .., _, h | .const x, .callClosure .., _, h
    | .const x, .grab .., _, h | .const x, .tryExpr .., _, h | .const x, .in_ .., _, h => simp [preExpr, preFill] at h
    | .link .., _, _, h | .object .., _, _, h | .array .., _, _, h | .arrayFill .., _, _, h
    | .ret .., _, _, h | .retVoid, _, _, h | .brk .., _, _, h | .cont .., _, _, h
    | .block .., _, _, h | .go .., _, _, h | .call .., _, _, h | .item .., _, _, h
    | .assign .., _, _, h | .vec4 .., _, _, h | .mat4 .., _, _, h | .for_ .., _, _, h
    | .forN .., _, _, h | .forIn .., _, _, h | .ite .., _, _, h | .try_ .., _, _, h
    | .swizzle .., _, _, h | .closure .., _, _, h | .callClosure .., _, _, h
    | .grab .., _, _, h | .tryExpr .., _, _, h | .in_ .., _, _, h => simp [preExpr, preFill] at h
  | .ret .., _, _, h | .retVoid, _, _, h | .brk .., _, _, h | .cont .., _, _, h
  | .block .., _, _, h | .go .., _, _, h | .call .., _, _, h | .item .., _, _, h
  | .assign .., _, _, h | .mat4 .., _, _, h | .for_ .., _, _, h
  | .forN .., _, _, h | .forIn .., _, _, h | .ite .., _, _, h | .try_ .., _, _, h
  | .swizzle .., _, _, h | .closure .., _, _, h | .callClosure .., _, _, h
  | .grab .., _, _, h | .tryExpr .., _, _, h | .in_ .., _, _, h => by simp [preExpr] at h
theorem fold_list : ∀ (es : List Expr) (vs : List Val), ParsedAll es → preList es = some vs →
    (∃ N, ∀ n ≥ N, ∀ acc st, arrayE (eval c n) es acc st = .ok (some (.array (acc ++ vs)), .cont) st) ∧
    ∀ v ∈ vs, RefFree v
  | [], vs, _, h => by
    simp only [preList, Option.some.injEq] at h
    subst h
    exact ⟨⟨0, fun n _ acc st => by simp [arrayE]; rfl⟩, by simp⟩
  | e :: es, vs, hp, h => by
    simp only [preList] at h
    simp only [ParsedAll] at hp
    cases hv : preExpr e with
    | none => rw [hv] at h; cases h
    | some v =>
      rw [hv] at h
      simp only [Option.map_eq_some_iff] at h
      obtain ⟨ws, hws, rfl⟩ := h
      obtain ⟨⟨N, hN⟩, hr⟩ := fold_expr e v hp.1 hv
      obtain ⟨⟨M, hM⟩, hrs⟩ := fold_list es ws hp.2 hws
      refine ⟨⟨max N M, fun n hn acc st => ?_⟩, by simpa using ⟨hr, hrs⟩⟩
      rw [arrayE, want_ok (hN n (by omega) .right st), hM n (by omega)]
      simp
theorem fold_link : ∀ (es : List Expr) (l l' : List Link.Scalar), ParsedAll es → preLink l es = some l' →
    ∃ N, ∀ n ≥ N, ∀ st, linkLit (eval c n) es l st = .ok (true, (some (.link l'), .cont)) st
  | [], l, l', _, h => by
    simp only [preLink, Option.some.injEq] at h
    subst h
    exact ⟨0, fun n _ st => rfl⟩
  | e :: es, l, l', hp, h => by
    simp only [preLink] at h
    simp only [ParsedAll] at hp
    cases hv : preExpr e with
    | none => rw [hv] at h; cases h
    | some v =>
      rw [hv] at h
      simp only at h
      cases hl : linkPush l v with
      | error m => rw [hl] at h; cases h
      | ok l1 =>
        rw [hl] at h
        obtain ⟨⟨N, hN⟩, hr⟩ := fold_expr e v hp.1 hv
        obtain ⟨M, hM⟩ := fold_link es l1 l' hp.2 h
        refine ⟨max N M, fun n hn st => ?_⟩
        rw [linkLit, EM.bind_ok (hN n (by omega) .right st)]
        simp only
        rw [EM.bind_ok (derefE_refFree hr st), hl]
        exact hM n (by omega) st
theorem fold_obj : ∀ (kvs : List (String × Expr)) (acc vs : List (String × Val)), ParsedKVs kvs →
    (kvs.map (·.1)).Nodup → (∀ k ∈ kvs.map (·.1), acc.lookup k = none) → (∀ kv ∈ acc, RefFree kv.2) →
    preObj acc kvs = some vs →
    (∃ N, ∀ n ≥ N, ∀ st, objectE (eval c n) kvs acc st = .ok (some (.object vs), .cont) st) ∧
    ∀ kv ∈ vs, RefFree kv.2
  | [], acc, vs, _, _, _, ha, h => by
    simp only [preObj, Option.some.injEq] at h
    subst h
    exact ⟨⟨0, fun n _ st => rfl⟩, ha⟩
  | (k, e) :: kvs, acc, vs, hp, hn, hk, ha, h => by
    simp only [preObj] at h
    simp only [ParsedKVs] at hp
    cases hv : preExpr e with
    | none => rw [hv] at h; cases h
    | some v =>
      rw [hv] at h
      simp only at h
      have hk0 : acc.lookup k = none := hk k (by simp)
      rw [insertKey, hk0] at h
      simp only [Option.isSome_none, Bool.false_eq_true, if_false] at h
      simp only [List.map_cons, List.nodup_cons] at hn
      obtain ⟨⟨N, hN⟩, hr⟩ := fold_expr e v hp.1 hv
      obtain ⟨⟨M, hM⟩, hrs⟩ := fold_obj kvs (acc ++ [(k, v)]) vs hp.2 hn.2 (by
          intro x hx
          exact lookup_append_none (hk x (by simp only [List.map_cons, List.mem_cons]; exact Or.inr hx))
            (fun hxk => hn.1 (hxk ▸ hx))) (by
          intro kv hkv
          rcases List.mem_append.1 hkv with hkv | hkv
          · exact ha kv hkv
          · rw [List.mem_singleton.1 hkv]; exact hr) h
      refine ⟨⟨max N M, fun n hn st => ?_⟩, hrs⟩
      rw [objectE, want_ok (hN n (by omega) .right st), hk0]
      simp only [Option.isSome_none, Bool.false_eq_true, if_false]
      exact hM n (by omega) st
end

/-! ## The theorems -/

/-- **C42.** A value computed when the file is loaded is the value the expression has when
it is evaluated, in every state, and evaluating it has no effect. -/
theorem C42_eval {e : Expr} {v : Val} (hp : Parsed e) (h : preExpr e = some v) :
    ∃ N, ∀ n ≥ N, ∀ side st, eval c n e side st = .ok (some v, .cont) st :=
  (fold_expr e v hp h).1

/-- **C42**, grabbing: creating a closure gives the same closure body whether or not a
`grab` expression in it has been replaced by its value when the file was loaded. -/
theorem C42_grab {e : Expr} (hp : Parsed e) (level : Nat) :
    ∃ N, ∀ n ≥ N, ∀ side st,
      grabExpr n (eval c n) side level (foldGrab level e) st = grabExpr n (eval c n) side level (.grab level e) st := by
  unfold foldGrab
  cases h : preExpr e with
  | none => exact ⟨0, fun _ _ _ _ => rfl⟩
  | some v =>
    obtain ⟨⟨N, hN⟩, hr⟩ := fold_expr (c := c) e v hp h
    refine ⟨N, fun n hn side st => ?_⟩
    rw [grabExpr, grabExpr, if_pos rfl]
    unfold grabHere wantK
    rw [EM.bind_ok (hN n hn side st)]
    simp only
    have : cloneE n v st = .ok v st := by
      unfold cloneE
      rw [C14_stable st.stack n v hr]
    rw [EM.bind_ok this]

/-- An expression that meets the hypotheses: `{a: [(1, 2), [true; 2]], b: link {"x"}}`. -/
example : Parsed (.object [("a", .array [.vec4 [.const (.f64 1 none), .const (.f64 2 none), .const (.f64 0 none),
      .const (.f64 0 none)], .arrayFill (.const (.bool true none)) (.const (.f64 F64.one none))]),
    ("b", .link [.const (.str "x")])]) := by
  simp only [Parsed, ParsedKVs, ParsedAll, List.map, List.length]
  refine ⟨by decide, ⟨⟨by decide, .f64 (by simp), .f64 (by simp), .f64 (by simp), .f64 (by simp), trivial⟩,
    ⟨.bool (by simp), .f64 (by simp)⟩, trivial⟩, ⟨.str, trivial⟩, trivial⟩

example : (preExpr (.object [("a", .arrayFill (.const (.bool true none)) (.const (.f64 F64.one none))),
    ("b", .link [.const (.str "x")])])).isSome := by
  simp [preExpr, preObj, preFill, preLink, linkPush]

/-- **Finding (C42).** With a key that occurs twice, the object computed at load time has
the last value; evaluating it is an error. So `grab {a: 1, a: 2}` is accepted where
`grab {a: 1, a: x}` is refused. -/
theorem C42_duplicate_key (x y : F64) (st : St) (n : Nat) (side : Side) :
    preExpr (.object [("a", .const (.f64 x none)), ("a", .const (.f64 y none))]) =
      some (.object [("a", .f64 y none)]) ∧
    eval c (n + 2) (.object [("a", .const (.f64 x none)), ("a", .const (.f64 y none))]) side st =
      errT "Duplicate key in object `a`" st := by
  refine ⟨by simp [preExpr, preObj, insertKey, setKey, List.lookup], ?_⟩
  show objectE (eval c (n + 1)) _ [] st = _
  rw [objectE, want_ok (v := .f64 x none) (s := st) rfl]
  rw [if_neg (by simp), objectE, want_ok (v := .f64 y none) (s := st) rfl, if_pos (by simp [List.lookup])]
  simp

end

end Dyon
