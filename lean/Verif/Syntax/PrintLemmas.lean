import Verif.Syntax.Parse

/-!
# C39: specification and lemmas

`Spec.Good` describes the expressions whose printed form is read back; the theorem itself
is in `Verif.Syntax.PrintProps`.
-/

namespace Dyon.Syn

namespace Spec

/-- How tightly the outermost construct of the printed form of an expression binds:
4 for something closed, 3 for a power, 2 for a product or a negation, 1 for a sum, 0 for a
comparison. -/
def level : Expr → Nat
  | .call _ name [_] => if name = "neg" then 2 else 4
  | .call _ name [_, _] => match opNamed name with
    | some op => precedence op
    | none => 4
  | _ => 4

/-- An array literal. -/
def isArr : Expr → Prop
  | .array _ => True
  | _ => False

/-- A negation. -/
def isNeg : Expr → Prop
  | .call _ name [_] => name = "neg"
  | _ => False

/-- A negation, or a product whose last factor is one. -/
def endsNeg : Expr → Prop
  | .call _ name [_] => name = "neg"
  | .call _ _ [_, r] => isNeg r
  | _ => False

/-- A literal of the source language: a number that is not negative, a boolean or a text. -/
def Literal : Val → Prop
  | .f64 x none => x.msb = false
  | .bool _ none => True
  | .str _ => True
  | _ => False

/-- A left operand that is printed with parentheses, or does not need them. -/
def LeftOk (op : BinOp) (l : Expr) : Prop :=
  needsParens op l false = true ∨ (¬ isArr l ∧
    ((precedence op = 3 ∧ level l = 4) ∨ (precedence op = 2 ∧ 2 ≤ level l ∧ ¬ endsNeg l) ∨
      (precedence op = 1 ∧ 1 ≤ level l) ∨ (precedence op = 0 ∧ level l = 4)))

/-- A right operand that is printed with parentheses, or does not need them. -/
def RightOk (op : BinOp) (r : Expr) : Prop :=
  needsParens op r true = true ∨
    ((precedence op = 3 ∧ level r = 4) ∨ (precedence op = 2 ∧ (3 ≤ level r ∨ isNeg r)) ∨
      (precedence op = 1 ∧ 2 ≤ level r) ∨ precedence op = 0)

/-- The steps with a `?`, in the order of the source. -/
def TryInOrder (n : Nat) (tr : List Nat) : Prop := tr = (List.range n).filter (· ∈ tr)

/-- A call that is printed as a call. -/
def PlainCall (name : String) (args : List Expr) : Prop :=
  (args.length = 1 → name ≠ "norm" ∧ name ≠ "not" ∧ name ≠ "neg") ∧
  (args.length = 2 → opNamed name = none)

/-- Something a `?` behind it belongs to as a whole. -/
def Tryable : Expr → Prop
  | .call _ name args => PlainCall name args ∨ (name = "norm" ∧ args.length = 1)
  | .callClosure _ _ => True
  | .grab _ _ => True
  | .tryExpr _ => True
  | .vec4 _ => True
  | _ => False

/-- The expressions the printed form of which is read back. -/
inductive Good : Expr → Prop
  | const (v : Val) : Literal v → Good (.const v)
  | item (name : String) (sid : Option Nat) (cur : Bool) (ids : List Id) (tr : List Nat) :
      TryInOrder ids.length tr → (∀ e, .expr e ∈ ids → Good e) →
      (∀ e, .expr e ∈ ids → ∀ v ts, printE e ≠ .lit v :: ts) →
      Good (.item (.mk name sid cur false ids tr))
  | callClosure (name : String) (sid : Option Nat) (cur : Bool) (ids : List Id) (tr : List Nat)
      (args : List Expr) :
      TryInOrder ids.length tr → (∀ e, .expr e ∈ ids → Good e) →
      (∀ e, .expr e ∈ ids → ∀ v ts, printE e ≠ .lit v :: ts) →
      (∀ a ∈ args, Good a) → Good (.callClosure (.mk name sid cur false ids tr) args)
  | array (es : List Expr) : (∀ e ∈ es, Good e) → Good (.array es)
  | vec4 (shown : List Expr) (m : Nat) : shown.length + m = 4 → shown ≠ [] →
      (∀ e ∈ shown, Good e) → (∀ e, shown.getLast? = some e → isZeroConst e = false) →
      Good (.vec4 (shown ++ List.replicate m zeroConst))
  | grab (l : Nat) (e : Expr) : Good e → Good (.grab l e)
  | tryExpr (e : Expr) : Good e → Good (.tryExpr e)
  | try_ (e : Expr) : Good e → Tryable e → Good (.try_ e)
  | norm (f : FnIndex) (e : Expr) : Good e → Good (.call f "norm" [e])
  | not (f : FnIndex) (e : Expr) : Good e → level e = 4 → Good (.call f "not" [e])
  | neg (f : FnIndex) (e : Expr) : Good e → 2 ≤ level e → Good (.call f "neg" [e])
  | bin (f : FnIndex) (op : BinOp) (l r : Expr) : Good l → Good r → LeftOk op l → RightOk op r →
      Good (.call f (callName op) [l, r])
  | call (f : FnIndex) (name : String) (args : List Expr) : PlainCall name args →
      (∀ a ∈ args, Good a) → Good (.call f name args)

end Spec

open Spec

mutual
/-- The expression without what linking adds to it (the function a call calls and the stack
slot of a variable), which the text does not show; on the expressions of `Spec.Good` and the
statements of `Spec.Stmt`. -/
def unlinked : Expr → Expr
  | .call _ name args => .call .none name (unlinkedAll args)
  | .item it => .item (unlinkedItem it)
  | .callClosure it args => .callClosure (unlinkedItem it) (unlinkedAll args)
  | .array es => .array (unlinkedAll es)
  | .vec4 es => .vec4 (unlinkedAll es)
  | .grab l e => .grab l (unlinked e)
  | .tryExpr e => .tryExpr (unlinked e)
  | .try_ e => .try_ (unlinked e)
  | .object kvs => .object (unlinkedKVs kvs)
  | .ret e => .ret (unlinked e)
  | .block es => .block (unlinkedAll es)
  | .assign op l r => .assign op (unlinked l) (unlinked r)
  | .for_ init cond step body label =>
    .for_ (unlinked init) (unlinked cond) (unlinked step) (unlinkedAll body) label
  | .forN k name start stop body label =>
    .forN k name (unlinkedStart start) (unlinked stop) (unlinkedAll body) label
  | .forIn k name iter body label => .forIn k name (unlinked iter) (unlinkedAll body) label
  | .ite cond thn elifs els =>
    .ite (unlinked cond) (unlinkedAll thn) (unlinkedElifs elifs) (unlinkedElse els)
  | e => e
/-- Each of several. -/
def unlinkedAll : List Expr → List Expr
  | [] => []
  | e :: es => unlinked e :: unlinkedAll es
/-- For the members of an object. -/
def unlinkedKVs : List (String × Expr) → List (String × Expr)
  | [] => []
  | (k, e) :: kvs => (k, unlinked e) :: unlinkedKVs kvs
/-- For the start of a range. -/
def unlinkedStart : Option Expr → Option Expr
  | none => none
  | some e => some (unlinked e)
/-- For the `else if` branches. -/
def unlinkedElifs : List (Expr × List Expr) → List (Expr × List Expr)
  | [] => []
  | (c, b) :: rest => (unlinked c, unlinkedAll b) :: unlinkedElifs rest
/-- For the `else` branch. -/
def unlinkedElse : Option (List Expr) → Option (List Expr)
  | none => none
  | some b => some (unlinkedAll b)
/-- For an item. -/
def unlinkedItem : Item → Item
  | .mk name _ cur tr ids trs => .mk name none cur tr (unlinkedIds ids) trs
/-- For the ids of an item. -/
def unlinkedIds : List Id → List Id
  | [] => []
  | d :: ds => unlinkedId d :: unlinkedIds ds
/-- For an id. -/
def unlinkedId : Id → Id
  | .str s => .str s
  | .num x => .num x
  | .expr e => .expr (unlinked e)
end

/-! ## Enough fuel -/

/-- From some amount of fuel on. -/
def Ev (p : Nat → Prop) : Prop := ∃ N, ∀ n, N ≤ n → p n

theorem Ev.mono {p q : Nat → Prop} (h : Ev p) (hpq : ∀ n, p n → q n) : Ev q :=
  let ⟨N, hN⟩ := h; ⟨N, fun n hn => hpq n (hN n hn)⟩

theorem Ev.and {p q : Nat → Prop} (hp : Ev p) (hq : Ev q) : Ev fun n => p n ∧ q n :=
  let ⟨N, hN⟩ := hp; let ⟨M, hM⟩ := hq
  ⟨max N M, fun n hn => ⟨hN n (by omega), hM n (by omega)⟩⟩

theorem Ev.succ {p : Nat → Prop} (h : Ev fun n => p (n + 1)) : Ev p :=
  let ⟨N, hN⟩ := h
  ⟨N + 1, fun n hn => by
    obtain ⟨m, rfl⟩ : ∃ m, n = m + 1 := ⟨n - 1, by omega⟩
    exact hN m (by omega)⟩

theorem Ev.of {p : Nat → Prop} (h : ∀ n, p n) : Ev p := ⟨0, fun n _ => h n⟩

/-- `h.step`: a claim about fuel `n + 1` from one about `n`. -/
theorem Ev.step {p q : Nat → Prop} (h : Ev p) (hpq : ∀ n, p n → q (n + 1)) : Ev q :=
  Ev.succ (Ev.mono h hpq)

/-! ## What may follow -/

/-- What may follow: nothing that belongs to a variable, a call or a `?`, and only operators
with a certain precedence. -/
def Stop (p : Nat → Prop) : List Tok → Prop
  | .dot :: _ => False
  | .lb :: _ => False
  | .lp :: _ => False
  | .quest :: _ => False
  | .bin op :: _ => p (precedence op)
  | _ => True

theorem Stop.mono {p q : Nat → Prop} {ts : List Tok} (h : Stop p ts) (hpq : ∀ k, p k → q k) : Stop q ts := by
  unfold Stop at *
  split at h <;> simp_all

/-- The first token. -/
def Heads (T : List Tok) (p : Tok → Prop) : Prop := ∃ t ts, T = t :: ts ∧ p t

theorem Heads.append {T : List Tok} {p : Tok → Prop} (h : Heads T p) (ts : List Tok) : Heads (T ++ ts) p := by
  obtain ⟨t, us, rfl, hp⟩ := h
  exact ⟨t, us ++ ts, rfl, hp⟩

theorem gTry_stop {e : Expr} {p : Nat → Prop} {rest : List Tok} (h : Stop p rest) :
    gTry (some (e, rest)) = some (e, rest) := by
  unfold gTry
  split
  · rename_i heq
    cases heq
    exact absurd h (by simp [Stop])
  · rfl

theorem gExpr_other {T : List Tok} (h : Heads T (· ≠ .lb)) (n : Nat) :
    gExpr (n + 1) T = gTry (match gCompare n T with
      | some r => some r
      | none => gAdd n T) := by
  obtain ⟨t, ts, rfl, ht⟩ := h
  cases t <;> first | exact absurd rfl ht | rfl

theorem gL_other {T : List Tok} (h : Heads T (· ≠ .lb)) (n : Nat) : gL (n + 1) T = gTry (gItems n T) := by
  obtain ⟨t, ts, rfl, ht⟩ := h
  cases t <;> first | exact absurd rfl ht | rfl

theorem gFactor_other {T : List Tok} (h : Heads T (· ≠ .bin .sub)) (n : Nat) :
    gFactor (n + 1) T = match gL n T with
      | some (l, .bin .pow :: ts') => match gL n ts' with
        | some (r, ts) => some (binCall .pow l r, ts)
        | none => some (l, .bin .pow :: ts')
      | r => r := by
  obtain ⟨t, ts, rfl, ht⟩ := h
  cases t with
  | bin op => cases op <;> first | exact absurd rfl ht | rfl
  | _ => rfl

theorem gAddRest_stop {v : Expr} {rest : List Tok} (h : Stop (· ≠ 1) rest) (n : Nat) :
    gAddRest (n + 1) v rest = some (v, rest) := by
  cases rest with
  | nil => rfl
  | cons t ts =>
    cases t with
    | bin op =>
      have : precedence op ≠ 1 := h
      simp only [gAddRest, if_neg this]
    | _ => rfl

theorem gMulRest_stop {v : Expr} {rest : List Tok} (h : Stop (· ≠ 2) rest) (n : Nat) :
    gMulRest (n + 1) v rest = some (v, rest) := by
  cases rest with
  | nil => rfl
  | cons t ts =>
    cases t with
    | bin op =>
      have : precedence op ≠ 2 := h
      simp only [gMulRest, if_neg this]
    | _ => rfl

/-! ## Texts that are read as an expression -/

/-- Read by `lexpr`. -/
def ReadsL (T : List Tok) (v : Expr) : Prop :=
  ∀ rest, Stop (· < 4) rest → Ev fun n => gL n (T ++ rest) = some (v, rest)
/-- Read as a factor. -/
def ReadsF (k : Nat) (T : List Tok) (v : Expr) : Prop :=
  ∀ rest, Stop (· < k) rest → Ev fun n => gFactor n (T ++ rest) = some (v, rest)
/-- Read as a product that may go on. -/
def ReadsMk (T : List Tok) (v : Expr) : Prop :=
  ∀ rest w, Stop (· < 3) rest → (Ev fun n => gMulRest n v rest = some w) →
    Ev fun n => gMul n (T ++ rest) = some w
/-- Read as a product. -/
def ReadsM (T : List Tok) (v : Expr) : Prop :=
  ∀ rest, Stop (· < 2) rest → Ev fun n => gMul n (T ++ rest) = some (v, rest)
/-- Read as a sum that may go on. -/
def ReadsDk (T : List Tok) (v : Expr) : Prop :=
  ∀ rest w, Stop (· < 2) rest → (Ev fun n => gAddRest n v rest = some w) →
    Ev fun n => gAdd n (T ++ rest) = some w
/-- Not read as a comparison. -/
def NoCmp (T : List Tok) : Prop :=
  ∀ rest, Stop (fun k => k < 4 ∧ k ≠ 0) rest →
    Ev fun n => ∀ l op ts, gL n (T ++ rest) = some (l, .bin op :: ts) → precedence op ≠ 0
/-- Read as an expression. -/
def ReadsE (T : List Tok) (v : Expr) : Prop :=
  ∀ rest, Stop (· < 0) rest → Ev fun n => gExpr n (T ++ rest) = some (v, rest)

theorem ReadsL.toF {T v} (h : ReadsL T v) (hT : Heads T (· ≠ .bin .sub)) : ReadsF 3 T v := by
  intro rest hr
  refine (h rest (hr.mono (by omega))).step fun n hn => ?_
  rw [gFactor_other (hT.append rest), hn]
  split
  · rename_i heq
    cases heq
    have : precedence .pow < 3 := hr
    exact absurd this (by decide)
  · rfl

theorem ReadsF.toMk {T v} (h : ReadsF 3 T v) : ReadsMk T v := by
  intro rest w hr hk
  refine ((h rest hr).and hk).step fun n hn => ?_
  simp only [gMul, hn.1]
  exact hn.2

theorem ReadsF.toM {T v} (h : ReadsF 2 T v) : ReadsM T v := by
  intro rest hr
  have hk : Ev fun n => gMulRest n v rest = some (v, rest) :=
    Ev.succ (Ev.of fun n => gMulRest_stop (hr.mono (by omega)) n)
  refine ((h rest hr).and hk).step fun n hn => ?_
  simp only [gMul, hn.1]
  exact hn.2

theorem ReadsMk.toM {T v} (h : ReadsMk T v) : ReadsM T v := fun rest hr =>
  h rest _ (hr.mono (by omega)) (Ev.succ (Ev.of fun n => gMulRest_stop (hr.mono (by omega)) n))

theorem ReadsM.toDk {T v} (h : ReadsM T v) : ReadsDk T v := by
  intro rest w hr hk
  refine ((h rest hr).and hk).step fun n hn => ?_
  simp only [gAdd, hn.1]
  exact hn.2

theorem ReadsL.toNoCmp {T v} (h : ReadsL T v) : NoCmp T := by
  intro rest hr
  refine (h rest (hr.mono (by omega))).mono fun n hn l op ts hl => ?_
  rw [hn] at hl
  cases hl
  exact (hr : precedence op < 4 ∧ precedence op ≠ 0).2

theorem toE {T v} (hT : Heads T (· ≠ .lb)) (hc : NoCmp T) (hd : ReadsDk T v) : ReadsE T v := by
  intro rest hr
  have h1 := hc rest (hr.mono (by omega))
  have h2 := hd rest _ (hr.mono (by omega)) (Ev.succ (Ev.of fun n => gAddRest_stop (hr.mono (by omega)) n))
  have h3 : Ev fun n => gCompare n (T ++ rest) = none := by
    refine h1.step fun n hn => ?_
    unfold gCompare
    split
    · rename_i l op ts heq
      rw [if_neg (hn l op ts heq)]
    · rfl
  refine (h3.and h2).step fun n hn => ?_
  rw [gExpr_other (hT.append rest), hn.1, hn.2]
  exact gTry_stop hr

/-! ## Parentheses, lists and items -/

theorem ReadsE.paren {T v} (h : ReadsE T v) : ReadsL (.lp :: T ++ [.rp]) v := by
  intro rest hr
  have h1 := h (.rp :: rest) trivial
  have h2 : Ev fun n => gVec n (T ++ .rp :: rest) = none := by
    refine h1.step fun n hn => ?_
    simp only [gVec, hn]
  refine Ev.succ ((h1.and h2).step fun n hn => ?_)
  have : (.lp :: T ++ [.rp]) ++ rest = Tok.lp :: (T ++ .rp :: rest) := by simp
  rw [this, gL_other ⟨_, _, rfl, by simp⟩]
  simp only [gItems, hn.1, hn.2]
  exact gTry_stop hr

/-- A token that closes a list. -/
def Closes (t : Tok) : Prop := t = .rp ∨ t = .rb

theorem none_of_items {T : List Tok} (hT : Heads T fun t => t ≠ .lb ∧ t ≠ .bin .sub) (hit : ∀ n, gItems n T = none)
    (n : Nat) : gExpr n T = none := by
  have h1 : Heads T (· ≠ .lb) := let ⟨t, ts, h, hp⟩ := hT; ⟨t, ts, h, hp.1⟩
  have h2 : Heads T (· ≠ .bin .sub) := let ⟨t, ts, h, hp⟩ := hT; ⟨t, ts, h, hp.2⟩
  have hl : ∀ n, gL n T = none := by
    intro n
    cases n with
    | zero => rfl
    | succ n => rw [gL_other h1, hit]; rfl
  have hf : ∀ n, gFactor n T = none := by
    intro n
    cases n with
    | zero => rfl
    | succ n => rw [gFactor_other h2, hl]
  have hm : ∀ n, gMul n T = none := by
    intro n
    cases n with
    | zero => rfl
    | succ n => simp only [gMul, hf]
  have ha : ∀ n, gAdd n T = none := by
    intro n
    cases n with
    | zero => rfl
    | succ n => simp only [gAdd, hm]
  have hc : ∀ n, gCompare n T = none := by
    intro n
    cases n with
    | zero => rfl
    | succ n => simp only [gCompare, hl]
  cases n with
  | zero => rfl
  | succ n => rw [gExpr_other h1, hc, ha]; rfl

theorem closes_none {t : Tok} (ht : Closes t) (ts : List Tok) (n : Nat) : gExpr n (t :: ts) = none := by
  have hi : ∀ n, gItem n (t :: ts) = none := by
    intro n
    cases n with
    | zero => rfl
    | succ n => rcases ht with rfl | rfl <;> rfl
  refine none_of_items ⟨_, _, rfl, by rcases ht with rfl | rfl <;> simp⟩ (fun n => ?_) n
  cases n with
  | zero => rfl
  | succ n => rcases ht with rfl | rfl <;> simp [gItems, hi]

/-- A list of expressions with commas, up to the closing token. -/
theorem reads_sep (es : List Expr) (h : ∀ e ∈ es, ReadsE (printE e) (unlinked e)) {t : Tok} (ht : Closes t)
    (rest : List Tok) :
    Ev fun n => gSep n (commas (printAll es) ++ t :: rest) = some (unlinkedAll es, t :: rest) := by
  induction es with
  | nil =>
    refine Ev.succ (Ev.of fun n => ?_)
    simp only [printAll, commas, List.nil_append, gSep, closes_none ht, unlinkedAll]
  | cons e es ih =>
    cases es with
    | nil =>
      have hs : Stop (· < 0) (t :: rest) := by rcases ht with rfl | rfl <;> trivial
      refine (h e (by simp) (t :: rest) hs).step fun n hn => ?_
      simp only [printAll, commas, gSep, hn, unlinkedAll]
      rcases ht with rfl | rfl <;> rfl
    | cons e' es' =>
      have h1 := h e (by simp) (.comma :: (commas (printAll (e' :: es')) ++ t :: rest)) trivial
      have h2 := ih fun x hx => h x (by simp [hx])
      refine (h1.and h2).step fun n hn => ?_
      have heq : commas (printAll (e :: e' :: es')) ++ t :: rest =
          printE e ++ .comma :: (commas (printAll (e' :: es')) ++ t :: rest) := by
        simp [printAll, commas]
      rw [heq]
      simp only [gSep, hn.1, hn.2, unlinkedAll]

theorem gId_bracket {T : List Tok} (h : ∀ v ts, T ≠ .lit v :: ts) (n : Nat) :
    gId (n + 1) (.lb :: T) = match gExpr n T with
      | some (e, .rb :: ts) => some (.expr e, ts)
      | _ => none := by
  cases T with
  | nil => rfl
  | cons t ts =>
    cases t with
    | lit v => exact absurd rfl (h v ts)
    | _ => rfl

/-- What may follow an item inside a call of a closure. -/
def StopItem : List Tok → Prop
  | .dot :: _ => False
  | .lb :: _ => False
  | .quest :: _ => False
  | _ => True

theorem Stop.item {p : Nat → Prop} {ts : List Tok} (h : Stop p ts) : StopItem ts := by
  unfold Stop at h
  split at h <;> simp_all [StopItem]

theorem gId_stop {rest : List Tok} (h : StopItem rest) (n : Nat) : gId n rest = none := by
  cases n with
  | zero => rfl
  | succ n =>
    cases rest with
    | nil => rfl
    | cons t ts => cases t <;> first | exact h.elim | rfl

theorem reads_id (d : Id) (h : ∀ e, d = .expr e → ReadsE (printE e) (unlinked e))
    (hl : ∀ e, d = .expr e → ∀ v ts, printE e ≠ .lit v :: ts) (hne : ∀ e, d = .expr e → printE e ≠ [])
    (rest : List Tok) : Ev fun n => gId n (printId d ++ rest) = some (unlinkedId d, rest) := by
  cases d with
  | str s => exact Ev.succ (Ev.of fun n => by simp [printId, gId, unlinkedId])
  | num x => exact Ev.succ (Ev.of fun n => by simp [printId, gId, unlinkedId])
  | expr e =>
    refine (h e rfl (.rb :: rest) trivial).step fun n hn => ?_
    have heq : printId (.expr e) ++ rest = .lb :: (printE e ++ .rb :: rest) := by simp [printId]
    rw [heq, gId_bracket, hn]
    · rfl
    · intro v ts hc
      cases hp : printE e with
      | nil => exact hne e rfl hp
      | cons t us =>
        rw [hp] at hc
        cases hc
        exact hl e rfl v us hp

theorem reads_ids (trs : List Nat) (ids : List Id) (h : ∀ e, Id.expr e ∈ ids → ReadsE (printE e) (unlinked e))
    (hl : ∀ e, Id.expr e ∈ ids → ∀ v ts, printE e ≠ .lit v :: ts) (hne : ∀ e, Id.expr e ∈ ids → printE e ≠ [])
    (rest : List Tok) (hr : StopItem rest) : ∀ i,
    Ev fun n => gIds n i (printIds trs i ids ++ rest) =
      (unlinkedIds ids, (List.range' i ids.length).filter (· ∈ trs), rest) := by
  induction ids with
  | nil =>
    intro i
    refine Ev.succ (Ev.of fun n => ?_)
    simp [printIds, gIds, gId_stop hr, unlinkedIds]
  | cons d ds ih =>
    intro i
    have h2 := ih (fun e he => h e (by simp [he])) (fun e he => hl e (by simp [he]))
      (fun e he => hne e (by simp [he])) (i + 1)
    have hq : ∀ rest', Ev fun n => gId n (printId d ++ rest') = some (unlinkedId d, rest') :=
      reads_id d (fun e he => h e (by simp [he])) (fun e he => hl e (by simp [he])) (fun e he => hne e (by simp [he]))
    by_cases hi : i ∈ trs
    · refine ((hq (.quest :: (printIds trs (i + 1) ds ++ rest))).and h2).step fun n hn => ?_
      have heq : printIds trs i (d :: ds) ++ rest = printId d ++ .quest :: (printIds trs (i + 1) ds ++ rest) := by
        simp [printIds, hi]
      rw [heq]
      simp only [gIds, hn.1, hn.2, unlinkedIds, List.length_cons, List.range'_succ, List.filter_cons]
      simp [hi]
    · refine ((hq (printIds trs (i + 1) ds ++ rest)).and h2).step fun n hn => ?_
      have heq : printIds trs i (d :: ds) ++ rest = printId d ++ (printIds trs (i + 1) ds ++ rest) := by
        simp [printIds, hi]
      have hnq : ∀ ts, printIds trs (i + 1) ds ++ rest ≠ .quest :: ts := by
        intro ts hc
        cases ds with
        | nil =>
          simp only [printIds, List.nil_append] at hc
          rw [hc] at hr
          exact hr
        | cons d' ds' =>
          cases d' <;> simp [printIds, printId] at hc
      rw [heq]
      simp only [gIds, hn.1]
      rw [hn.2]
      simp [unlinkedIds, List.range'_succ, hi]

theorem reads_item (name : String) (sid : Option Nat) (cur : Bool) (ids : List Id) (trs : List Nat)
    (ht : TryInOrder ids.length trs) (h : ∀ e, Id.expr e ∈ ids → ReadsE (printE e) (unlinked e))
    (hl : ∀ e, Id.expr e ∈ ids → ∀ v ts, printE e ≠ .lit v :: ts) (hne : ∀ e, Id.expr e ∈ ids → printE e ≠ [])
    (rest : List Tok) (hr : StopItem rest) :
    Ev fun n => gItem n (printItem (.mk name sid cur false ids trs) ++ rest) =
      some (unlinkedItem (.mk name sid cur false ids trs), rest) := by
  refine (reads_ids trs ids h hl hne rest hr 0).step fun n hn => ?_
  have hrg : (List.range' 0 ids.length).filter (· ∈ trs) = trs := by
    rw [← List.range_eq_range']; exact ht.symm
  rw [hrg] at hn
  have hnq : ∀ ts, printIds trs 0 ids ++ rest ≠ .quest :: ts := by
    intro ts hc
    cases ids with
    | nil =>
      simp only [printIds, List.nil_append] at hc
      rw [hc] at hr
      exact hr
    | cons d' ds' => cases d' <;> simp [printIds, printId] at hc
  cases cur with
  | true =>
    have heq : printItem (.mk name sid true false ids trs) ++ rest = .tilde :: .name name :: (printIds trs 0 ids ++ rest) := by
      simp [printItem]
    rw [heq]
    cases hU : printIds trs 0 ids ++ rest with
    | nil => rw [hU] at hn; simp only [gItem, hn, unlinkedItem]
    | cons t us =>
      rw [hU] at hn
      cases t <;> first | exact absurd hU (hnq _) | (simp only [gItem, hn, unlinkedItem])
  | false =>
    have heq : printItem (.mk name sid false false ids trs) ++ rest = .name name :: (printIds trs 0 ids ++ rest) := by
      simp [printItem]
    rw [heq]
    cases hU : printIds trs 0 ids ++ rest with
    | nil => rw [hU] at hn; simp only [gItem, hn, unlinkedItem]
    | cons t us =>
      rw [hU] at hn
      cases t <;> first | exact absurd hU (hnq _) | (simp only [gItem, hn, unlinkedItem])

end Dyon.Syn
