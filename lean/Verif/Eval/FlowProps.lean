import Verif.Eval.LoopProps

/-!
# C20: where `break` and `continue` end up

`Exits f e` is the specification: which `break` and `continue` can leave an expression,
read off from its text.  A loop lets only jumps with the label of another loop out, and
nothing leaves a function call, a closure call, an argument, a condition or an operand.
-/

namespace Dyon

/-- A jump that a loop with this label lets through: it has a label, another one. -/
def Passes (label : Option String) (f : Flow) : Prop :=
  ∃ l, (f = .brk (some l) ∨ f = .contLoop (some l)) ∧ label ≠ some l

/-- `Exits f e`: the text of `e` contains a jump `f` that is not caught inside `e`. -/
inductive Exits (f : Flow) : Expr → Prop
  | brk {l} : f = .brk l → Exits f (.brk l)
  | cont {l} : f = .contLoop l → Exits f (.cont l)
  | block {e es} : e ∈ es → Exits f e → Exits f (.block es)
  | link {e es} : e ∈ es → Exits f e → Exits f (.link es)
  | ifThen {e cnd t elifs els} : e ∈ t → Exits f e → Exits f (.ite cnd t elifs els)
  | elseIf {e b d cnd t elifs els} : (d, b) ∈ elifs → e ∈ b → Exits f e →
      Exits f (.ite cnd t elifs els)
  | else_ {e b cnd t elifs} : e ∈ b → Exits f e → Exits f (.ite cnd t elifs (some b))
  | for_ {e i c s b label} : e ∈ b → Exits f e → Passes label f → Exits f (.for_ i c s b label)
  | forN {e k name start stop b label} : e ∈ b → Exits f e → Passes label f →
      Exits f (.forN k name start stop b label)
  | forIn {e k name iter b label} : e ∈ b → Exits f e → Passes label f →
      Exits f (.forIn k name iter b label)
  | tryExpr {e} : Exits f e → Exits f (.tryExpr e)

/-! ## Lemmas -/

/-- Every result satisfies `P`. -/
structure Gives {α} (m : EM α) (P : α → Prop) : Prop where
  run : ∀ st a s, m st = .ok a s → P a

/-- The flow is `continue evaluating`, `return` or one of `S`. -/
def Within (S : Flow → Prop) (r : R) : Prop := r.2 = .cont ∨ r.2 = .ret ∨ S r.2

/-- No jumps. -/
def Calm (r : R) : Prop := r.2 = .cont ∨ r.2 = .ret

theorem Calm.within {S r} (h : Calm r) : Within S r := h.elim .inl fun h => .inr (.inl h)

namespace Gives
variable {α β : Type}

theorem mono {m : EM α} {P Q : α → Prop} (h : Gives m P) (hpq : ∀ a, P a → Q a) : Gives m Q :=
  ⟨fun st a s ha => hpq _ (h.run st a s ha)⟩
theorem bind {m : EM α} {f : α → EM β} {P : α → Prop} {Q : β → Prop} (hm : Gives m P)
    (hf : ∀ a, P a → Gives (f a) Q) : Gives (m >>= f) Q := by
  constructor
  intro st b s h
  replace h : EM.bind m f st = .ok b s := h
  simp only [EM.bind] at h
  cases hx : m st with
  | ok a s1 => rw [hx] at h; exact (hf a (hm.run _ _ _ hx)).run _ _ _ h
  | err e s1 => rw [hx] at h; cases h
  | panic w => rw [hx] at h; cases h
  | timeout => rw [hx] at h; cases h
theorem any {m : EM α} : Gives m fun _ => True := ⟨fun _ _ _ _ => trivial⟩
theorem bind' {m : EM α} {f : α → EM β} {Q : β → Prop} (hf : ∀ a, Gives (f a) Q) :
    Gives (m >>= f) Q := any.bind fun a _ => hf a
theorem pure {a : α} {P : α → Prop} (h : P a) : Gives (pure a : EM α) P :=
  ⟨fun st b s hb => by cases hb; exact h⟩
theorem errT {m} {P : α → Prop} : Gives (Dyon.errT m : EM α) P := ⟨fun st b s hb => by cases hb⟩
theorem fail {m} {P : α → Prop} : Gives (EM.fail m : EM α) P := ⟨fun st b s hb => by cases hb⟩
theorem panic {m} {P : α → Prop} : Gives (EM.panic m : EM α) P := ⟨fun st b s hb => by cases hb⟩
theorem timeout {P : α → Prop} : Gives (EM.timeout : EM α) P := ⟨fun st b s hb => by cases hb⟩
theorem errExpected {v ty} {P : α → Prop} : Gives (Dyon.errExpected v ty : EM α) P := errT
theorem ite {p : Prop} [Decidable p] {a b : EM α} {P : α → Prop} (ha : Gives a P) (hb : Gives b P) :
    Gives (if p then a else b) P := by split <;> assumption

theorem wantK {ev e side msg} {r : Option Val → EM β} {k : Val → EM β} {P : β → Prop}
    (hr : ∀ x, Gives (r x) P) (hk : ∀ x, Gives (k x) P) : Gives (Dyon.wantK ev e side msg r k) P := by
  unfold Dyon.wantK
  refine bind' fun a => ?_
  split
  · exact hk _
  · exact hr _
  · exact errT
theorem want {ev e side msg} {k : Val → EM R} {P : R → Prop} (hr : ∀ x, P (x, .ret))
    (hk : ∀ x, Gives (k x) P) : Gives (Dyon.want ev e side msg k) P := wantK (fun x => pure (hr x)) hk

theorem wantNum {ev e msg} {r : Option Val → EM β} {k : F64 → EM β} {P : β → Prop}
    (hr : ∀ x, Gives (r x) P) (hk : ∀ x, Gives (k x) P) : Gives (Dyon.wantNum ev e msg r k) P := by
  refine wantK hr fun x => bind' fun a => ?_
  split
  · exact hk _
  · exact errExpected
theorem wantStart {ev e} {r : Option Val → EM β} {k : F64 → EM β} {P : β → Prop}
    (hr : ∀ x, Gives (r x) P) (hk : ∀ x, Gives (k x) P) : Gives (Dyon.wantStart ev e r k) P := by
  unfold Dyon.wantStart
  split
  · exact wantNum hr hk
  · exact hk _

theorem scope1 {m : EM (Bool × α)} {P : α → Prop} (h : Gives m fun r => P r.2) :
    Gives (Dyon.scope1 m) P := by
  refine bind' fun s => h.bind fun r hr => ?_
  split
  · exact bind' fun _ => pure hr
  · exact pure hr
theorem scope2 {m : EM (Bool × α)} {P : α → Prop} (h : Gives m fun r => P r.2) :
    Gives (Dyon.scope2 m) P := by
  refine bind' fun s => h.bind fun r hr => ?_
  split
  · exact bind' fun _ => bind' fun _ => pure hr
  · exact pure hr
theorem scope3 {m : EM (Bool × α)} {P : α → Prop} (h : Gives m fun r => P r.2) :
    Gives (Dyon.scope3 m) P := by
  refine bind' fun s => h.bind fun r hr => ?_
  split
  · exact bind' fun _ => bind' fun _ => bind' fun _ => pure hr
  · exact pure hr

theorem loopN {σ : Type} {n : Nat} {f : σ → EM (σ ⊕ α)} {P : α → Prop}
    (h : ∀ s, Gives (f s) fun r => ∀ a, r = .inr a → P a) (s : σ) : Gives (Dyon.loopN n f s) P := by
  induction n generalizing s with
  | zero => exact timeout
  | succ n ih =>
    unfold Dyon.loopN
    refine (h s).bind fun r hr => ?_
    split
    · exact ih _
    · exact pure (hr _ rfl)

theorem noneR {P : R → Prop} (h : P (none, .cont)) : Gives Dyon.noneR P := pure h

end Gives

section
variable {ev : Evl} {S : Flow → Prop}

theorem gives_seqs {es : List Expr} (h : ∀ e ∈ es, Gives (ev e .right) (Within S)) (x : Option Val) :
    Gives (seqs ev es x) fun r => Within S r.2 := by
  induction es generalizing x with
  | nil => exact .pure (Or.inl rfl)
  | cons e es ih =>
    unfold seqs
    refine (h e (by simp)).bind fun r hr => ?_
    split
    · exact ih (fun e he => h e (by simp [he])) _
    · exact .pure hr

theorem gives_block {es : List Expr} (h : ∀ e ∈ es, Gives (ev e .right) (Within S)) :
    Gives (block ev es) (Within S) := .scope3 (gives_seqs h none)

theorem gives_lazyArgs {allow msg inv args} {k : EM R} {P : R → Prop} (hk : Gives k P)
    (hP : ∀ r, Calm r → P r) : Gives (lazyArgs ev allow msg inv args k) P := by
  induction args generalizing inv with
  | nil => exact hk
  | cons a as ih =>
    unfold lazyArgs
    refine .bind' fun r => ?_
    split
    · refine .bind' fun o => ?_
      split
      · exact .pure (hP _ (.inl rfl))
      · exact .bind' fun _ => ih
    · exact .ite ih .errT
    · exact .pure (hP _ (.inr rfl))
    · exact .errT

theorem gives_vecArgs {side msg limit args} {k : EM R} {P : R → Prop} (hk : Gives k P)
    (hP : ∀ r, Calm r → P r) : Gives (vecArgs ev side msg limit args k) P := by
  have next : ∀ {m : EM R}, Gives m P → Gives (vecArgs.vecNext limit m k) P := by
    intro m hm
    unfold vecArgs.vecNext
    refine .bind' fun s => ?_
    split
    · exact .ite hk hm
    · exact hm
  induction args with
  | nil => exact hk
  | cons a as ih =>
    unfold vecArgs
    refine .bind' fun r => ?_
    split
    · exact .bind' fun _ => next ih
    · exact next ih
    · exact .pure (hP _ (.inr rfl))
    · exact .errT

theorem Gives.errCaller {m} {P : α → Prop} : Gives (Dyon.errCaller m : EM α) P :=
  .bind' fun _ => .errT

theorem gives_callResult {returns name x} : Gives (callResult returns name x) Calm := by
  have some_ : ∀ v : Val, Gives (fun s => Ev.ok (some v, Flow.cont)
        { s with stack := s.stack.dropLast } : EM R) Calm :=
      fun v => ⟨fun st r s h => by cases h; exact .inl rfl⟩
  cases returns with
  | false =>
    cases x with
    | none => exact .noneR (.inl rfl)
    | some v => exact .errCaller
  | true =>
    cases x with
    | none =>
      refine .bind' fun v => ?_
      split
      · exact .errCaller
      · exact .pure (.inl rfl)
    | some v => cases v <;> first | exact .errCaller | exact some_ _

theorem gives_enter {name rname index file returns args currents st lc cu note body} :
    Gives (enter name rname index file returns args currents st lc cu note body) Calm := by
  unfold enter
  refine .bind' fun _ => .bind' fun _ => .bind' fun _ => ?_
  have key : Gives (do
      pushArgLocals st 0 args
      let r ← body
      bodyFlow r.2 do
        popFn name
        callResult returns rname r.1) Calm := by
    refine .bind' fun _ => .bind' fun r => ?_
    unfold bodyFlow
    split <;> first | exact .errT | exact .bind' fun _ => gives_callResult
  split
  · exact .bind' fun _ => key
  · exact key

theorem gives_callE {c n loader f name args} : Gives (callE c n ev loader f name args) Calm := by
  have hP : ∀ r, Calm r → Calm r := fun _ h => h
  unfold callE
  split
  · exact gives_lazyArgs (.bind' fun _ => .noneR (.inl rfl)) hP
  · exact gives_lazyArgs (.bind' fun _ => .pure (.inl rfl)) hP
  · exact gives_lazyArgs (.bind' fun _ => .pure (.inl rfl)) hP
  · unfold callBinop
    split
    · exact .want (fun _ => .inr rfl) fun _ => .want (fun _ => .inr rfl) fun _ => .bind' fun _ =>
        .bind' fun _ => .bind' fun _ => .pure (.inl rfl)
    · exact .panic
  · unfold callUnop
    split
    · exact .want (fun _ => .inr rfl) fun _ => .bind' fun _ => .bind' fun _ => .pure (.inl rfl)
    · exact .panic
  · rename_i f
    unfold callLoaded
    have key : ∀ rel : Nat, Gives (do
      let s ← EM.get
      match callIndex f rel with
      | none => EM.panic "index out of bounds"
      | some idx =>
        match (c.modules s.module)[idx]? with
        | none => EM.panic "index out of bounds"
        | some fn => do
          if fn.returns then pushE .ret else pure ()
          let s ← EM.get
          lazyArgs ev true noValue' fn.lazyInv args <|
            enter name fn.name idx fn.file fn.returns fn.args fn.currents s.stack.length
              s.locals.length s.currents.length (notify c n idx s.stack.length)
              (block ev fn.body)) Calm := by
      intro rel
      refine .bind' fun s => ?_
      split
      · exact .panic
      · split
        · exact .panic
        · split
          · exact .bind' fun _ => .bind' fun _ => gives_lazyArgs gives_enter hP
          · exact .bind' fun _ => gives_lazyArgs gives_enter hP
    split
    · exact key 0
    · exact .bind' fun rel => key rel
  · exact .errT

theorem gives_propagate {m t} : Gives (propagate m t) Calm := by
  unfold propagate
  refine .bind' fun call => .ite .errT (.bind' fun v => ?_)
  split
  · exact .pure (.inr rfl)
  · exact .errT

theorem gives_tryVal {v} : Gives (tryVal v) Calm := by
  unfold tryVal
  split
  · exact .errT
  · exact .pure (.inl rfl)
  · exact gives_propagate

theorem gives_itemWalk {c sl side i ids tids p j} :
    Gives (itemWalk c sl side i ids tids p j) fun r => Calm r.2 := by
  induction ids generalizing i tids p j with
  | nil =>
    unfold itemWalk
    split
    · exact .bind' fun _ => .pure (.inl rfl)
    · exact .pure (.inl rfl)
  | cons x l ih =>
    unfold itemWalk
    refine .bind' fun q => .ite (.bind' fun v => ?_) ih
    split
    · exact .errT
    · exact .bind' fun _ => ih
    · exact gives_propagate.bind fun r hr => .pure hr

theorem gives_pushIds {α} {r : Option Val → EM α} {ids} {k : EM α} {P : α → Prop}
    (hr : ∀ x, Gives (r x) P) (hk : Gives k P) : Gives (pushIds ev r ids k) P := by
  induction ids with
  | nil => exact hk
  | cons x l ih =>
    cases x with
    | expr e => exact .wantK hr fun _ => .bind' fun _ => ih
    | str s => exact ih
    | num x => exact ih

theorem gives_itemE {c it side} : Gives (itemE c ev it side) Calm := by
  unfold itemE
  refine .bind' fun _ => .bind' fun _ => .bind' fun id => .ite (.ite ?_ (.pure (.inl rfl))) ?_
  · exact .bind' fun _ => gives_tryVal
  · refine .bind' fun s => .scope1 (gives_pushIds (fun x => .pure (.inr rfl)) gives_itemWalk)

/-! ### Loops -/

/-- What a round of a loop may do. -/
def RoundOk {σ} (S : Flow → Prop) : Round σ → Prop
  | .go _ => True
  | .stop _ f => f = .cont ∨ S f
  | .exit r => Within S r

theorem passes_onBreak {label l f} (h : S (.brk l)) (hf : onBreak label l = f) :
    f = .cont ∨ (S f ∧ Passes label f) := by
  subst hf
  cases l with
  | none => exact .inl rfl
  | some l =>
    by_cases hl : label = some l
    · left; simp [onBreak, hl]
    · right; simp only [onBreak, hl, if_false]; exact ⟨h, l, .inl rfl, hl⟩

theorem passes_onContinue {label l f} (h : S (.contLoop l)) (hf : onContinue label l = some f) :
    S f ∧ Passes label f := by
  cases l with
  | none => cases hf
  | some l =>
    by_cases hl : label = some l
    · simp [onContinue, hl] at hf
    · simp only [onContinue, hl, if_false, Option.some.injEq] at hf
      subst hf
      exact ⟨h, l, .inr rfl, hl⟩

theorem gives_bodyRound {σ body label} {step : σ → Option Val → EM (σ × Bool)} {a : σ}
    (h : Gives (block ev body) (Within S)) :
    Gives (bodyRound ev body label step a) (RoundOk fun f => S f ∧ Passes label f) := by
  unfold bodyRound
  refine h.bind fun r hr => ?_
  split
  · exact .pure (.inr (.inl rfl))
  · refine .bind' fun r => .pure ?_
    split
    · exact .inl rfl
    · trivial
  · have hS := hr.resolve_left (by simp) |>.resolve_left (by simp)
    exact .pure (passes_onBreak hS rfl)
  · have hS := hr.resolve_left (by simp) |>.resolve_left (by simp)
    refine .pure ?_
    split
    · trivial
    · rename_i hf
      exact .inr (passes_onContinue hS hf)

variable [FloatOps]

theorem gives_countLoop {σ n name start stop} {a : σ} {round : σ → F64 → EM (Round σ)}
    (h : ∀ s i, Gives (round s i) (RoundOk S)) :
    Gives (countLoop n ev name start stop a round) fun r => Within S r.2 := by
  unfold countLoop
  refine .scope2 (.wantStart (fun x => .pure (.inr (.inl rfl))) fun a =>
    .wantNum (fun x => .pure (.inr (.inl rfl))) fun b => .bind' fun s => .bind' fun _ =>
    .bind' fun _ => .loopN (fun s => ?_) _)
  unfold countRound
  refine .bind' fun v => ?_
  split
  · refine .ite ((h _ _).bind fun r hr => ?_) (.pure ?_)
    · split
      · exact .bind' fun _ => .bind' fun _ => .bind' fun _ => .pure (by simp)
      · refine .pure ?_
        rintro _ ⟨⟩
        exact hr.elim .inl fun h => .inr (.inr h)
      · refine .pure ?_
        rintro _ ⟨⟩
        exact hr
    · rintro _ ⟨⟩
      exact .inl rfl
  · exact .errExpected

theorem gives_chanLoop {σ c n name iter} {e a : σ} {round : σ → Nat → EM (Round σ)}
    (h : ∀ s i, Gives (round s i) (RoundOk S)) :
    Gives (chanLoop c n ev name iter e a round) fun r => Within S r.2 := by
  unfold chanLoop
  refine .scope2 (.wantK (fun x => .pure (.inr (.inl rfl))) fun a => .bind' fun d => ?_)
  split
  · refine .bind' fun o => ?_
    split
    · exact .pure (.inl rfl)
    · refine .bind' fun s => .bind' fun _ => .bind' fun _ => .loopN (fun s => ?_) _
      unfold chanRound
      refine (h _ _).bind fun r hr => ?_
      split
      · refine .bind' fun o => ?_
        split
        · exact .bind' fun _ => .bind' fun _ => .bind' fun _ => .pure (by simp)
        · refine .pure ?_
          rintro _ ⟨⟩
          exact .inl rfl
      · refine .pure ?_
        rintro _ ⟨⟩
        exact hr.elim .inl fun h => .inr (.inr h)
      · refine .pure ?_
        rintro _ ⟨⟩
        exact hr
  · exact .errExpected

omit [FloatOps] in
theorem within_accResult {r : Option Val × R} (h : Within S r.2) : Within S (accResult r) := by
  obtain ⟨a, x, f⟩ := r
  cases f <;> exact h

theorem gives_linkItems {label items l} (h : ∀ e ∈ items, Gives (ev e .right) (Within S)) :
    Gives (linkItems ev label items l) (RoundOk fun f => S f ∧ Passes label f) := by
  induction items generalizing l with
  | nil => exact .pure trivial
  | cons e es ih =>
    unfold linkItems
    have ih := fun l => ih (l := l) fun e he => h e (by simp [he])
    refine (h e (by simp)).bind fun r hr => ?_
    split
    · refine .bind' fun d => ?_
      split
      · exact ih _
      · exact .errT
    · exact .pure (.inr (.inl rfl))
    · exact ih _
    · have hS := hr.resolve_left (by simp) |>.resolve_left (by simp)
      exact .pure (passes_onBreak hS rfl)
    · have hS := hr.resolve_left (by simp) |>.resolve_left (by simp)
      refine .pure ?_
      split
      · trivial
      · rename_i hf
        exact .inr (passes_onContinue hS hf)

omit [FloatOps] in
theorem roundOk_linkNested {label} {r : List Link.Scalar × R} (h : Within S r.2) :
    RoundOk (fun f => S f ∧ Passes label f) (linkNested label r) := by
  unfold linkNested
  split
  · trivial
  · have hS := h.resolve_left (by simp) |>.resolve_left (by simp)
    exact passes_onBreak hS rfl
  · have hS := h.resolve_left (by simp) |>.resolve_left (by simp)
    split
    · trivial
    · rename_i hf
      exact .inr (passes_onContinue hS hf)
  · rename_i r h1 h2 h3
    obtain ⟨x, f⟩ := r
    cases f with
    | cont => exact .inl rfl
    | ret => exact .inr (.inl rfl)
    | brk l => exact (h2 _ _ rfl).elim
    | contLoop l => exact (h3 _ _ rfl).elim

/-- The jumps leaving one of the expressions. -/
def ExitsAny (es : List Expr) (f : Flow) : Prop := ∃ e ∈ es, Exits f e

/-- Sub-evaluation lets only the jumps out that the text has. -/
def EvFlows (ev : Evl) : Prop := ∀ e side, Gives (ev e side) (Within fun f => Exits f e)

omit [FloatOps] in
theorem EvFlows.list (h : EvFlows ev) (es : List Expr) :
    ∀ e ∈ es, Gives (ev e .right) (Within (ExitsAny es)) := fun e he =>
  (h e .right).mono fun _ hr => hr.imp id (Or.imp id fun hx => ⟨e, he, hx⟩)

theorem gives_linkForN (h : EvFlows ev) (n : Nat) (l name start stop body label) :
    Gives (linkForN n ev l name start stop body label) fun r =>
      Within (fun f => ExitsAny body f ∧ Passes label f) r.2 := by
  induction n generalizing l name start stop body label with
  | zero => exact .timeout
  | succ n ih =>
    unfold linkForN
    refine gives_countLoop fun l i => ?_
    split
    · rename_i items rest
      refine (gives_linkItems (h.list items)).mono fun r hr => ?_
      cases r with
      | go _ => trivial
      | stop _ f =>
        exact hr.imp id fun ⟨⟨e, he, hx⟩, hp⟩ => ⟨⟨_, by simp, .link he hx⟩, hp⟩
      | exit r =>
        exact hr.imp id (Or.imp id fun ⟨⟨e, he, hx⟩, hp⟩ => ⟨⟨_, by simp, .link he hx⟩, hp⟩)
    · rename_i name' start' stop' body' label' rest
      refine (ih l name' start' stop' body' label').bind fun r hr => .pure ?_
      have := roundOk_linkNested (label := label) (S := ExitsAny (Expr.forN .linkFor name' start'
        stop' body' label' :: rest)) (r := r)
        (hr.imp id (Or.imp id fun ⟨⟨e, he, hx⟩, hp⟩ => ⟨_, List.mem_cons_self, .forN he hx hp⟩))
      exact this
    · exact .panic
    · exact .panic

theorem gives_linkForIn {c} (h : EvFlows ev) (n : Nat) (l name iter body label) :
    Gives (linkForIn c n ev l name iter body label) fun r =>
      Within (fun f => ExitsAny body f ∧ Passes label f) r.2 := by
  induction n generalizing l name iter body label with
  | zero => exact .timeout
  | succ n ih =>
    unfold linkForIn
    refine gives_chanLoop fun l i => ?_
    split
    · rename_i items rest
      refine (gives_linkItems (h.list items)).mono fun r hr => ?_
      cases r with
      | go _ => trivial
      | stop _ f =>
        exact hr.imp id fun ⟨⟨e, he, hx⟩, hp⟩ => ⟨⟨_, by simp, .link he hx⟩, hp⟩
      | exit r =>
        exact hr.imp id (Or.imp id fun ⟨⟨e, he, hx⟩, hp⟩ => ⟨⟨_, by simp, .link he hx⟩, hp⟩)
    · rename_i name' iter' body' label' rest
      refine (ih l name' iter' body' label').bind fun r hr => .pure ?_
      have := roundOk_linkNested (label := label) (S := ExitsAny (Expr.forIn .link name' iter'
        body' label' :: rest)) (r := r)
        (hr.imp id (Or.imp id fun ⟨⟨e, he, hx⟩, hp⟩ => ⟨_, List.mem_cons_self, .forIn he hx hp⟩))
      exact this
    · exact .panic
    · exact .panic

omit [FloatOps] in
theorem within_linkResult {r : List Link.Scalar × R} (h : Within S r.2) : Within S (linkResult r) := by
  unfold linkResult
  split
  · exact .inl rfl
  · exact h

omit [FloatOps] in
theorem gives_forE {n i cnd stp b label} (h : Gives (block ev b) (Within S)) :
    Gives (forE n ev i cnd stp b label) (Within fun f => S f ∧ Passes label f) := by
  unfold forE
  have hstep : ∀ {k : EM (Unit ⊕ (Bool × R))} {P : Unit ⊕ (Bool × R) → Prop}, Gives k P →
      (∀ x, P (.inr (false, (x, .ret)))) → Gives (forStep ev stp k) P := by
    intro k P hk hP
    unfold forStep
    refine .bind' fun r => ?_
    split
    · exact hk
    · exact .pure (hP _)
    · exact .errT
  refine .scope2 (.bind' fun r => ?_)
  split
  · refine .bind' fun s => .loopN (fun _ => ?_) _
    refine .wantK (fun x => .pure ?_) fun v => ?_
    · rintro _ ⟨⟩; exact .inr (.inl rfl)
    · split
      · unfold forBody
        refine h.bind fun r hr => ?_
        split
        · refine .pure ?_
          rintro _ ⟨⟩; exact .inr (.inl rfl)
        · refine hstep (.bind' fun _ => .bind' fun _ => .pure (by simp)) fun x => ?_
          rintro _ ⟨⟩; exact .inr (.inl rfl)
        · have hS := hr.resolve_left (by simp) |>.resolve_left (by simp)
          refine .pure ?_
          rintro _ ⟨⟩
          exact (passes_onBreak hS rfl).imp id .inr
        · have hS := hr.resolve_left (by simp) |>.resolve_left (by simp)
          split
          · refine hstep (.pure (by simp)) fun x => ?_
            rintro _ ⟨⟩; exact .inr (.inl rfl)
          · rename_i hf
            refine .pure ?_
            rintro _ ⟨⟩
            exact .inr (.inr (passes_onContinue hS hf))
      · refine .pure ?_
        rintro _ ⟨⟩; exact .inl rfl
      · exact .errT
  · exact .pure (.inr (.inl rfl))
  · exact .errT

omit [FloatOps] in
theorem gives_linkLit {items l} (h : ∀ e ∈ items, Gives (ev e .right) (Within S)) :
    Gives (linkLit ev items l) fun r => Within S r.2 := by
  induction items generalizing l with
  | nil => exact .pure (.inl rfl)
  | cons e es ih =>
    unfold linkLit
    have ih := fun l => ih (l := l) fun e he => h e (by simp [he])
    refine (h e (by simp)).bind fun r hr => ?_
    split
    · refine .bind' fun d => ?_
      split
      · exact ih _
      · exact .errT
    · exact ih _
    · exact .pure hr

variable [VecMath]

theorem gives_assignE {op l r} : Gives (assignE ev op l r) Calm := by
  have store : ∀ x v, Gives (storeAt x v) Calm := by
    intro x v
    unfold storeAt
    split
    · exact .bind' fun _ => .noneR (.inl rfl)
    · exact .panic
  unfold assignE
  refine .ite ?_ ?_
  · unfold declareE
    split
    · refine .want (fun _ => .inr rfl) fun x => .bind' fun v => .ite ?_ ?_
      · unfold declare
        refine .bind' fun s => .bind' fun _ => ?_
        have key : Gives (do pushE v; noneR) Calm := .bind' fun _ => .noneR (.inl rfl)
        split
        · exact .bind' fun _ => key
        · exact key
      · exact .want (fun _ => .inr rfl) fun y => store _ _
    · exact .errT
  · refine .want (fun _ => .inr rfl) fun b => .want (fun _ => .inr rfl) fun a => .bind' fun p => ?_
    unfold assignTo
    refine .bind' fun d => .bind' fun m => .ite .panic (.ite .panic ?_)
    split
    · exact .bind' fun _ => .noneR (.inl rfl)
    · exact .errT
    · exact .panic

omit [FloatOps] [VecMath] in
theorem gives_goArgs {n args acc} {k : List Val → EM R} (hk : ∀ vs, Gives (k vs) Calm) :
    Gives (goArgs n ev args acc k) Calm := by
  induction args generalizing acc with
  | nil => exact hk _
  | cons a as ih => exact .want (fun _ => .inr rfl) fun _ => .bind' fun _ => ih

omit [FloatOps] [VecMath] in
theorem gives_objectE {kvs acc} : Gives (objectE ev kvs acc) Calm := by
  induction kvs generalizing acc with
  | nil => exact .pure (.inl rfl)
  | cons kv rest ih =>
    obtain ⟨k, e⟩ := kv
    exact .want (fun _ => .inr rfl) fun x => .ite .errT ih

omit [FloatOps] [VecMath] in
theorem gives_arrayE {es acc} : Gives (arrayE ev es acc) Calm := by
  induction es generalizing acc with
  | nil => exact .pure (.inl rfl)
  | cons e rest ih => exact .want (fun _ => .inr rfl) fun x => ih

omit [FloatOps] [VecMath] in
theorem gives_elifsE {els elifs} (h : ∀ d b, (d, b) ∈ elifs → Gives (block ev b) (Within S))
    (h' : ∀ b, els = some b → Gives (block ev b) (Within S)) :
    Gives (elifsE ev els elifs) (Within S) := by
  induction elifs with
  | nil =>
    unfold elifsE
    split
    · exact h' _ rfl
    · exact .noneR (.inl rfl)
  | cons x rest ih =>
    obtain ⟨d, b⟩ := x
    unfold elifsE
    refine .want (fun _ => .inr (.inl rfl)) fun x => .bind' fun v => ?_
    split
    · exact ih fun d b hb => h d b (by simp [hb])
    · exact h d b (by simp)
    · exact .errT

/-- One level of evaluation. -/
theorem gives_evalStep {c n} (h : EvFlows ev) (e : Expr) (side : Side) :
    Gives (evalStep c n ev e side) (Within fun f => Exits f e) := by
  have calm : ∀ {m : EM R}, Gives m Calm → Gives m (Within fun f => Exits f e) :=
    fun hm => hm.mono fun _ => Calm.within
  cases e with
  | link items =>
    refine .ite (.pure (.inl rfl)) (.scope3 ((gives_linkLit (h.list items)).mono fun r hr => ?_))
    exact hr.imp id (Or.imp id fun ⟨e, he, hx⟩ => .link he hx)
  | object kvs => exact calm gives_objectE
  | array items => exact calm gives_arrayE
  | arrayFill f m =>
    refine .want (fun _ => .inr (.inl rfl)) fun x => .want (fun _ => .inr (.inl rfl)) fun k =>
      .bind' fun _ => .bind' fun d => ?_
    split
    · exact .pure (.inl rfl)
    · exact .errT
  | ret e => exact .want (fun _ => .inr (.inl rfl)) fun x => .pure (.inr (.inl rfl))
  | retVoid => exact .pure (.inr (.inl rfl))
  | brk l => exact .pure (.inr (.inr (.brk rfl)))
  | cont l => exact .pure (.inr (.inr (.cont rfl)))
  | block es =>
    exact (gives_block (h.list es)).mono fun r hr =>
      hr.imp id (Or.imp id fun ⟨e, he, hx⟩ => .block he hx)
  | go name args =>
    refine calm (.bind' fun _ => .bind' fun _ => gives_goArgs fun vs => .bind' fun _ =>
      .bind' fun _ => .bind' fun _ => .pure (.inl rfl))
  | call f name args => exact calm gives_callE
  | item it => exact calm gives_itemE
  | assign op l r => exact calm gives_assignE
  | vec4 args =>
    refine .bind' fun s => gives_vecArgs ?_ fun _ => Calm.within
    exact .bind' fun _ => .bind' fun _ => .bind' fun _ => .bind' fun _ => .pure (.inl rfl)
  | mat4 args =>
    refine gives_vecArgs ?_ fun _ => Calm.within
    exact .bind' fun _ => .bind' fun _ => .bind' fun _ => .bind' fun _ => .pure (.inl rfl)
  | for_ i cnd s b l =>
    exact (gives_forE (gives_block (h.list b))).mono fun r hr =>
      hr.imp id (Or.imp id fun ⟨⟨e, he, hx⟩, hp⟩ => .for_ he hx hp)
  | forN k name start stop body label =>
    have key : Gives (forNLoop n ev k name start stop body label)
        (Within fun f => Exits f (.forN k name start stop body label)) := by
      refine (gives_countLoop fun s i => gives_bodyRound (gives_block (h.list body))).bind
        fun r hr => .pure (within_accResult ?_)
      exact hr.imp id (Or.imp id fun ⟨⟨e, he, hx⟩, hp⟩ => .forN he hx hp)
    cases k with
    | linkFor =>
      refine (gives_linkForN h n [] name start stop body label).bind fun r hr =>
        .pure (within_linkResult ?_)
      exact hr.imp id (Or.imp id fun ⟨⟨e, he, hx⟩, hp⟩ => .forN he hx hp)
    | _ => exact key
  | forIn k name iter body label =>
    have key : Gives (forInLoop c n ev k name iter body label)
        (Within fun f => Exits f (.forIn k name iter body label)) := by
      refine (gives_chanLoop fun s i => gives_bodyRound (gives_block (h.list body))).bind
        fun r hr => .pure (within_accResult ?_)
      exact hr.imp id (Or.imp id fun ⟨⟨e, he, hx⟩, hp⟩ => .forIn he hx hp)
    cases k with
    | link =>
      refine (gives_linkForIn h n [] name iter body label).bind fun r hr =>
        .pure (within_linkResult ?_)
      exact hr.imp id (Or.imp id fun ⟨⟨e, he, hx⟩, hp⟩ => .forIn he hx hp)
    | _ => exact key
  | ite cnd t elifs els =>
    refine .want (fun _ => .inr (.inl rfl)) fun x => .bind' fun v => ?_
    split
    · exact (gives_block (h.list t)).mono fun r hr =>
        hr.imp id (Or.imp id fun ⟨e, he, hx⟩ => .ifThen he hx)
    · refine gives_elifsE (fun d b hb => ?_) fun b hb => ?_
      · exact (gives_block (h.list b)).mono fun r hr =>
          hr.imp id (Or.imp id fun ⟨e, he, hx⟩ => .elseIf hb he hx)
      · subst hb
        exact (gives_block (h.list b)).mono fun r hr =>
          hr.imp id (Or.imp id fun ⟨e, he, hx⟩ => .else_ he hx)
    · exact .errT
  | const v => exact .pure (.inl rfl)
  | try_ e =>
    exact .want (fun _ => .inr (.inl rfl)) fun x => .bind' fun d => calm gives_tryVal
  | swizzle sel e =>
    refine .wantK (fun x => .pure (.inr (.inl rfl))) fun x => .bind' fun d => ?_
    split
    · exact .bind' fun _ => .noneR (.inl rfl)
    · exact .errExpected
  | closure args cur r f e =>
    refine .bind' fun rel => .bind' fun g => ?_
    split
    · exact .pure (.inr (.inl rfl))
    · exact .bind' fun s => .bind' fun _ => .pure (.inl rfl)
  | callClosure it args =>
    refine .bind' fun r => ?_
    split
    · refine .bind' fun f => .ite .errT ?_
      have key : Gives (do
          let s ← EM.get
          lazyArgs ev true noValue' [] args <|
            enter it.name it.name f.relative f.file f.returns f.args f.currents s.stack.length
              s.locals.length s.currents.length (pure ()) (inModule f.module (ev f.body .right)))
          Calm := .bind' fun _ => gives_lazyArgs gives_enter fun _ h => h
      split
      · exact calm (.bind' fun _ => key)
      · exact calm key
    · exact .pure (.inr (.inl rfl))
    · exact .errT
  | grab l e => exact .errT
  | tryExpr e =>
    constructor
    intro st r s hr
    simp only [evalStep, tryExprE] at hr
    cases hx : ev e .right st with
    | ok r' s' =>
      have := (h e .right).run _ _ _ hx
      rw [hx] at hr
      obtain ⟨x, f⟩ := r'
      cases f with
      | cont => cases x <;> cases hr; exact .inl rfl
      | ret => cases x <;> (cases hr; exact .inr (.inl rfl))
      | brk l => cases x <;> (cases hr; exact this.imp id (Or.imp id .tryExpr))
      | contLoop l => cases x <;> (cases hr; exact this.imp id (Or.imp id .tryExpr))
    | err m s' => rw [hx] at hr; cases hr; exact .inl rfl
    | panic w => rw [hx] at hr; cases hr
    | timeout => rw [hx] at hr; cases hr
  | in_ f =>
    refine calm ?_
    show Gives (inE c f) Calm
    unfold inE
    split
    · refine .bind' fun _ => .bind' fun s => ?_
      split
      · exact .panic
      · split
        · exact .panic
        · exact .bind' fun _ => .pure (.inl rfl)
    · exact .errT

theorem evFlows_eval (c : ECfg) (n : Nat) : EvFlows (eval c n) := by
  induction n with
  | zero => exact fun _ _ => .timeout
  | succ n ih => exact fun e side => gives_evalStep ih e side

/-! ## Properties -/

/-- **C20.** A `break` that leaves an expression is one written in it, outside of every
loop it is meant for. -/
theorem C20_break {c n e side st x l s} (h : eval c n e side st = .ok (x, .brk l) s) :
    Exits (.brk l) e :=
  ((evFlows_eval c n e side).run _ _ _ h).resolve_left (by simp) |>.resolve_left (by simp)

/-- **C20.** The same for `continue`. -/
theorem C20_continue {c n e side st x l s} (h : eval c n e side st = .ok (x, .contLoop l) s) :
    Exits (.contLoop l) e :=
  ((evFlows_eval c n e side).run _ _ _ h).resolve_left (by simp) |>.resolve_left (by simp)

/-- **C20.** A loop never lets a `break` or `continue` out that has no label or its own. -/
theorem C20_loop_catches {c n e side st x s f label l}
    (he : (∃ i cnd stp b, e = .for_ i cnd stp b label) ∨
      (∃ k name start stop b, e = .forN k name start stop b label) ∨
      (∃ k name iter b, e = .forIn k name iter b label))
    (h : eval c n e side st = .ok (x, f) s) (hl : Targets label l) : f ≠ .brk l ∧ f ≠ .contLoop l := by
  have key : ∀ g, Exits g e → Passes label g := by
    intro g hg
    rcases he with ⟨_, _, _, _, rfl⟩ | ⟨_, _, _, _, _, rfl⟩ | ⟨_, _, _, _, rfl⟩
    · cases hg with | for_ _ _ hp => exact hp
    · cases hg with | forN _ _ hp => exact hp
    · cases hg with | forIn _ _ hp => exact hp
  constructor
  · rintro rfl
    obtain ⟨l', h1, h2⟩ := key _ (C20_break h)
    rcases h1 with h1 | h1
    · injection h1 with h1
      subst h1
      rcases hl with hl | hl
      · cases hl
      · exact h2 hl.symm
    · cases h1
  · rintro rfl
    obtain ⟨l', h1, h2⟩ := key _ (C20_continue h)
    rcases h1 with h1 | h1
    · cases h1
    · injection h1 with h1
      subst h1
      rcases hl with hl | hl
      · cases hl
      · exact h2 hl.symm

/-- **C20.** No jump leaves a function or closure call. -/
theorem C20_call {c n e side st x s f} (he : (∃ g name args, e = .call g name args) ∨
    (∃ it args, e = .callClosure it args)) (h : eval c n e side st = .ok (x, f) s) :
    f = .cont ∨ f = .ret := by
  rcases (evFlows_eval c n e side).run _ _ _ h with h | h | h
  · exact .inl h
  · exact .inr h
  · rcases he with ⟨_, _, _, rfl⟩ | ⟨_, _, rfl⟩ <;> cases h

/-- `break 'outer` leaves the inner loop of `Demo.prog` and ends the outer one. -/
example : (∃ s, eval (Demo.cfg []) 9 (.forN .forN "j" none (Demo.num 2) [.brk (some "outer")] none)
      .right Demo.inside = .ok (none, .brk (some "outer")) s) ∧
    Targets (some "outer") (some "outer") ∧
    ∃ s, eval (Demo.cfg []) 9 (.forN .forN "i" none (Demo.num 2)
      [.forN .forN "j" none (Demo.num 2) [.brk (some "outer")] none] (some "outer"))
      .right Demo.inside = .ok (none, .cont) s :=
  ⟨⟨_, rfl⟩, .inr rfl, ⟨_, rfl⟩⟩

end

end Dyon
