import Verif.Eval.Eval
import Verif.Builtin.CloneProps

/-!
# More fuel never changes a result

Lemmas: evaluation with more fuel gives the same outcome unless the smaller fuel was not
enough.
-/

namespace Dyon

/-- The order of outcomes: a timeout is below everything. -/
def Ev.le {α} (a b : Ev α) : Prop := a = .timeout ∨ a = b

/-- Point-wise order. -/
def EM.le {α} (a b : EM α) : Prop := ∀ st, Ev.le (a st) (b st)

/-- Order of evaluators. -/
def Evl.le (a b : Evl) : Prop := ∀ e s, EM.le (a e s) (b e s)

theorem Ev.le_rfl {α} (a : Ev α) : Ev.le a a := .inr rfl
theorem EM.le_rfl {α} (a : EM α) : EM.le a a := fun _ => .inr rfl
theorem EM.timeout_le {α} (a : EM α) : EM.le EM.timeout a := fun _ => .inl rfl

theorem EM.bind_le {α β} {m m' : EM α} {f f' : α → EM β} (hm : EM.le m m')
    (hf : ∀ a, EM.le (f a) (f' a)) : EM.le (m >>= f) (m' >>= f') := by
  intro st
  show Ev.le (EM.bind m f st) (EM.bind m' f' st)
  simp only [EM.bind]
  rcases hm st with h | h
  · left; rw [h]
  · rw [h]; split
    · exact hf _ _
    · right; rfl
    · right; rfl
    · left; rfl

theorem EM.ite_le {α} {p : Prop} [Decidable p] {a a' b b' : EM α} (h : EM.le a a')
    (h' : EM.le b b') : EM.le (if p then a else b) (if p then a' else b') := by
  split <;> assumption

theorem loopN_le {σ α} {n m : Nat} (h : n ≤ m) {f f' : σ → EM (σ ⊕ α)}
    (hf : ∀ s, EM.le (f s) (f' s)) (s : σ) : EM.le (loopN n f s) (loopN m f' s) := by
  induction n generalizing m s with
  | zero => exact EM.timeout_le _
  | succ n ih =>
    obtain ⟨m, rfl⟩ : ∃ k, m = k + 1 := ⟨m - 1, by omega⟩
    refine EM.bind_le (hf s) ?_
    rintro (s' | a)
    · exact ih (by omega) s'
    · exact EM.le_rfl _

/-- Order of deep clones. -/
def DC.le {α} (a b : DC α) : Prop := a = .running ∨ a = b

mutual
theorem deepCloneWith_le {r r' : Nat → DC Val} (h : ∀ i, DC.le (r i) (r' i)) :
    (v : Val) → DC.le (deepCloneWith r v) (deepCloneWith r' v)
  | .object kvs => by
    simp only [deepCloneWith]
    rcases deepCloneObj_le h kvs with h | h
    · left; rw [h]
    · rw [h]; right; rfl
  | .array xs => by
    simp only [deepCloneWith]
    rcases deepCloneArr_le h xs with h | h
    · left; rw [h]
    · rw [h]; right; rfl
  | .ref i => by simpa only [deepCloneWith] using h i
  | .unsafeRef _ => by right; simp only [deepCloneWith]
  | .ret => by right; simp only [deepCloneWith]
  | .bool .. => by right; simp only [deepCloneWith]
  | .f64 .. => by right; simp only [deepCloneWith]
  | .vec4 _ => by right; simp only [deepCloneWith]
  | .mat4 _ => by right; simp only [deepCloneWith]
  | .str _ => by right; simp only [deepCloneWith]
  | .link _ => by right; simp only [deepCloneWith]
  | .rustObject _ => by right; simp only [deepCloneWith]
  | .option _ => by right; simp only [deepCloneWith]
  | .resOk _ => by right; simp only [deepCloneWith]
  | .resErr .. => by right; simp only [deepCloneWith]
  | .thread _ => by right; simp only [deepCloneWith]
  | .closure _ => by right; simp only [deepCloneWith]
  | .inTy _ => by right; simp only [deepCloneWith]
theorem deepCloneArr_le {r r' : Nat → DC Val} (h : ∀ i, DC.le (r i) (r' i)) :
    (xs : List Val) → DC.le (deepCloneArr r xs) (deepCloneArr r' xs)
  | [] => by right; simp only [deepCloneArr]
  | x :: xs => by
    simp only [deepCloneArr]
    rcases deepCloneWith_le h x with hx | hx
    · left; rw [hx]
    · rw [hx]
      rcases deepCloneArr_le h xs with hy | hy
      · rw [hy]; cases deepCloneWith r' x <;> simp [DC.le]
      · rw [hy]; right; rfl
theorem deepCloneObj_le {r r' : Nat → DC Val} (h : ∀ i, DC.le (r i) (r' i)) :
    (xs : List (String × Val)) → DC.le (deepCloneObj r xs) (deepCloneObj r' xs)
  | [] => by right; simp only [deepCloneObj]
  | (k, x) :: xs => by
    simp only [deepCloneObj]
    rcases deepCloneWith_le h x with hx | hx
    · left; rw [hx]
    · rw [hx]
      rcases deepCloneObj_le h xs with hy | hy
      · rw [hy]; cases deepCloneWith r' x <;> simp [DC.le]
      · rw [hy]; right; rfl
end

theorem deepClone_le (st : Stack) {n m : Nat} (h : n ≤ m) (v : Val) :
    DC.le (deepClone st n v) (deepClone st m v) := by
  induction n generalizing m v with
  | zero =>
    rw [deepClone_eq, deepClone_eq]
    exact deepCloneWith_le (fun i => .inl (by simp [resolver])) v
  | succ n ih =>
    obtain ⟨m, rfl⟩ : ∃ k, m = k + 1 := ⟨m - 1, by omega⟩
    rw [deepClone_eq, deepClone_eq]
    refine deepCloneWith_le (fun i => ?_) v
    simp only [resolver]
    cases st[i]? with
    | none => right; rfl
    | some w => exact ih (by omega) w

theorem cloneE_le {n m : Nat} (h : n ≤ m) (v : Val) : EM.le (cloneE n v) (cloneE m v) := by
  intro st
  simp only [cloneE]
  rcases deepClone_le st.stack h v with h | h
  · left; rw [h]
  · rw [h]; right; rfl

theorem EM.jp_le' {α β} {p : Prop} [Decidable p] (x y : EM β) {j j' : β → EM α}
    (h : ∀ u, EM.le (j u) (j' u)) :
    EM.le (if p then x >>= j else y >>= j) (if p then x >>= j' else y >>= j') := by
  split <;> exact EM.bind_le (EM.le_rfl _) h

theorem EM.jp_le {α} {p : Prop} [Decidable p] (x y : EM Unit) {j j' : Unit → EM α}
    (h : ∀ u, EM.le (j u) (j' u)) :
    EM.le (if p then x >>= j else y >>= j) (if p then x >>= j' else y >>= j') := by
  split <;> exact EM.bind_le (EM.le_rfl _) h

variable {ev ev' : Evl} (hev : Evl.le ev ev') {n m : Nat} (hn : n ≤ m)

section
include hev

theorem wantK_le {β} (e side msg) {r r' : Option Val → EM β} {k k' : Val → EM β}
    (hr : ∀ x, EM.le (r x) (r' x)) (hk : ∀ x, EM.le (k x) (k' x)) :
    EM.le (wantK ev e side msg r k) (wantK ev' e side msg r' k') := by
  refine EM.bind_le (hev _ _) ?_
  rintro ⟨_ | x, _ | _ | _ | _⟩ <;> first | exact EM.le_rfl _ | apply hr | apply hk

theorem want_le (e side msg) {k k' : Val → EM R} (hk : ∀ x, EM.le (k x) (k' x)) :
    EM.le (want ev e side msg k) (want ev' e side msg k') :=
  wantK_le hev _ _ _ (fun _ => EM.le_rfl _) hk

end

theorem scope1_le {α} {a b : EM (Bool × α)} (h : EM.le a b) : EM.le (scope1 a) (scope1 b) :=
  EM.bind_le (EM.le_rfl _) fun _ => EM.bind_le h fun _ => EM.le_rfl _
theorem scope2_le {α} {a b : EM (Bool × α)} (h : EM.le a b) : EM.le (scope2 a) (scope2 b) :=
  EM.bind_le (EM.le_rfl _) fun _ => EM.bind_le h fun _ => EM.le_rfl _
theorem scope3_le {α} {a b : EM (Bool × α)} (h : EM.le a b) : EM.le (scope3 a) (scope3 b) :=
  EM.bind_le (EM.le_rfl _) fun _ => EM.bind_le h fun _ => EM.le_rfl _

section
include hev

theorem seqs_le (es : List Expr) (x) : EM.le (seqs ev es x) (seqs ev' es x) := by
  induction es generalizing x with
  | nil => exact EM.le_rfl _
  | cons e es ih =>
    refine EM.bind_le (hev _ _) ?_
    rintro ⟨_ | x, _ | _ | _ | _⟩ <;> first | exact EM.le_rfl _ | apply ih

theorem block_le (es : List Expr) : EM.le (block ev es) (block ev' es) :=
  scope3_le (seqs_le hev _ _)

theorem lazyArgs_le (b msg) (inv args) {k k' : EM R} (hk : EM.le k k') :
    EM.le (lazyArgs ev b msg inv args k) (lazyArgs ev' b msg inv args k') := by
  induction args generalizing inv with
  | nil => exact hk
  | cons a as ih =>
    refine EM.bind_le (hev _ _) ?_
    rintro ⟨_ | x, _ | _ | _ | _⟩ <;> try exact EM.le_rfl _
    · exact EM.ite_le (ih _) (EM.le_rfl _)
    · refine EM.bind_le (EM.le_rfl _) ?_
      rintro (_ | y)
      · exact EM.bind_le (EM.le_rfl _) fun _ => ih _
      · exact EM.le_rfl _

theorem vecNext_le (limit) {a a' k k' : EM R} (ha : EM.le a a') (hk : EM.le k k') :
    EM.le (vecArgs.vecNext limit a k) (vecArgs.vecNext limit a' k') := by
  refine EM.bind_le (EM.le_rfl _) fun s => ?_
  cases limit with
  | none => exact ha
  | some st => exact EM.ite_le hk ha

theorem vecArgs_le (side msg limit) (args) {k k' : EM R} (hk : EM.le k k') :
    EM.le (vecArgs ev side msg limit args k) (vecArgs ev' side msg limit args k') := by
  induction args with
  | nil => exact hk
  | cons a as ih =>
    refine EM.bind_le (hev _ _) ?_
    rintro ⟨_ | x, _ | _ | _ | _⟩ <;> try exact EM.le_rfl _
    · exact vecNext_le hev _ ih hk
    · exact EM.bind_le (EM.le_rfl _) fun _ => vecNext_le hev _ ih hk

theorem wantNum_le {β} (e msg) {r r' : Option Val → EM β} {k k' : F64 → EM β}
    (hr : ∀ x, EM.le (r x) (r' x)) (hk : ∀ x, EM.le (k x) (k' x)) :
    EM.le (wantNum ev e msg r k) (wantNum ev' e msg r' k') := by
  refine wantK_le hev _ _ _ hr fun x => EM.bind_le (EM.le_rfl _) fun d => ?_
  cases d <;> first | exact EM.le_rfl _ | apply hk

theorem wantStart_le {β} (e) {r r' : Option Val → EM β} {k k' : F64 → EM β}
    (hr : ∀ x, EM.le (r x) (r' x)) (hk : ∀ x, EM.le (k x) (k' x)) :
    EM.le (wantStart ev e r k) (wantStart ev' e r' k') := by
  cases e with
  | none => exact hk _
  | some e => exact wantNum_le hev _ _ hr hk

end

section
variable [FloatOps]

theorem countRound_le {σ} (st lc stop) {f f' : σ → F64 → EM (Round σ)}
    (hf : ∀ s x, EM.le (f s x) (f' s x)) (s : σ) :
    EM.le (countRound st lc stop f s) (countRound st lc stop f' s) := by
  refine EM.bind_le (EM.le_rfl _) fun v => ?_
  cases v <;> try exact EM.le_rfl _
  refine EM.ite_le (EM.bind_le (hf _ _) fun r => EM.le_rfl _) (EM.le_rfl _)

include hev hn in
theorem countLoop_le {σ} (name start stop) (s₀ : σ) {f f' : σ → F64 → EM (Round σ)}
    (hf : ∀ s x, EM.le (f s x) (f' s x)) :
    EM.le (countLoop n ev name start stop s₀ f) (countLoop m ev' name start stop s₀ f') := by
  refine scope2_le (wantStart_le hev _ (fun _ => EM.le_rfl _) fun a =>
    wantNum_le hev _ _ (fun _ => EM.le_rfl _) fun b =>
    EM.bind_le (EM.le_rfl _) fun s => EM.bind_le (EM.le_rfl _) fun _ =>
    EM.bind_le (EM.le_rfl _) fun _ => loopN_le hn (fun s => countRound_le _ _ _ hf s) _)

theorem chanRound_le {σ} (c ch st lc) {f f' : σ → Nat → EM (Round σ)}
    (hf : ∀ s x, EM.le (f s x) (f' s x)) (s : σ) :
    EM.le (chanRound c ch st lc f s) (chanRound c ch st lc f' s) :=
  EM.bind_le (hf _ _) fun _ => EM.le_rfl _

include hev hn in
theorem chanLoop_le {σ} (c name iter) (e₀ s₀ : σ) {f f' : σ → Nat → EM (Round σ)}
    (hf : ∀ s x, EM.le (f s x) (f' s x)) :
    EM.le (chanLoop c n ev name iter e₀ s₀ f) (chanLoop c m ev' name iter e₀ s₀ f') := by
  refine scope2_le (wantK_le hev _ _ _ (fun _ => EM.le_rfl _) fun x =>
    EM.bind_le (EM.le_rfl _) fun d => ?_)
  cases d <;> try exact EM.le_rfl _
  refine EM.bind_le (EM.le_rfl _) ?_
  rintro (_ | v)
  · exact EM.le_rfl _
  · exact EM.bind_le (EM.le_rfl _) fun s => EM.bind_le (EM.le_rfl _) fun _ =>
      EM.bind_le (EM.le_rfl _) fun _ => loopN_le hn (fun s => chanRound_le _ _ _ _ hf s) _

include hev in
theorem bodyRound_le {σ} (body label) (step : σ → Option Val → EM (σ × Bool)) (s : σ) :
    EM.le (bodyRound ev body label step s) (bodyRound ev' body label step s) :=
  EM.bind_le (block_le hev _) fun _ => EM.le_rfl _

include hev in
theorem linkItems_le (label items l) :
    EM.le (linkItems ev label items l) (linkItems ev' label items l) := by
  induction items generalizing l with
  | nil => exact EM.le_rfl _
  | cons e es ih =>
    refine EM.bind_le (hev _ _) ?_
    rintro ⟨_ | x, _ | _ | _ | _⟩ <;> try exact EM.le_rfl _
    · exact ih _
    · refine EM.bind_le (EM.le_rfl _) fun d => ?_
      cases linkPush l d with
      | ok l' => exact ih _
      | error m => exact EM.le_rfl _

include hev hn in
theorem linkForN_le (l name start stop body label) :
    EM.le (linkForN n ev l name start stop body label)
      (linkForN m ev' l name start stop body label) := by
  induction n generalizing m l name start stop body label with
  | zero => exact EM.timeout_le _
  | succ n ih =>
    obtain ⟨m, rfl⟩ : ∃ k, m = k + 1 := ⟨m - 1, by omega⟩
    rw [linkForN, linkForN]
    refine countLoop_le hev (by omega) _ _ _ _ fun l _ => ?_
    split
    · exact linkItems_le hev _ _ _
    · exact EM.bind_le (ih (by omega) _ _ _ _ _ _) fun _ => EM.le_rfl _
    · exact EM.le_rfl _
    · exact EM.le_rfl _

include hev hn in
theorem linkForIn_le (c l name iter body label) :
    EM.le (linkForIn c n ev l name iter body label)
      (linkForIn c m ev' l name iter body label) := by
  induction n generalizing m l name iter body label with
  | zero => exact EM.timeout_le _
  | succ n ih =>
    obtain ⟨m, rfl⟩ : ∃ k, m = k + 1 := ⟨m - 1, by omega⟩
    rw [linkForIn, linkForIn]
    refine chanLoop_le hev (by omega) _ _ _ _ _ fun l _ => ?_
    split
    · exact linkItems_le hev _ _ _
    · exact EM.bind_le (ih (by omega) _ _ _ _ _) fun _ => EM.le_rfl _
    · exact EM.le_rfl _
    · exact EM.le_rfl _

end

theorem gbind_le {α β} {a a' : GM α} {f f' : α → GM β} (ha : EM.le a a')
    (hf : ∀ x, EM.le (f x) (f' x)) : EM.le (gbind a f) (gbind a' f') := by
  refine EM.bind_le ha ?_
  rintro (x | x)
  · exact EM.le_rfl _
  · exact hf _

/-- Cuts a monotonicity goal about grab into pieces. -/
macro "grab_mono" : tactic => `(tactic| repeat' first
  | assumption
  | exact EM.le_rfl _
  | (refine gbind_le ?_ fun _ => ?_))

mutual
theorem grabExpr_le {ev ev' : Evl} (hev : Evl.le ev ev') {n m : Nat} (hn : n ≤ m) (side level) :
    (e : Expr) → EM.le (grabExpr n ev side level e) (grabExpr m ev' side level e)
  | .grab l e => by
    simp only [grabExpr]
    refine EM.ite_le ?_ (EM.le_rfl _)
    exact wantK_le hev _ _ _ (fun _ => EM.le_rfl _) fun v =>
      EM.bind_le (cloneE_le hn v) fun _ => EM.le_rfl _
  | .ret e => by
    have := grabExpr_le hev hn side level e
    simp only [grabExpr]; grab_mono
  | .try_ e => by
    have := grabExpr_le hev hn side level e
    simp only [grabExpr]; grab_mono
  | .retVoid => by simp only [grabExpr]; grab_mono
  | .brk l => by simp only [grabExpr]; grab_mono
  | .cont l => by simp only [grabExpr]; grab_mono
  | .const v => by simp only [grabExpr]; grab_mono
  | .closure args cur r f e => by
    have := grabExpr_le hev hn side (level + 1) e
    simp only [grabExpr]; grab_mono
  | .item it => by
    have := grabItem_le hev hn side level it
    simp only [grabExpr]; grab_mono
  | .block es => by
    have := grabList_le hev hn side level es
    simp only [grabExpr]; grab_mono
  | .assign op l r => by
    have := grabExpr_le hev hn side level l
    have := grabExpr_le hev hn side level r
    simp only [grabExpr]; grab_mono
  | .ite c t elifs els => by
    have := grabExpr_le hev hn side level c
    have := grabList_le hev hn side level t
    have := grabConds_le hev hn side level elifs
    have := grabBlocks_le hev hn side level elifs
    have := grabOptList_le hev hn side level els
    simp only [grabExpr]; grab_mono
  | .go name args => by
    have := grabList_le hev hn side level args
    simp only [grabExpr]; grab_mono
  | .call f name args => by
    have := grabList_le hev hn side level args
    simp only [grabExpr]; grab_mono
  | .callClosure it args => by
    have := grabItem_le hev hn side level it
    have := grabList_le hev hn side level args
    simp only [grabExpr]; grab_mono
  | .forN k name start stop body label => by
    have := grabOpt_le hev hn side level start
    have := grabExpr_le hev hn side level stop
    have := grabList_le hev hn side level body
    simp only [grabExpr]; grab_mono
  | .vec4 args => by
    have := grabList_le hev hn side level args
    simp only [grabExpr]; grab_mono
  | .mat4 args => by
    have := grabList_le hev hn side level args
    simp only [grabExpr]; grab_mono
  | .link items => by
    have := grabList_le hev hn side level items
    simp only [grabExpr]; grab_mono
  | .object kvs => by
    have := grabKVs_le hev hn side level kvs
    simp only [grabExpr]; grab_mono
  | .array items => by
    have := grabList_le hev hn side level items
    simp only [grabExpr]; grab_mono
  | .arrayFill f k => by
    have := grabExpr_le hev hn side level f
    have := grabExpr_le hev hn side level k
    simp only [grabExpr]; grab_mono
  | .for_ i c s b label => by
    have := grabExpr_le hev hn side level i
    have := grabExpr_le hev hn side level c
    have := grabExpr_le hev hn side level s
    have := grabList_le hev hn side level b
    simp only [grabExpr]; grab_mono
  | .forIn k name iter body label => by
    have := grabExpr_le hev hn side level iter
    have := grabList_le hev hn side level body
    simp only [grabExpr]; grab_mono
  | .swizzle sel e => by
    have := grabExpr_le hev hn side level e
    simp only [grabExpr]; grab_mono
  | .tryExpr e => by
    have := grabExpr_le hev hn side level e
    simp only [grabExpr]; grab_mono
  | .in_ f => by simp only [grabExpr]; grab_mono
theorem grabList_le {ev ev' : Evl} (hev : Evl.le ev ev') {n m : Nat} (hn : n ≤ m) (side level) :
    (es : List Expr) → EM.le (grabList n ev side level es) (grabList m ev' side level es)
  | [] => by simp only [grabList]; grab_mono
  | e :: es => by
    have := grabExpr_le hev hn side level e
    have := grabList_le hev hn side level es
    simp only [grabList]; grab_mono
theorem grabKVs_le {ev ev' : Evl} (hev : Evl.le ev ev') {n m : Nat} (hn : n ≤ m) (side level) :
    (es : List (String × Expr)) → EM.le (grabKVs n ev side level es) (grabKVs m ev' side level es)
  | [] => by simp only [grabKVs]; grab_mono
  | (k, e) :: es => by
    have := grabExpr_le hev hn side level e
    have := grabKVs_le hev hn side level es
    simp only [grabKVs]; grab_mono
theorem grabConds_le {ev ev' : Evl} (hev : Evl.le ev ev') {n m : Nat} (hn : n ≤ m) (side level) :
    (es : List (Expr × List Expr)) →
      EM.le (grabConds n ev side level es) (grabConds m ev' side level es)
  | [] => by simp only [grabConds]; grab_mono
  | (c, b) :: es => by
    have := grabExpr_le hev hn side level c
    have := grabConds_le hev hn side level es
    simp only [grabConds]; grab_mono
theorem grabBlocks_le {ev ev' : Evl} (hev : Evl.le ev ev') {n m : Nat} (hn : n ≤ m) (side level) :
    (es : List (Expr × List Expr)) →
      EM.le (grabBlocks n ev side level es) (grabBlocks m ev' side level es)
  | [] => by simp only [grabBlocks]; grab_mono
  | (c, b) :: es => by
    have := grabList_le hev hn side level b
    have := grabBlocks_le hev hn side level es
    simp only [grabBlocks]; grab_mono
theorem grabOptList_le {ev ev' : Evl} (hev : Evl.le ev ev') {n m : Nat} (hn : n ≤ m) (side level) :
    (es : Option (List Expr)) →
      EM.le (grabOptList n ev side level es) (grabOptList m ev' side level es)
  | none => by simp only [grabOptList]; grab_mono
  | some es => by
    have := grabList_le hev hn side level es
    simp only [grabOptList]; grab_mono
theorem grabOpt_le {ev ev' : Evl} (hev : Evl.le ev ev') {n m : Nat} (hn : n ≤ m) (side level) :
    (es : Option Expr) → EM.le (grabOpt n ev side level es) (grabOpt m ev' side level es)
  | none => by simp only [grabOpt]; grab_mono
  | some es => by
    have := grabExpr_le hev hn side level es
    simp only [grabOpt]; grab_mono
theorem grabItem_le {ev ev' : Evl} (hev : Evl.le ev ev') {n m : Nat} (hn : n ≤ m) (side level) :
    (it : Item) → EM.le (grabItem n ev side level it) (grabItem m ev' side level it)
  | .mk name sid cur t ids tids => by
    have := grabIds_le hev hn side level ids
    simp only [grabItem]; grab_mono
theorem grabIds_le {ev ev' : Evl} (hev : Evl.le ev ev') {n m : Nat} (hn : n ≤ m) (side level) :
    (ids : List Id) → EM.le (grabIds n ev side level ids) (grabIds m ev' side level ids)
  | [] => by simp only [grabIds]; grab_mono
  | .str s :: r => by
    have := grabIds_le hev hn side level r
    simp only [grabIds]; grab_mono
  | .num x :: r => by
    have := grabIds_le hev hn side level r
    simp only [grabIds]; grab_mono
  | .expr e :: r => by
    have := grabExpr_le hev hn side level e
    have := grabIds_le hev hn side level r
    simp only [grabIds]; grab_mono
end

section
include hev

theorem pushIds_le {β} {r r' : Option Val → EM β} (hr : ∀ x, EM.le (r x) (r' x)) (ids)
    {k k' : EM β} (hk : EM.le k k') : EM.le (pushIds ev r ids k) (pushIds ev' r' ids k') := by
  induction ids with
  | nil => exact hk
  | cons i is ih =>
    cases i with
    | str s => exact ih
    | num s => exact ih
    | expr e => exact wantK_le hev _ _ _ hr fun x => EM.bind_le (EM.le_rfl _) fun _ => ih

theorem itemE_le (c it side) : EM.le (itemE c ev it side) (itemE c ev' it side) := by
  refine EM.bind_le (EM.le_rfl _) fun call => EM.bind_le (EM.le_rfl _) fun id₀ =>
    EM.bind_le (EM.le_rfl _) fun id => EM.ite_le (EM.le_rfl _) ?_
  exact EM.bind_le (EM.le_rfl _) fun s =>
    scope1_le (pushIds_le hev (fun _ => EM.le_rfl _) _ (EM.le_rfl _))

theorem assignE_le [FloatOps] [VecMath] (op l r) : EM.le (assignE ev op l r) (assignE ev' op l r) := by
  refine EM.ite_le ?_ ?_
  · cases l <;> try exact EM.le_rfl _
    refine want_le hev _ _ _ fun x => EM.bind_le (EM.le_rfl _) fun v => ?_
    refine EM.ite_le (EM.le_rfl _) (want_le hev _ _ _ fun _ => EM.le_rfl _)
  · exact want_le hev _ _ _ fun b => want_le hev _ _ _ fun a => EM.le_rfl _

end

theorem cloneAll_le (hn : n ≤ m) (vs : List Val) : EM.le (cloneAll n vs) (cloneAll m vs) := by
  induction vs with
  | nil => exact EM.le_rfl _
  | cons v vs ih =>
    exact EM.bind_le (cloneE_le hn v) fun _ => EM.bind_le ih fun _ => EM.le_rfl _

theorem notify_le (hn : n ≤ m) (c idx st) : EM.le (notify c n idx st) (notify c m idx st) := by
  refine EM.bind_le (EM.le_rfl _) fun s => EM.ite_le ?_ (EM.le_rfl _)
  exact EM.bind_le (cloneAll_le hn _) fun _ => EM.le_rfl _

theorem enter_le (name rname index file returns args currents st lc cu) {a a' : EM Unit}
    {b b' : EM R} (ha : EM.le a a') (hb : EM.le b b') :
    EM.le (enter name rname index file returns args currents st lc cu a b)
      (enter name rname index file returns args currents st lc cu a' b') := by
  refine EM.bind_le (EM.le_rfl _) fun _ => EM.bind_le ha fun _ => EM.bind_le (EM.le_rfl _) fun _ => ?_
  exact EM.jp_le _ (pure ()) fun _ => EM.bind_le (EM.le_rfl _) fun _ => EM.bind_le hb fun _ =>
    EM.le_rfl _

theorem inModule_le {α} (k : Nat) {a a' : EM α} (h : EM.le a a') :
    EM.le (inModule k a) (inModule k a') := by
  intro st
  simp only [inModule]
  rcases h { st with module := k } with h | h
  · left; rw [h]
  · rw [h]; right; rfl

section
include hev hn

theorem callLoaded_le (c loader f name args) :
    EM.le (callLoaded c n ev loader f name args) (callLoaded c m ev' loader f name args) := by
  rw [callLoaded, callLoaded]
  refine EM.jp_le' _ _ fun rel => EM.bind_le (EM.le_rfl _) fun s => ?_
  cases callIndex f rel with
  | none => exact EM.le_rfl _
  | some idx =>
    show EM.le (match (c.modules s.module)[idx]? with | none => _ | some fn => _)
      (match (c.modules s.module)[idx]? with | none => _ | some fn => _)
    cases (c.modules s.module)[idx]? with
    | none => exact EM.le_rfl _
    | some fn =>
      refine EM.jp_le _ (pure ()) fun _ => EM.bind_le (EM.le_rfl _) fun s => ?_
      exact lazyArgs_le hev _ _ _ _ (enter_le _ _ _ _ _ _ _ _ _ _ (notify_le hn _ _ _)
        (block_le hev _))

theorem callE_le (c loader f name args) :
    EM.le (callE c n ev loader f name args) (callE c m ev' loader f name args) := by
  cases f with
  | none => exact EM.le_rfl _
  | loaded f => exact callLoaded_le hev hn _ _ _ _ _
  | void f => exact lazyArgs_le hev _ _ _ _ (EM.le_rfl _)
  | ret f => exact lazyArgs_le hev _ _ _ _ (EM.le_rfl _)
  | lazy f inv => exact lazyArgs_le hev _ _ _ _ (EM.le_rfl _)
  | binop f =>
    rcases args with _ | ⟨l, _ | ⟨r, _⟩⟩
    · exact EM.le_rfl _
    · exact EM.le_rfl _
    · exact want_le hev _ _ _ fun x => want_le hev _ _ _ fun y => EM.le_rfl _
  | unop f =>
    rcases args with _ | ⟨l, _⟩
    · exact EM.le_rfl _
    · exact want_le hev _ _ _ fun x => EM.le_rfl _

theorem callClosureE_le (c it args) :
    EM.le (callClosureE c ev it args) (callClosureE c ev' it args) := by
  refine EM.bind_le (itemE_le hev _ _ _) ?_
  rintro ⟨_ | x, _ | _ | _ | _⟩ <;> try exact EM.le_rfl _
  refine EM.bind_le (EM.le_rfl _) fun f => EM.ite_le (EM.le_rfl _) ?_
  refine EM.jp_le _ (pure ()) fun _ => EM.bind_le (EM.le_rfl _) fun s => ?_
  exact lazyArgs_le hev _ _ _ _ (enter_le _ _ _ _ _ _ _ _ _ _ (EM.le_rfl _)
    (inModule_le _ (hev _ _)))

theorem linkLit_le (items l) : EM.le (linkLit ev items l) (linkLit ev' items l) := by
  induction items generalizing l with
  | nil => exact EM.le_rfl _
  | cons e es ih =>
    refine EM.bind_le (hev _ _) ?_
    rintro ⟨_ | x, _ | _ | _ | _⟩ <;> try exact EM.le_rfl _
    · exact ih _
    · refine EM.bind_le (EM.le_rfl _) fun d => ?_
      cases linkPush l d with
      | ok l' => exact ih _
      | error m => exact EM.le_rfl _

theorem objectE_le (kvs acc) : EM.le (objectE ev kvs acc) (objectE ev' kvs acc) := by
  induction kvs generalizing acc with
  | nil => exact EM.le_rfl _
  | cons kv kvs ih =>
    exact want_le hev _ _ _ fun x => EM.ite_le (EM.le_rfl _) (ih _)

theorem arrayE_le (es acc) : EM.le (arrayE ev es acc) (arrayE ev' es acc) := by
  induction es generalizing acc with
  | nil => exact EM.le_rfl _
  | cons e es ih => exact want_le hev _ _ _ fun x => ih _

theorem elifsE_le (els elifs) : EM.le (elifsE ev els elifs) (elifsE ev' els elifs) := by
  induction elifs with
  | nil =>
    cases els with
    | none => exact EM.le_rfl _
    | some b => exact block_le hev _
  | cons e es ih =>
    refine want_le hev _ _ _ fun x => EM.bind_le (EM.le_rfl _) fun d => ?_
    cases d <;> try exact EM.le_rfl _
    rename_i b _
    cases b
    · exact ih
    · exact block_le hev _

theorem iteE_le (c t elifs els) : EM.le (iteE ev c t elifs els) (iteE ev' c t elifs els) := by
  refine want_le hev _ _ _ fun x => EM.bind_le (EM.le_rfl _) fun d => ?_
  cases d <;> try exact EM.le_rfl _
  rename_i b _
  cases b
  · exact elifsE_le hev hn _ _
  · exact block_le hev _

theorem forE_le (i c s b label) : EM.le (forE n ev i c s b label) (forE m ev' i c s b label) := by
  have hstep : ∀ (k : EM (Unit ⊕ (Bool × R))), EM.le (forStep ev s k) (forStep ev' s k) := by
    intro k
    refine EM.bind_le (hev _ _) ?_
    rintro ⟨_ | x, _ | _ | _ | _⟩ <;> exact EM.le_rfl _
  refine scope2_le (EM.bind_le (hev _ _) ?_)
  rintro ⟨_ | x, _ | _ | _ | _⟩ <;> try exact EM.le_rfl _
  refine EM.bind_le (EM.le_rfl _) fun st => loopN_le hn (fun u => ?_) _
  refine wantK_le hev _ _ _ (fun _ => EM.le_rfl _) fun v => ?_
  cases v <;> try exact EM.le_rfl _
  rename_i v _
  cases v
  · exact EM.le_rfl _
  · refine EM.bind_le (block_le hev _) ?_
    rintro ⟨x, _ | _ | l | l⟩
    · exact hstep _
    · exact EM.le_rfl _
    · exact EM.le_rfl _
    · show EM.le (match onContinue label l with | none => _ | some f => _)
        (match onContinue label l with | none => _ | some f => _)
      cases onContinue label l with
      | none => exact hstep _
      | some f => exact EM.le_rfl _

theorem goArgs_le (args acc) {k k' : List Val → EM R} (hk : ∀ a, EM.le (k a) (k' a)) :
    EM.le (goArgs n ev args acc k) (goArgs m ev' args acc k') := by
  induction args generalizing acc with
  | nil => exact hk _
  | cons a as ih =>
    exact want_le hev _ _ _ fun x => EM.bind_le (cloneE_le hn _) fun v => ih _

theorem tryExprE_le (e) : EM.le (tryExprE ev e) (tryExprE ev' e) := by
  intro st
  simp only [tryExprE]
  rcases hev e .right st with h | h
  · left; rw [h]
  · rw [h]; right; rfl

theorem evalStep_le [FloatOps] [VecMath] (c e side) :
    EM.le (evalStep c n ev e side) (evalStep c m ev' e side) := by
  cases e with
  | link items => exact EM.ite_le (EM.le_rfl _) (scope3_le (linkLit_le hev hn _ _))
  | object kvs => exact objectE_le hev hn _ _
  | array items => exact arrayE_le hev hn _ _
  | arrayFill f k =>
    exact want_le hev _ _ _ fun x => want_le hev _ _ _ fun y => EM.le_rfl _
  | block es => exact block_le hev _
  | ret e => exact want_le hev _ _ _ fun x => EM.le_rfl _
  | retVoid => exact EM.le_rfl _
  | brk l => exact EM.le_rfl _
  | cont l => exact EM.le_rfl _
  | go name args =>
    exact EM.bind_le (EM.le_rfl _) fun call => EM.bind_le (EM.le_rfl _) fun s =>
      goArgs_le hev hn _ _ fun _ => EM.le_rfl _
  | call f name args => exact callE_le hev hn _ _ _ _ _
  | item it => exact itemE_le hev _ _ _
  | assign op l r => exact assignE_le hev _ _ _
  | vec4 args =>
    exact EM.bind_le (EM.le_rfl _) fun s => vecArgs_le hev _ _ _ _ (EM.le_rfl _)
  | mat4 args => exact vecArgs_le hev _ _ _ _ (EM.le_rfl _)
  | for_ i cnd s b l => exact forE_le hev hn _ _ _ _ _
  | forN k name start stop body label =>
    cases k <;> first
      | exact EM.bind_le (linkForN_le hev hn _ _ _ _ _ _) fun _ => EM.le_rfl _
      | exact EM.bind_le (countLoop_le hev hn _ _ _ _ fun s x => bodyRound_le hev _ _ _ _)
          fun _ => EM.le_rfl _
  | forIn k name iter body label =>
    cases k <;> first
      | exact EM.bind_le (linkForIn_le hev hn _ _ _ _ _ _) fun _ => EM.le_rfl _
      | exact EM.bind_le (chanLoop_le hev hn _ _ _ _ _ fun s x => bodyRound_le hev _ _ _ _)
          fun _ => EM.le_rfl _
  | ite cnd t elifs els => exact iteE_le hev hn _ _ _ _
  | const v => exact EM.le_rfl _
  | try_ e => exact want_le hev _ _ _ fun x => EM.le_rfl _
  | swizzle sel e => exact wantK_le hev _ _ _ (fun _ => EM.le_rfl _) fun x => EM.le_rfl _
  | closure args cur r f e =>
    exact EM.bind_le (EM.le_rfl _) fun rel => EM.bind_le (grabExpr_le hev hn _ _ _)
      fun _ => EM.le_rfl _
  | callClosure it args => exact callClosureE_le hev hn _ _ _
  | grab l e => exact EM.le_rfl _
  | tryExpr e => exact tryExprE_le hev hn _
  | in_ f => exact EM.le_rfl _

end

/-- More fuel never changes a result of the evaluator. -/
theorem eval_le [FloatOps] [VecMath] (c : ECfg) {n m : Nat} (h : n ≤ m) :
    Evl.le (eval c n) (eval c m) := by
  induction n generalizing m with
  | zero => exact fun _ _ => EM.timeout_le _
  | succ n ih =>
    obtain ⟨m, rfl⟩ : ∃ k, m = k + 1 := ⟨m - 1, by omega⟩
    exact fun e s => evalStep_le (ih (by omega)) (by omega) c e s

end Dyon
