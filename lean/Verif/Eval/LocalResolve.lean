import Verif.Eval.LocalAll
import Verif.Eval.ResolveProps

/-!
# `get_locals` does not touch constants

Lemmas for C77.
-/

namespace Dyon.Loc

variable {P Q : Nat → Prop}

theorem within_mono (h : ∀ i, P i → Q i) {v : Val} (hv : Within P v) : Within Q v :=
  fun i hi => h i (hv i hi)

mutual
theorem eIn_mono (h : ∀ i, P i → Q i) : (e : Expr) → EIn P e → EIn Q e
  | .link items => fun he => by rw [EIn] at *; exact esIn_mono h items he
  | .object kvs => fun he => by rw [EIn] at *; exact kvsIn_mono h kvs he
  | .array items => fun he => by rw [EIn] at *; exact esIn_mono h items he
  | .arrayFill f n => fun he => by
    rw [EIn] at *; exact ⟨eIn_mono h f he.1, eIn_mono h n he.2⟩
  | .ret e => fun he => by rw [EIn] at *; exact eIn_mono h e he
  | .block es => fun he => by rw [EIn] at *; exact esIn_mono h es he
  | .go _ args => fun he => by rw [EIn] at *; exact esIn_mono h args he
  | .call _ _ args => fun he => by rw [EIn] at *; exact esIn_mono h args he
  | .item it => fun he => by rw [EIn] at *; exact itemIn_mono h it he
  | .assign _ l r => fun he => by
    rw [EIn] at *; exact ⟨eIn_mono h l he.1, eIn_mono h r he.2⟩
  | .vec4 args => fun he => by rw [EIn] at *; exact esIn_mono h args he
  | .mat4 args => fun he => by rw [EIn] at *; exact esIn_mono h args he
  | .for_ i c s b _ => fun he => by
    rw [EIn] at *
    exact ⟨eIn_mono h i he.1, eIn_mono h c he.2.1, eIn_mono h s he.2.2.1, esIn_mono h b he.2.2.2⟩
  | .forN _ _ start stop body _ => fun he => by
    rw [EIn] at *; exact ⟨optIn_mono h start he.1, eIn_mono h stop he.2.1, esIn_mono h body he.2.2⟩
  | .forIn _ _ iter body _ => fun he => by
    rw [EIn] at *; exact ⟨eIn_mono h iter he.1, esIn_mono h body he.2⟩
  | .ite c t elifs els => fun he => by
    rw [EIn] at *
    exact ⟨eIn_mono h c he.1, esIn_mono h t he.2.1, elifsIn_mono h elifs he.2.2.1,
      optListIn_mono h els he.2.2.2⟩
  | .const v => fun he => by rw [EIn] at *; exact within_mono h he
  | .try_ e => fun he => by rw [EIn] at *; exact eIn_mono h e he
  | .swizzle _ e => fun he => by rw [EIn] at *; exact eIn_mono h e he
  | .closure _ _ _ _ e => fun he => by rw [EIn] at *; exact eIn_mono h e he
  | .callClosure it args => fun he => by
    rw [EIn] at *; exact ⟨itemIn_mono h it he.1, esIn_mono h args he.2⟩
  | .grab _ e => fun he => by rw [EIn] at *; exact eIn_mono h e he
  | .tryExpr e => fun he => by rw [EIn] at *; exact eIn_mono h e he
  | .retVoid => fun _ => by rw [EIn]; trivial
  | .brk _ => fun _ => by rw [EIn]; trivial
  | .cont _ => fun _ => by rw [EIn]; trivial
  | .in_ _ => fun _ => by rw [EIn]; trivial
theorem esIn_mono (h : ∀ i, P i → Q i) : (es : List Expr) → EsIn P es → EsIn Q es
  | [] => fun _ => by rw [EsIn]; trivial
  | e :: es => fun he => by rw [EsIn] at *; exact ⟨eIn_mono h e he.1, esIn_mono h es he.2⟩
theorem kvsIn_mono (h : ∀ i, P i → Q i) : (es : List (String × Expr)) → KvsIn P es → KvsIn Q es
  | [] => fun _ => by rw [KvsIn]; trivial
  | (_, e) :: es => fun he => by rw [KvsIn] at *; exact ⟨eIn_mono h e he.1, kvsIn_mono h es he.2⟩
theorem elifsIn_mono (h : ∀ i, P i → Q i) :
    (es : List (Expr × List Expr)) → ElifsIn P es → ElifsIn Q es
  | [] => fun _ => by rw [ElifsIn]; trivial
  | (c, b) :: es => fun he => by
    rw [ElifsIn] at *; exact ⟨eIn_mono h c he.1, esIn_mono h b he.2.1, elifsIn_mono h es he.2.2⟩
theorem optListIn_mono (h : ∀ i, P i → Q i) :
    (o : Option (List Expr)) → OptListIn P o → OptListIn Q o
  | none => fun _ => by rw [OptListIn]; trivial
  | some es => fun he => by rw [OptListIn] at *; exact esIn_mono h es he
theorem optIn_mono (h : ∀ i, P i → Q i) : (o : Option Expr) → OptIn P o → OptIn Q o
  | none => fun _ => by rw [OptIn]; trivial
  | some e => fun he => by rw [OptIn] at *; exact eIn_mono h e he
theorem itemIn_mono (h : ∀ i, P i → Q i) : (it : Item) → ItemIn P it → ItemIn Q it
  | .mk _ _ _ _ ids _ => fun he => by rw [ItemIn] at *; exact idsIn_mono h ids he
theorem idsIn_mono (h : ∀ i, P i → Q i) : (ids : List Id) → IdsIn P ids → IdsIn Q ids
  | [] => fun _ => by rw [IdsIn]; trivial
  | .expr e :: r => fun he => by rw [IdsIn] at *; exact ⟨eIn_mono h e he.1, idsIn_mono h r he.2⟩
  | .str _ :: r => fun he => by rw [IdsIn] at *; exact idsIn_mono h r he
  | .num _ :: r => fun he => by rw [IdsIn] at *; exact idsIn_mono h r he
end

mutual
theorem eIn_getLocals (k : Ctx) : (e : Expr) → ∀ st cs, EIn P e → EIn P (getLocals k e st cs).1
  | .link items => fun st cs he => by
    simp only [EIn, getLocals] at *; exact esIn_getSeq k items _ _ he
  | .object kvs => fun st cs he => by
    simp only [EIn, getLocals] at *; exact kvsIn_getKvs k kvs _ _ he
  | .array items => fun st cs he => by
    simp only [EIn, getLocals] at *; exact esIn_getAll k items _ _ he
  | .arrayFill f n => fun st cs he => by
    simp only [EIn, getLocals] at *
    exact ⟨eIn_getLocals k f _ _ he.1, eIn_getLocals k n _ _ he.2⟩
  | .ret e => fun st cs he => by simp only [EIn, getLocals] at *; exact eIn_getLocals k e _ _ he
  | .block es => fun st cs he => by simp only [EIn, getLocals] at *; exact esIn_getSeq k es _ _ he
  | .go _ args => fun st cs he => by
    simp only [EIn, getLocals] at *; exact esIn_getAll k args _ _ he
  | .call f _ args => fun st cs he => by
    cases f
    case binop => simp only [EIn, getLocals] at *; exact esIn_getAll k args _ _ he
    all_goals simp only [EIn, getLocals] at *; exact esIn_getArgs k args _ _ he
  | .item it => fun st cs he => by
    simp only [EIn, getLocals] at *; exact itemIn_getItem k it _ _ he
  | .assign op l r => fun st cs he => by
    rw [EIn] at he
    rw [getLocals]
    simp only
    cases declName op l with
    | some n => simp only [EIn]; exact ⟨he.1, eIn_getLocals k r _ _ he.2⟩
    | none => simp only [EIn]; exact ⟨eIn_getLocals k l _ _ he.1, eIn_getLocals k r _ _ he.2⟩
  | .vec4 args => fun st cs he => by
    simp only [EIn, getLocals] at *; exact esIn_getArgs k args _ _ he
  | .mat4 args => fun st cs he => by
    simp only [EIn, getLocals] at *; exact esIn_getRows k args _ _ he
  | .for_ i c s b _ => fun st cs he => by
    simp only [EIn, getLocals] at *
    exact ⟨eIn_getLocals k i _ _ he.1, eIn_getLocals k c _ _ he.2.1, eIn_getLocals k s _ _ he.2.2.1,
      esIn_getSeq k b _ _ he.2.2.2⟩
  | .forN _ _ start stop body _ => fun st cs he => by
    simp only [EIn, getLocals] at *
    exact ⟨optIn_getOpt k start _ _ he.1, eIn_getLocals k stop _ _ he.2.1,
      esIn_getSeq k body _ _ he.2.2⟩
  | .forIn _ _ iter body _ => fun st cs he => by
    simp only [EIn, getLocals] at *
    exact ⟨eIn_getLocals k iter _ _ he.1, esIn_getSeq k body _ _ he.2⟩
  | .ite c t elifs els => fun st cs he => by
    simp only [EIn, getLocals] at *
    exact ⟨eIn_getLocals k c _ _ he.1, esIn_getSeq k t _ _ he.2.1, elifsIn_getElifs k elifs _ _ he.2.2.1,
      optListIn_getOptSeq k els _ _ he.2.2.2⟩
  | .const v => fun st cs he => by simp only [getLocals]; exact he
  | .try_ e => fun st cs he => by simp only [EIn, getLocals] at *; exact eIn_getLocals k e _ _ he
  | .swizzle _ e => fun st cs he => by
    simp only [EIn, getLocals] at *; exact eIn_getLocals k e _ _ he
  | .closure _ _ _ _ e => fun st cs he => by
    simp only [EIn, getLocals] at *; exact eIn_getLocals k e _ _ he
  | .callClosure it args => fun st cs he => by
    simp only [EIn, getLocals] at *
    exact ⟨itemIn_getItem k it _ _ he.1, esIn_getArgs k args _ _ he.2⟩
  | .grab l e => fun st cs he => by
    rw [EIn] at he
    rw [getLocals]
    split
    · simp only [EIn]; exact he
    · simp only [EIn]; exact eIn_getLocals k e _ _ he
  | .tryExpr e => fun st cs he => by
    simp only [EIn, getLocals] at *; exact eIn_getLocals k e _ _ he
  | .retVoid => fun st cs he => by simp only [getLocals]; exact he
  | .brk _ => fun st cs he => by simp only [getLocals]; exact he
  | .cont _ => fun st cs he => by simp only [getLocals]; exact he
  | .in_ _ => fun st cs he => by simp only [getLocals]; exact he
theorem esIn_getSeq (k : Ctx) : (es : List Expr) → ∀ st cs, EsIn P es → EsIn P (getSeq k es st cs).1
  | [] => fun _ _ _ => by simp only [getSeq, EsIn]
  | e :: es => fun st cs he => by
    simp only [getSeq, EsIn] at *; exact ⟨eIn_getLocals k e _ _ he.1, esIn_getSeq k es _ _ he.2⟩
theorem esIn_getAll (k : Ctx) : (es : List Expr) → ∀ st cs, EsIn P es → EsIn P (getAll k es st cs)
  | [] => fun _ _ _ => by simp only [getAll, EsIn]
  | e :: es => fun st cs he => by
    simp only [getAll, EsIn] at *; exact ⟨eIn_getLocals k e _ _ he.1, esIn_getAll k es _ _ he.2⟩
theorem esIn_getArgs (k : Ctx) : (es : List Expr) → ∀ st cs, EsIn P es → EsIn P (getArgs k es st cs)
  | [] => fun _ _ _ => by simp only [getArgs, EsIn]
  | e :: es => fun st cs he => by
    simp only [getArgs, EsIn] at *; exact ⟨eIn_getLocals k e _ _ he.1, esIn_getArgs k es _ _ he.2⟩
theorem esIn_getRows (k : Ctx) : (es : List Expr) → ∀ st cs, EsIn P es → EsIn P (getRows k es st cs)
  | [] => fun _ _ _ => by simp only [getRows, EsIn]
  | e :: es => fun st cs he => by
    simp only [getRows, EsIn] at *; exact ⟨eIn_getLocals k e _ _ he.1, esIn_getRows k es _ _ he.2⟩
theorem kvsIn_getKvs (k : Ctx) : (es : List (String × Expr)) → ∀ st cs, KvsIn P es →
    KvsIn P (getKvs k es st cs)
  | [] => fun _ _ _ => by simp only [getKvs, KvsIn]
  | (_, e) :: es => fun st cs he => by
    simp only [getKvs, KvsIn] at *; exact ⟨eIn_getLocals k e _ _ he.1, kvsIn_getKvs k es _ _ he.2⟩
theorem elifsIn_getElifs (k : Ctx) : (es : List (Expr × List Expr)) → ∀ st cs, ElifsIn P es →
    ElifsIn P (getElifs k es st cs)
  | [] => fun _ _ _ => by simp only [getElifs, ElifsIn]
  | (c, b) :: es => fun st cs he => by
    simp only [getElifs, ElifsIn] at *
    exact ⟨eIn_getLocals k c _ _ he.1, esIn_getSeq k b _ _ he.2.1, elifsIn_getElifs k es _ _ he.2.2⟩
theorem optListIn_getOptSeq (k : Ctx) : (o : Option (List Expr)) → ∀ st cs, OptListIn P o →
    OptListIn P (getOptSeq k o st cs)
  | none => fun _ _ _ => by simp only [getOptSeq, OptListIn]
  | some es => fun st cs he => by simp only [getOptSeq, OptListIn] at *; exact esIn_getSeq k es _ _ he
theorem optIn_getOpt (k : Ctx) : (o : Option Expr) → ∀ st cs, OptIn P o → OptIn P (getOpt k o st cs)
  | none => fun _ _ _ => by simp only [getOpt, OptIn]
  | some e => fun st cs he => by simp only [getOpt, OptIn] at *; exact eIn_getLocals k e _ _ he
theorem itemIn_getItem (k : Ctx) : (it : Item) → ∀ st cs, ItemIn P it → ItemIn P (getItem k it st cs)
  | .mk _ _ _ _ ids _ => fun st cs he => by
    simp only [getItem, ItemIn] at *; exact idsIn_getIds k ids _ _ he
theorem idsIn_getIds (k : Ctx) : (ids : List Id) → ∀ st cs, IdsIn P ids → IdsIn P (getIds k ids st cs)
  | [] => fun _ _ _ => by simp only [getIds, IdsIn]
  | .expr e :: r => fun st cs he => by
    simp only [getIds, IdsIn] at *; exact ⟨eIn_getLocals k e _ _ he.1, idsIn_getIds k r _ _ he.2⟩
  | .str _ :: r => fun st cs he => by simp only [getIds, IdsIn] at *; exact idsIn_getIds k r _ _ he
  | .num _ :: r => fun st cs he => by simp only [getIds, IdsIn] at *; exact idsIn_getIds k r _ _ he
end

theorem modulesIn_resolve {c : ECfg} (h : ModulesIn c P) (hPQ : ∀ i, P i → Q i) :
    ModulesIn c.resolve Q := by
  intro m idx fn hfn
  rw [resolve_getElem?] at hfn
  cases hx : (c.modules m)[idx]? with
  | none => simp [hx] at hfn
  | some fn' =>
    rw [hx] at hfn
    cases hfn
    exact esIn_mono hPQ _ (esIn_getSeq _ _ _ _ (h m idx fn' hx))

end Dyon.Loc
