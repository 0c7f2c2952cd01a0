import Verif.Eval.ResolveLemmas

/-!
# A program in scope comes out resolved
-/

namespace Dyon

/-! ## Two views of the stack -/

theorem distR_isSome {name : String} {Γ : Env} : (distR name Γ).isSome ↔ some name ∈ Γ := by
  induction Γ with
  | nil => simp [distR]
  | cons x xs ih =>
    simp only [distR]
    split
    · simp [*]
    · rename_i h
      simp only [Option.isSome_map, ih, List.mem_cons]
      constructor
      · exact .inr
      · rintro (h' | h')
        · exact absurd h'.symm h
        · exact h'

theorem dist_isSome {name : String} {Γ : Env} : (dist name Γ).isSome ↔ some name ∈ Γ := by
  rw [dist, distR_isSome]; simp

/-- Every variable seen in `Γ` is at the same distance in `X`. -/
def Sees (X Γ : Env) : Prop := ∀ name d, dist name Γ = some d → dist name X = some d

theorem Sees.refl (Γ) : Sees Γ Γ := fun _ _ h => h

theorem Sees.snoc {X Γ : Env} (h : Sees X Γ) (x) : Sees (X ++ [x]) (Γ ++ [x]) := by
  intro name d
  rw [dist_snoc, dist_snoc]
  split
  · exact id
  · cases hd : dist name Γ with
    | none => simp
    | some e => rw [h name e hd]; exact id

theorem Sees.append {X Γ : Env} (h : Sees X Γ) (Δ : Env) : Sees (X ++ Δ) (Γ ++ Δ) := by
  induction Δ using List.reverseRecOn with
  | nil => simpa using h
  | append_singleton Δ x ih =>
    rw [← List.append_assoc, ← List.append_assoc]; exact ih.snoc x

theorem Sees.nil (X : Env) : Sees X [] := fun _ _ h => by simp [dist, distR] at h

theorem Sees.prefix (X Δ : Env) : Sees (X ++ Δ) Δ := by
  have := (Sees.nil X).append Δ
  simpa using this

theorem dist_hideRet {name : String} {Γ : Env} :
    dist name (hideRet Γ) = if name = "return" then none else dist name Γ := by
  induction Γ using List.reverseRecOn with
  | nil => simp [hideRet, dist, distR]
  | append_singleton Γ x ih =>
    rw [show hideRet (Γ ++ [x]) = hideRet Γ ++ [if x = some "return" then none else x] by
      simp [hideRet], dist_snoc, dist_snoc, ih]
    by_cases hn : name = "return"
    · subst hn
      by_cases hx : x = some "return" <;> simp [hx]
    · by_cases hx : x = some "return"
      · have : ¬ some "return" = some name := fun h => hn (by simpa using h.symm)
        subst hx
        simp [hn, this]
      · simp [hn, hx]

theorem Sees.hide {X Γ : Env} (h : Sees X Γ) : Sees X (hideRet Γ) := by
  intro name d hd
  rw [dist_hideRet] at hd
  split at hd
  · cases hd
  · exact h name d hd

theorem Sees.ret {X Γ : Env} (h : Sees X Γ) :
    Sees (X ++ [some "return"]) (hideRet Γ ++ [none]) := by
  intro name d hd
  rw [dist_snoc, dist_hideRet] at hd
  rw [dist_snoc]
  by_cases hn : name = "return"
  · simp [hn] at hd
  · have : ¬ some "return" = some name := fun h => hn (by simpa using h.symm)
    simp only [reduceCtorEq, hn, if_false, this] at hd ⊢
    cases hd' : dist name Γ with
    | none => simp [hd'] at hd
    | some e => rw [hd'] at hd; rw [h name e hd']; exact hd

/-- The enclosing functions: the closure stack of `get_locals` cuts the compile-time stack
where the enclosing functions end. -/
def Enc (st : Env) (cs : List Nat) (oss os : List Env) : Prop :=
  ∀ (i : Nat) Γs, oss[(i : Nat)]? = some Γs → i < cs.length ∧
    ∃ last Γ, cs[(cs.length - 1 - i : Nat)]? = some last ∧ last ≤ st.length ∧
      Sees (st.take last) Γs ∧ os[(i : Nat)]? = some Γ ∧ Sees Γ Γs

theorem Enc.nil (st cs os) : Enc st cs [] os := fun _ _ h => by simp at h

theorem Enc.append {st cs oss os} (h : Enc st cs oss os) (Δ : Env) : Enc (st ++ Δ) cs oss os := by
  intro i Γs hi
  obtain ⟨h1, last, Γ, h2, h3, h4, h5, h6⟩ := h i Γs hi
  exact ⟨h1, last, Γ, h2, by simp; omega, by rw [List.take_append_of_le_length h3]; exact h4,
    h5, h6⟩

theorem Enc.closure {st cs oss os Γs Γ} (h : Enc st cs oss os) (hs : Sees st Γs)
    (hΓ : Sees Γ Γs) (Δ : Env) : Enc (st ++ Δ) (cs ++ [st.length]) (Γs :: oss) (Γ :: os) := by
  intro i Γs' hi
  cases i with
  | zero =>
    cases hi
    refine ⟨by simp, st.length, Γ, by simp, by simp, by simpa using hs, rfl, hΓ⟩
  | succ i =>
    obtain ⟨h1, last, Γ', h2, h3, h4, h5, h6⟩ := h.append Δ i Γs' (by simpa using hi)
    refine ⟨by simp; omega, last, Γ', ?_, h3, h4, by simpa using h5, h6⟩
    rw [List.getElem?_append_left (by simp; omega)]
    rw [show (cs ++ [st.length]).length - 1 - (i + 1) = cs.length - 1 - i by simp; omega]
    exact h2

theorem callPre_congr {k k' : Ctx} (h : k'.rets = k.rets) (f) : callPre k' f = callPre k f := by
  cases f <;> simp [callPre, h]

section
variable {k k0 : Ctx} {ar : Int → Nat} (hk : k0.rets = k.rets)
include hk

mutual
theorem getLocals_res : (e : Expr) → ∀ ⦃Γs Γ st : Env⦄ ⦃cs oss os⦄,
    e.Scoped k ar Γs oss → Sees st Γs → Sees Γ Γs → Enc st cs oss os →
    (getLocals k0 e st cs).1.Res k ar Γ os
  | .link items => by
    intro Γs Γ st cs oss os h hs hΓ he
    simp only [Expr.Scoped] at h
    simp only [getLocals, Expr.Res]; exact getSeq_res items h hs hΓ he
  | .object kvs => by
    intro Γs Γ st cs oss os h hs hΓ he
    simp only [Expr.Scoped] at h
    simp only [getLocals, Expr.Res]; exact getKvs_res kvs h hs hΓ he
  | .array items => by
    intro Γs Γ st cs oss os h hs hΓ he
    simp only [Expr.Scoped] at h
    simp only [getLocals, Expr.Res]; exact getAll_res items h hs hΓ he
  | .arrayFill f n => by
    intro Γs Γ st cs oss os h hs hΓ he
    simp only [Expr.Scoped] at h
    simp only [getLocals, Expr.Res, getLocals_stack, cutTo_append]
    exact ⟨getLocals_res f h.1 hs hΓ he, getLocals_res n h.2 hs hΓ he⟩
  | .ret e => by
    intro Γs Γ st cs oss os h hs hΓ he
    simp only [Expr.Scoped] at h
    simp only [getLocals, Expr.Res]; exact getLocals_res e h hs hΓ he
  | .retVoid => by intros; simp only [getLocals, Expr.Res]
  | .brk _ => by intros; simp only [getLocals, Expr.Res]
  | .cont _ => by intros; simp only [getLocals, Expr.Res]
  | .const _ => by intros; simp only [getLocals, Expr.Res]
  | .in_ _ => by intros; simp only [getLocals, Expr.Res]
  | .block es => by
    intro Γs Γ st cs oss os h hs hΓ he
    simp only [Expr.Scoped] at h
    simp only [getLocals, Expr.Res]; exact getSeq_res es h hs hΓ he
  | .go name args => by
    intro Γs Γ st cs oss os h hs hΓ he
    simp only [Expr.Scoped] at h
    simp only [getLocals, Expr.Res]; exact getAll_res args h hs hΓ he
  | .call f name args => by
    intro Γs Γ st cs oss os h hs hΓ he
    have h1 := getAll_alike k0 args st cs
    have h2 := getArgs_alike k0 args (st ++ callPre k0 f) cs
    cases f <;> simp only [Expr.Scoped] at h <;> simp only [getLocals, Expr.Res, callPre_congr hk] at h2 ⊢
    case binop g => exact ⟨getAll_res args h.1 hs hΓ he, trivial⟩
    case loaded g =>
      exact ⟨getArgs_res args h.1 (hs.append _) (hΓ.append _) (he.append _),
        by rw [h2.argLen]; exact h.2.1, by rw [h2.vec]; exact h.2.2⟩
    all_goals exact ⟨getArgs_res args h.1 (hs.append _) (hΓ.append _) (he.append _), trivial⟩
  | .item it => by
    intro Γs Γ st cs oss os h hs hΓ he
    simp only [Expr.Scoped] at h
    simp only [getLocals, Expr.Res]; exact getItem_res it h hs hΓ he
  | .assign op l r => by
    intro Γs Γ st cs oss os h hs hΓ he
    simp only [Expr.Scoped] at h
    simp only [getLocals, getLocals_stack, cutTo_append]
    have hl := getLocals_alike k0 l st cs
    cases hd : declName op l with
    | some n =>
      simp only [Expr.Res]
      exact ⟨getLocals_res r h.1 hs hΓ he, fun h' => by simp [hd] at h'⟩
    | none =>
      simp only [Expr.Res]
      exact ⟨getLocals_res r h.1 hs hΓ he, fun _ => getLocals_res l (h.2 hd) hs hΓ he⟩
  | .vec4 args => by
    intro Γs Γ st cs oss os h hs hΓ he
    simp only [Expr.Scoped] at h
    simp only [getLocals, Expr.Res]; exact getArgs_res args h hs hΓ he
  | .mat4 args => by
    intro Γs Γ st cs oss os h hs hΓ he
    simp only [Expr.Scoped] at h
    simp only [getLocals, Expr.Res]; exact getRows_res args h.1 h.2 hs hΓ he
  | .for_ i c s b l => by
    intro Γs Γ st cs oss os h hs hΓ he
    simp only [Expr.Scoped] at h
    obtain ⟨hi, hsw, hadds, hc, hst, hssw, hsd, hb⟩ := h
    have hia := getLocals_alike k0 i st cs
    simp only [getLocals, getLocals_stack, hadds, cutTo_append, Expr.Res, hia.decl, hia.swizzle]
    have hs' := getLocals_alike k0 s (st ++ decl i) cs
    rw [hs'.swizzle, hs'.decl]
    exact ⟨getLocals_res i hi hs hΓ he, hsw,
      getLocals_res c hc (hs.append _) (hΓ.append _) (he.append _),
      getLocals_res s hst (hs.append _) (hΓ.append _) (he.append _), hssw, hsd,
      getSeq_res b hb (hs.append _) (hΓ.append _) (he.append _)⟩
  | .forN kd name start stop body l => by
    intro Γs Γ st cs oss os h hs hΓ he
    simp only [Expr.Scoped] at h
    simp only [getLocals, Expr.Res, getLocals_stack, cutTo_append]
    exact ⟨getOpt_res start h.1 hs hΓ he, getLocals_res stop h.2.1 hs hΓ he,
      getSeq_res body h.2.2 (hs.append _) (hΓ.append _) (he.append _)⟩
  | .forIn kd name iter body l => by
    intro Γs Γ st cs oss os h hs hΓ he
    simp only [Expr.Scoped] at h
    simp only [getLocals, Expr.Res, getLocals_stack, cutTo_append]
    exact ⟨getLocals_res iter h.1 hs hΓ he,
      getSeq_res body h.2 (hs.append _) (hΓ.append _) (he.append _)⟩
  | .ite c t elifs els => by
    intro Γs Γ st cs oss os h hs hΓ he
    simp only [Expr.Scoped] at h
    simp only [getLocals, Expr.Res, getLocals_stack, cutTo_append]
    exact ⟨getLocals_res c h.1 hs hΓ he, getSeq_res t h.2.1 hs hΓ he,
      getElifs_res elifs h.2.2.1 hs hΓ he, getOptSeq_res els h.2.2.2 hs hΓ he⟩
  | .try_ e => by
    intro Γs Γ st cs oss os h hs hΓ he
    simp only [Expr.Scoped] at h
    simp only [getLocals, Expr.Res]; exact getLocals_res e h hs hΓ he
  | .swizzle _ e => by
    intro Γs Γ st cs oss os h hs hΓ he
    simp only [Expr.Scoped] at h
    simp only [getLocals, Expr.Res]; exact getLocals_res e h hs hΓ he
  | .tryExpr e => by
    intro Γs Γ st cs oss os h hs hΓ he
    simp only [Expr.Scoped] at h
    simp only [getLocals, Expr.Res]; exact getLocals_res e h hs hΓ he
  | .closure args cur rt file e => by
    intro Γs Γ st cs oss os h hs hΓ he
    simp only [Expr.Scoped] at h
    simp only [getLocals, Expr.Res]
    exact ⟨h.1, h.2.1, getLocals_res e h.2.2 (.prefix _ _) (.refl _) (he.closure hs hΓ _)⟩
  | .callClosure it args => by
    intro Γs Γ st cs oss os h hs hΓ he
    simp only [Expr.Scoped] at h
    have h2 := getArgs_alike k0 args (st ++ [some "return"]) cs
    simp only [getLocals, Expr.Res, h2.vec]
    exact ⟨getItem_res it h.1 hs hΓ he, h.2.1,
      getArgs_res args h.2.2 hs.ret (hΓ.hide.snoc none) (he.append _)⟩
  | .grab l e => by
    intro Γs Γ st cs oss os h hs hΓ he
    simp only [Expr.Scoped] at h
    obtain ⟨hl, Γs', hΓs', hsc⟩ := h
    obtain ⟨h1, last, Γ', h2, h3, h4, h5, h6⟩ := he _ _ hΓs'
    simp only [getLocals]
    have hd : (if cs.length < l then 0 else cs.length - l : Nat) = cs.length - 1 - (l - 1) := by
      split <;> omega
    rw [hd, h2]
    simp only [Expr.Res]
    exact ⟨hl, Γ', h5, getLocals_res e hsc h4 h6 (.nil _ _ _)⟩
theorem getSeq_res : (es : List Expr) → ∀ ⦃Γs Γ st : Env⦄ ⦃cs oss os⦄,
    SSeq k ar es Γs oss → Sees st Γs → Sees Γ Γs → Enc st cs oss os →
    RSeq k ar (getSeq k0 es st cs).1 Γ os
  | [] => by intros; simp only [getSeq, RSeq]
  | e :: es => by
    intro Γs Γ st cs oss os h hs hΓ he
    simp only [SSeq] at h
    have ha := getLocals_alike k0 e st cs
    simp only [getSeq, RSeq, getLocals_stack, ha.swizzle, ha.decl]
    refine ⟨getLocals_res e h.1 hs hΓ he, h.2.1, ?_⟩
    cases es with
    | nil => simp only [getSeq, RSeq]
    | cons e' es' =>
      rw [h.2.2.1 (by simp)]
      exact getSeq_res (e' :: es') h.2.2.2 (hs.append _) (hΓ.append _) (he.append _)
theorem getAll_res : (es : List Expr) → ∀ ⦃Γs Γ st : Env⦄ ⦃cs oss os⦄,
    SAll k ar es Γs oss → Sees st Γs → Sees Γ Γs → Enc st cs oss os →
    RAll k ar (getAll k0 es st cs) Γ os
  | [] => by intros; simp only [getAll, RAll]
  | e :: es => by
    intro Γs Γ st cs oss os h hs hΓ he
    simp only [SAll] at h
    simp only [getAll, RAll, getLocals_stack, cutTo_append]
    exact ⟨getLocals_res e h.1 hs hΓ he, getAll_res es h.2 hs hΓ he⟩
theorem getArgs_res : (es : List Expr) → ∀ ⦃Γs Γ st : Env⦄ ⦃cs oss os⦄,
    SArgs k ar es Γs oss → Sees st Γs → Sees Γ Γs → Enc st cs oss os →
    RArgs k ar (getArgs k0 es st cs) Γ os
  | [] => by intros; simp only [getArgs, RArgs]
  | e :: es => by
    intro Γs Γ st cs oss os h hs hΓ he
    simp only [SArgs] at h
    have ha := getLocals_alike k0 e st cs
    simp only [getArgs, RArgs, getLocals_stack, cutTo_append, ha.width]
    exact ⟨getLocals_res e h.1 hs hΓ he,
      getArgs_res es h.2 (hs.append _) (hΓ.append _) (he.append _)⟩
theorem getRows_res : (es : List Expr) → ∀ ⦃Γs Γ st : Env⦄ ⦃cs oss os⦄,
    SArgs k ar es Γs oss → (∀ e ∈ es, e.width = 1) → Sees st Γs → Sees Γ Γs →
    Enc st cs oss os → RArgs k ar (getRows k0 es st cs) Γ os
  | [] => by intros; simp only [getRows, RArgs]
  | e :: es => by
    intro Γs Γ st cs oss os h hw hs hΓ he
    simp only [SArgs] at h
    have ha := getLocals_alike k0 e st cs
    have hw1 := hw e (by simp)
    simp only [getRows, RArgs, getLocals_stack, cutTo_append, ha.width]
    rw [hw1] at h ⊢
    exact ⟨getLocals_res e h.1 hs hΓ he,
      getRows_res es h.2 (fun e h => hw e (by simp [h])) (hs.append _) (hΓ.append _)
        (he.append _)⟩
theorem getKvs_res : (es : List (String × Expr)) → ∀ ⦃Γs Γ st : Env⦄ ⦃cs oss os⦄,
    SKvs k ar es Γs oss → Sees st Γs → Sees Γ Γs → Enc st cs oss os →
    RKvs k ar (getKvs k0 es st cs) Γ os
  | [] => by intros; simp only [getKvs, RKvs]
  | (key, e) :: es => by
    intro Γs Γ st cs oss os h hs hΓ he
    simp only [SKvs] at h
    simp only [getKvs, RKvs, getLocals_stack, cutTo_append]
    exact ⟨getLocals_res e h.1 hs hΓ he, getKvs_res es h.2 hs hΓ he⟩
theorem getElifs_res : (es : List (Expr × List Expr)) → ∀ ⦃Γs Γ st : Env⦄ ⦃cs oss os⦄,
    SElifs k ar es Γs oss → Sees st Γs → Sees Γ Γs → Enc st cs oss os →
    RElifs k ar (getElifs k0 es st cs) Γ os
  | [] => by intros; simp only [getElifs, RElifs]
  | (c, b) :: es => by
    intro Γs Γ st cs oss os h hs hΓ he
    simp only [SElifs] at h
    simp only [getElifs, RElifs]
    exact ⟨getLocals_res c h.1 hs hΓ he, getSeq_res b h.2.1 hs hΓ he,
      getElifs_res es h.2.2 hs hΓ he⟩
theorem getOptSeq_res : (o : Option (List Expr)) → ∀ ⦃Γs Γ st : Env⦄ ⦃cs oss os⦄,
    SOptSeq k ar o Γs oss → Sees st Γs → Sees Γ Γs → Enc st cs oss os →
    ROptSeq k ar (getOptSeq k0 o st cs) Γ os
  | none => by intros; simp only [getOptSeq, ROptSeq]
  | some es => by
    intro Γs Γ st cs oss os h hs hΓ he
    simp only [SOptSeq] at h
    simp only [getOptSeq, ROptSeq]; exact getSeq_res es h hs hΓ he
theorem getOpt_res : (o : Option Expr) → ∀ ⦃Γs Γ st : Env⦄ ⦃cs oss os⦄,
    SOpt k ar o Γs oss → Sees st Γs → Sees Γ Γs → Enc st cs oss os →
    ROpt k ar (getOpt k0 o st cs) Γ os
  | none => by intros; simp only [getOpt, ROpt]
  | some e => by
    intro Γs Γ st cs oss os h hs hΓ he
    simp only [SOpt] at h
    simp only [getOpt, ROpt]; exact getLocals_res e h hs hΓ he
theorem getItem_res : (it : Item) → ∀ ⦃Γs Γ st : Env⦄ ⦃cs oss os⦄,
    SItem k ar it Γs oss → Sees st Γs → Sees Γ Γs → Enc st cs oss os →
    RItem k ar (getItem k0 it st cs) Γ os
  | .mk name sid cur t ids tids => by
    intro Γs Γ st cs oss os h hs hΓ he
    simp only [SItem] at h
    simp only [getItem, RItem]
    obtain ⟨d, hd⟩ := Option.isSome_iff_exists.1 (dist_isSome.2 h.1)
    rw [hs _ _ hd, hΓ _ _ hd]
    exact ⟨rfl, rfl, getIds_res ids h.2 hs hΓ he⟩
theorem getIds_res : (ids : List Id) → ∀ ⦃Γs Γ st : Env⦄ ⦃cs oss os⦄,
    SIds k ar ids Γs oss → Sees st Γs → Sees Γ Γs → Enc st cs oss os →
    RIds k ar (getIds k0 ids st cs) Γ os
  | [] => by intros; simp only [getIds, RIds]
  | .str _ :: r => by
    intro Γs Γ st cs oss os h hs hΓ he
    simp only [SIds] at h
    simp only [getIds, RIds]; exact getIds_res r h hs hΓ he
  | .num _ :: r => by
    intro Γs Γ st cs oss os h hs hΓ he
    simp only [SIds] at h
    simp only [getIds, RIds]; exact getIds_res r h hs hΓ he
  | .expr e :: r => by
    intro Γs Γ st cs oss os h hs hΓ he
    simp only [SIds] at h
    simp only [getIds, RIds, getLocals_stack, cutTo_append]
    exact ⟨getLocals_res e h.1 hs hΓ he, getIds_res r h.2 (hs.snoc _) (hΓ.snoc _) (he.append _)⟩
end
end

/-! ## Functions and modules -/

variable {c : ECfg} {va ra : Nat → Nat}

theorem resolve_getElem? (m i : Nat) :
    (c.resolve.modules m)[(i : Nat)]? =
      ((c.modules m)[(i : Nat)]?).map fun fn => fn.resolve (ctxAt c (fun _ => 0) (fun _ => 0) m i) := by
  show (resolveAll c m)[(i : Nat)]? = _
  simp [resolveAll]

theorem ctxAt_resolve (m idx) : ctxAt c.resolve va ra m idx = ctxAt c va ra m idx := by
  simp only [ctxAt, Ctx.mk.injEq, and_true]
  funext f
  cases callIndex f idx with
  | none => rfl
  | some i =>
    simp only [resolve_getElem?]
    cases (c.modules m)[i]? <;> rfl

theorem arAt_resolve (m idx) : arAt c.resolve m idx = arAt c m idx := by
  funext f
  simp only [arAt]
  cases callIndex f idx with
  | none => rfl
  | some i =>
    simp only [resolve_getElem?]
    cases (c.modules m)[i]? <;> rfl

theorem modulesWF_resolve (h : ModulesWF c va ra) : ModulesWF c.resolve va ra := by
  intro m idx fn hfn
  rw [resolve_getElem?] at hfn
  cases hx : (c.modules m)[idx]? with
  | none => simp [hx] at hfn
  | some fn' =>
    rw [hx] at hfn
    cases hfn
    rw [ctxAt_resolve]
    exact ⟨((getSeq_alike _ _ _ _).wf _).2 (h m idx fn' hx).1, (h m idx fn' hx).2⟩

theorem modulesRes_resolve (h : ModulesScoped c va ra) : ModulesRes c.resolve va ra := by
  intro m idx fn hfn
  rw [resolve_getElem?] at hfn
  cases hx : (c.modules m)[idx]? with
  | none => simp [hx] at hfn
  | some fn' =>
    rw [hx] at hfn
    cases hfn
    have hs := h m idx fn' hx
    refine ⟨hs.1, ?_⟩
    rw [ctxAt_resolve, arAt_resolve]
    exact getSeq_res (k := ctxAt c va ra m idx) (k0 := ctxAt c (fun _ => 0) (fun _ => 0) m idx) rfl fn'.body hs.2 (.refl _) (.refl _)
      (.nil _ _ _)

end Dyon
