import Verif.Sound.Lines

/-!
# Literals and loops with a result

Lemmas for C81: `vec4`, `mat4` and link literals, and the counting loops that give a value.
-/

namespace Dyon.Sound

open Ty (HasTy)

section
variable [FloatOps] [VecMath] {c : ECfg} {Γ : List (String × Ty)} {m i : Nat} {B : Stack} {s : St}

/-! ## Vectors and matrices -/

omit [FloatOps] [VecMath] in
/-- The arguments of a literal: their values are on the stack, or there is no result yet. -/
theorem vecs_fit {ev : Evl} (msg : String) (limit : Option Nat) (k : EM R) :
    ∀ {args : List Expr} {ts : List Ty} {s : St}, (∀ st ∈ limit, s.stack.length - st + args.length ≤ 4) →
    (∀ vs, List.Forall₂ (fun e t => Fits B ev { s with stack := s.stack ++ vs } e t) args ts) →
    vecArgs ev .right msg limit args k s = .timeout ∨
    ∃ vs, vecArgs ev .right msg limit args k s = k { s with stack := s.stack ++ vs } ∧ Args B ts vs
  | [], ts, s, _, h => by
    have := h []
    cases this
    refine .inr ⟨[], ?_, .nil⟩
    simp [vecArgs]
  | e :: es, ts, s, hl, h => by
    have h0 := h []
    cases h0 with
    | @cons _ t _ ts h1 h2 =>
    have e0 : ({ s with stack := s.stack ++ [] } : St) = s := by simp
    rw [e0] at h1
    rcases h1 with h1 | ⟨v, h1, w, d, ty, -⟩
    · left
      show EM.bind (ev e .right) _ s = _
      simp only [EM.bind, h1]
    · have e1 : vecArgs ev .right msg limit (e :: es) k s =
          vecArgs.vecNext limit (vecArgs ev .right msg limit es k) k { s with stack := s.stack ++ [v] } := by
        show EM.bind (ev e .right) _ s = _
        simp only [EM.bind, h1]
        show EM.bind (pushE v) _ s = _
        simp only [EM.bind, pushE, EM.modify]
      have e2 : vecArgs ev .right msg limit (e :: es) k s = vecArgs ev .right msg limit es k { s with stack := s.stack ++ [v] } := by
        rw [e1]
        unfold vecArgs.vecNext
        show EM.bind EM.get _ _ = _
        simp only [EM.bind, EM.get]
        cases limit with
        | none => rfl
        | some st =>
          have := hl st rfl
          simp only [List.length_cons] at this
          simp only [List.length_append, List.length_cons, List.length_nil]
          split
          · have : es = [] := by
              rw [← List.length_eq_zero_iff]
              omega
            subst this
            rfl
          · rfl
      rw [e2]
      have ih := vecs_fit msg limit k (args := es) (ts := ts) (s := { s with stack := s.stack ++ [v] }) (fun st hst => by
        have := hl st hst
        simp only [List.length_append, List.length_cons, List.length_nil] at this ⊢
        omega) (fun vs => by
        have := h ([v] ++ vs)
        cases this with
        | cons _ h2 => simpa using h2)
      rcases ih with ih | ⟨vs, ih, ha⟩
      · exact .inl ih
      · refine .inr ⟨v :: vs, ?_, .cons ⟨w, d, ty⟩ ha⟩
        rw [ih]
        simp

theorem popNum_fits {st rest : Stack} (hB : st = B ++ rest) {v w : Val} (d : Denotes B v w) (ty : HasTy .f64 w) :
    ∃ y, popNum { s with stack := st ++ [v] } = .ok y { s with stack := st } := by
  obtain ⟨y, sec, rfl⟩ := ty
  refine ⟨y, ?_⟩
  have h1 : popE { s with stack := st ++ [v] } = .ok v { s with stack := st } := by simp [popE]
  show EM.bind popE _ _ = _
  rw [bind_ok h1]
  show EM.bind (derefE v) _ _ = _
  rw [bind_ok (denotes_deref (s := { s with stack := st }) hB d)]
  rfl

theorem popVec_fits {st rest : Stack} (hB : st = B ++ rest) {v w : Val} (d : Denotes B v w) (ty : HasTy .vec4 w) :
    ∃ y, popVec { s with stack := st ++ [v] } = .ok y { s with stack := st } := by
  obtain ⟨y, rfl⟩ : ∃ y, w = .vec4 y := by
    cases w <;> simp [HasTy] at ty
    exact ⟨_, rfl⟩
  refine ⟨y, ?_⟩
  have h1 : popE { s with stack := st ++ [v] } = .ok v { s with stack := st } := by simp [popE]
  show EM.bind popE _ _ = _
  rw [bind_ok h1]
  show EM.bind (derefE v) _ _ = _
  rw [bind_ok (denotes_deref (s := { s with stack := st }) hB d)]
  rfl

/-- A `vec4` literal. -/
theorem vec4_fits {n : Nat} (fr : Framed Γ m i B s) {args : List Expr}
    (ha : ∀ vs, List.Forall₂ (fun e t => Fits B (eval c n) { s with stack := s.stack ++ vs } e t) args [.f64, .f64, .f64, .f64]) :
    Fits B (eval c (n + 1)) s (.vec4 args) .vec4 := by
  obtain ⟨rest, hB⟩ := fr.base
  have hlen : args.length = 4 := by
    have := ha []
    cases this with | cons _ h => cases h with | cons _ h => cases h with | cons _ h => cases h with | cons _ h =>
    cases h
    rfl
  show vec4E (eval c n) args .right s = _ ∨ ∃ v, vec4E (eval c n) args .right s = _ ∧ _
  have e0 : ∀ k, (do
      let s ← EM.get
      vecArgs (eval c n) .right "Expected something from vec4 argument" (some s.stack.length) args k : EM R) s =
      vecArgs (eval c n) .right "Expected something from vec4 argument" (some s.stack.length) args k s := fun k => rfl
  unfold vec4E
  rw [e0]
  generalize hk : (do
    let w ← popNum
    let z ← popNum
    let y ← popNum
    let x ← popNum
    pure (some (.vec4 ⟨FloatOps.toF32 x, FloatOps.toF32 y, FloatOps.toF32 z, FloatOps.toF32 w⟩), .cont) : EM R) = k
  rcases vecs_fit (B := B) "Expected something from vec4 argument" (some s.stack.length) k (s := s) (fun st hst => by
    cases hst
    omega) ha with h | ⟨vs, h, hvs⟩
  · exact .inl h
  · rw [h]
    cases hvs with | @cons _ a _ _ ha hvs =>
    cases hvs with | @cons _ b _ _ hb hvs =>
    cases hvs with | @cons _ c _ _ hc hvs =>
    cases hvs with | @cons _ d _ _ hd hvs =>
    cases hvs
    obtain ⟨wa, da, ta⟩ := ha
    obtain ⟨wb, db, tb⟩ := hb
    obtain ⟨wc, dc, tc⟩ := hc
    obtain ⟨wd, dd, td⟩ := hd
    obtain ⟨y4, h4⟩ := popNum_fits (s := s) (st := s.stack ++ [a, b, c]) (rest := rest ++ [a, b, c]) (by simp [hB]) dd td
    obtain ⟨y3, h3⟩ := popNum_fits (s := s) (st := s.stack ++ [a, b]) (rest := rest ++ [a, b]) (by simp [hB]) dc tc
    obtain ⟨y2, h2⟩ := popNum_fits (s := s) (st := s.stack ++ [a]) (rest := rest ++ [a]) (by simp [hB]) db tb
    obtain ⟨y1, h1⟩ := popNum_fits (s := s) (st := s.stack) (rest := rest) hB da ta
    simp only [List.append_assoc, List.cons_append, List.nil_append] at h4 h3 h2 h1
    refine .inr ⟨.vec4 ⟨FloatOps.toF32 y1, FloatOps.toF32 y2, FloatOps.toF32 y3, FloatOps.toF32 y4⟩, ?_,
      _, denotes_self (by simp), by simp [HasTy], fun _ => rfl⟩
    subst hk
    show EM.bind popNum _ _ = _
    rw [bind_ok h4]
    show EM.bind popNum _ _ = _
    rw [bind_ok h3]
    show EM.bind popNum _ _ = _
    rw [bind_ok h2]
    show EM.bind popNum _ _ = _
    rw [bind_ok h1]
    rfl

/-- A `mat4` literal. -/
theorem mat4_fits {n : Nat} (fr : Framed Γ m i B s) {args : List Expr}
    (ha : ∀ vs, List.Forall₂ (fun e t => Fits B (eval c n) { s with stack := s.stack ++ vs } e t) args [.vec4, .vec4, .vec4, .vec4]) :
    Fits B (eval c (n + 1)) s (.mat4 args) .mat4 := by
  obtain ⟨rest, hB⟩ := fr.base
  show mat4E (eval c n) args .right s = _ ∨ ∃ v, mat4E (eval c n) args .right s = _ ∧ _
  unfold mat4E
  generalize hk : (do
    let w ← popVec
    let z ← popVec
    let y ← popVec
    let x ← popVec
    pure (some (.mat4 ⟨⟨x.x, y.x, z.x, w.x⟩, ⟨x.y, y.y, z.y, w.y⟩, ⟨x.z, y.z, z.z, w.z⟩,
      ⟨x.w, y.w, z.w, w.w⟩⟩), .cont) : EM R) = k
  rcases vecs_fit (B := B) "Expected something from mat4 argument" none k (s := s) (fun st hst => by cases hst) ha with h | ⟨vs, h, hvs⟩
  · exact .inl h
  · rw [h]
    cases hvs with | @cons _ a _ _ ha hvs =>
    cases hvs with | @cons _ b _ _ hb hvs =>
    cases hvs with | @cons _ c _ _ hc hvs =>
    cases hvs with | @cons _ d _ _ hd hvs =>
    cases hvs
    obtain ⟨wa, da, ta⟩ := ha
    obtain ⟨wb, db, tb⟩ := hb
    obtain ⟨wc, dc, tc⟩ := hc
    obtain ⟨wd, dd, td⟩ := hd
    obtain ⟨y4, h4⟩ := popVec_fits (s := s) (st := s.stack ++ [a, b, c]) (rest := rest ++ [a, b, c]) (by simp [hB]) dd td
    obtain ⟨y3, h3⟩ := popVec_fits (s := s) (st := s.stack ++ [a, b]) (rest := rest ++ [a, b]) (by simp [hB]) dc tc
    obtain ⟨y2, h2⟩ := popVec_fits (s := s) (st := s.stack ++ [a]) (rest := rest ++ [a]) (by simp [hB]) db tb
    obtain ⟨y1, h1⟩ := popVec_fits (s := s) (st := s.stack) (rest := rest) hB da ta
    simp only [List.append_assoc, List.cons_append, List.nil_append] at h4 h3 h2 h1
    refine .inr ⟨.mat4 ⟨⟨y1.x, y2.x, y3.x, y4.x⟩, ⟨y1.y, y2.y, y3.y, y4.y⟩, ⟨y1.z, y2.z, y3.z, y4.z⟩, ⟨y1.w, y2.w, y3.w, y4.w⟩⟩, ?_,
      _, denotes_self (by simp), by simp [HasTy], fun _ => rfl⟩
    subst hk
    show EM.bind popVec _ _ = _
    rw [bind_ok h4]
    show EM.bind popVec _ _ = _
    rw [bind_ok h3]
    show EM.bind popVec _ _ = _
    rw [bind_ok h2]
    show EM.bind popVec _ _ = _
    rw [bind_ok h1]
    rfl

/-! ## Links -/

omit [FloatOps] [VecMath] in
theorem linkPush_fits {T : Ty} {w : Val} (hT : Linked T) (hw : HasTy T w) (l : List Link.Scalar) : ∃ l', linkPush l w = .ok l' := by
  rcases hT with rfl | rfl | rfl | rfl <;> cases w <;> simp [HasTy] at hw <;> exact ⟨_, rfl⟩

theorem linkLit_fits {ev : Evl} (hB : ∃ rest, s.stack = B ++ rest) : ∀ {es : List Expr} {ts : List Ty} (l : List Link.Scalar),
    (∀ t ∈ ts, Linked t) → List.Forall₂ (fun e t => Fits B ev s e t) es ts →
    linkLit ev es l s = .timeout ∨ ∃ l', linkLit ev es l s = .ok (true, (some (.link l'), .cont)) s
  | [], _, l, _, _ => .inr ⟨l, rfl⟩
  | e :: es, _, l, hl, h => by
    cases h with
    | @cons _ t _ ts h1 h2 =>
    obtain ⟨rest, hB'⟩ := hB
    rcases h1 with h1 | ⟨v, h1, w, d, ty, -⟩
    · left
      show EM.bind (ev e .right) _ s = _
      simp only [EM.bind, h1]
    · obtain ⟨l', hl'⟩ := linkPush_fits (hl t (by simp)) ty l
      have e1 : linkLit ev (e :: es) l s = linkLit ev es l' s := by
        show EM.bind (ev e .right) _ s = _
        simp only [EM.bind, h1]
        show EM.bind (derefE v) _ s = _
        rw [bind_ok (denotes_deref hB' d), hl']
      rw [e1]
      exact linkLit_fits ⟨rest, hB'⟩ l' (fun t ht => hl t (by simp [ht])) h2

/-- A link literal. -/
theorem link_fits {n : Nat} (fr : Framed Γ m i B s) {es : List Expr} {ts : List Ty} (hl : ∀ t ∈ ts, Linked t)
    (h : List.Forall₂ (fun e t => Fits B (eval c n) s e t) es ts) : Fits B (eval c (n + 1)) s (.link es) .link := by
  show linkE (eval c n) es s = _ ∨ ∃ v, linkE (eval c n) es s = _ ∧ _
  unfold linkE
  split
  · exact .inr ⟨.link [], rfl, _, denotes_self (by simp), by simp [HasTy], fun _ => rfl⟩
  · rcases linkLit_fits fr.base [] hl h with h | ⟨l, h⟩
    · left
      unfold scope3
      show EM.bind EM.get _ s = _
      simp only [EM.bind, EM.get]
      exact bind_timeout h
    · refine .inr ⟨.link l, ?_, _, denotes_self (by simp), by simp [HasTy], fun _ => rfl⟩
      unfold scope3
      show EM.bind EM.get _ s = _
      simp only [EM.bind, EM.get]
      show EM.bind (linkLit _ _ _) _ s = _
      rw [bind_ok h]
      show Ev.ok _ _ = _
      simp

/-! ## Loops with a result -/

/-- What the loop does with the value of its body. -/
theorem collects_step {k : ForKind} {V T : Ty} (h : Collects k V T) {ind acc v w : Val} {B rest : Stack} (hB : s.stack = B ++ rest)
    (ha : HasTy T acc) (d : Denotes B v w) (hw : HasTy V w) :
    ∃ acc' b, k.step ind (some acc) (some v) s = .ok (some acc', b) s ∧ HasTy T acc' := by
  have hd := denotes_deref hB d
  have key : ∀ {g : Val → EM (Option Val × Bool)} {acc' b}, k.step ind (some acc) (some v) s = EM.bind (derefE v) g s →
      g w s = .ok (some acc', b) s → HasTy T acc' →
      ∃ acc' b, k.step ind (some acc) (some v) s = .ok (some acc', b) s ∧ HasTy T acc' := by
    intro g acc' b h1 h2 h3
    refine ⟨acc', b, ?_, h3⟩
    rw [h1, bind_ok hd, h2]
  cases h with
  | sum | prod =>
    obtain ⟨a, sa, rfl⟩ := ha
    obtain ⟨y, sy, rfl⟩ := hw
    exact key rfl rfl ⟨_, _, rfl⟩
  | min | max =>
    obtain ⟨a, sa, rfl⟩ := ha
    obtain ⟨y, sy, rfl⟩ := hw
    have pick : ∀ b : Bool, ∃ acc' q, (if b then pure (some (Val.f64 y (addSecret sy ind)), false) else pure (some (Val.f64 a sa), false) :
        EM (Option Val × Bool)) s = .ok (some acc', q) s ∧ HasTy .f64 acc' := by
      intro b
      cases b
      · exact ⟨_, _, rfl, _, _, rfl⟩
      · exact ⟨_, _, rfl, _, _, rfl⟩
    obtain ⟨acc', q, h1, h2⟩ := pick _
    exact key rfl h1 h2
  | any | all =>
    cases acc <;> simp [HasTy] at ha
    cases w <;> simp [HasTy] at hw
    rename_i y sy
    cases y
    · exact key rfl rfl (by simp [HasTy])
    · exact key rfl rfl (by simp [HasTy])
  | sumVec4 | prodVec4 =>
    cases acc <;> simp [HasTy] at ha
    cases w <;> simp [HasTy] at hw
    exact key rfl rfl (by simp [HasTy])

theorem collects_init {k : ForKind} {V T : Ty} (h : Collects k V T) : ∃ a, k.init = some a ∧ HasTy T a ∧ Flat T ∧ Flat V ∧ k ≠ .linkFor := by
  cases h with
  | any | all => exact ⟨_, rfl, by simp [HasTy], .bool, .bool, by simp⟩
  | sumVec4 | prodVec4 => exact ⟨_, rfl, by simp [HasTy], .vec4, .vec4, by simp⟩
  | _ => exact ⟨_, rfl, ⟨_, _, rfl⟩, .f64, .f64, by simp⟩

theorem Framed.whole (fr : Framed Γ m i B s) : Framed Γ m i s.stack s := by
  obtain ⟨h1, h2, ⟨rest, h3⟩, call, h4, h5, h6, h7⟩ := fr
  refine ⟨h1, h2, ⟨[], by simp⟩, call, h4, h5, h6, fun x T h => ?_⟩
  obtain ⟨id, v, w, a, b, d, e⟩ := h7 x T h
  refine ⟨id, v, w, a, ?_, by rw [h3]; exact denotes_append _ d, e⟩
  rw [h3, List.getElem?_append_left (List.getElem?_eq_some_iff.1 b).1]; exact b

/-- One round. -/
theorem fold_round (fr : Framed Γ m i B s) {ev : Evl} {k : ForKind} {V T : Ty} (hk : Collects k V T) {x : String} {e : Expr}
    {label : Option String} (hE : ∀ s', Framed (extend Γ x .f64) m i s'.stack s' → Fits s'.stack ev s' e V) (stop : F64)
    {acc : Val} (ha : HasTy T acc) (y : F64) (sec : Option (List Val)) :
    countRound (s.stack.length + 1) (s.locals.length + 1) stop
      (fun a ind => bodyRound ev [e] label (k.step (.ofF64 ind)) a) (some acc) (St.with1 s x (.f64 y sec)) = .timeout ∨
    (∃ acc' y' sec', countRound (s.stack.length + 1) (s.locals.length + 1) stop
      (fun a ind => bodyRound ev [e] label (k.step (.ofF64 ind)) a) (some acc) (St.with1 s x (.f64 y sec)) =
        .ok (.inl (some acc')) (St.with1 s x (.f64 y' sec')) ∧ HasTy T acc') ∨
    ∃ acc' y' sec', countRound (s.stack.length + 1) (s.locals.length + 1) stop
      (fun a ind => bodyRound ev [e] label (k.step (.ofF64 ind)) a) (some acc) (St.with1 s x (.f64 y sec)) =
        .ok (.inr (true, (some acc', (none, .cont)))) (St.with1 s x (.f64 y' sec')) ∧ HasTy T acc' := by
  set s1 := St.with1 s x (.f64 y sec) with hs1
  have hslot : slotE (s.stack.length + 1 - 1) s1 = .ok (.f64 y sec) s1 := by
    simp [slotE, hs1, St.with1]
  have fr1 : Framed (extend Γ x .f64) m i s1.stack s1 := fr.whole.declare rfl x (by simp) ⟨_, _, rfl⟩
  simp only [countRound_eq hslot]
  split
  · rcases hE s1 fr1 with h | ⟨v, h, w, d, ty, -⟩
    · refine .inl (bind_timeout ?_)
      unfold bodyRound
      exact bind_timeout (block_timeout h)
    · right
      obtain ⟨acc', b, hstep, ha'⟩ := collects_step (s := s1) (ind := .ofF64 y) (rest := []) hk (by simp) ha d ty
      have hround : bodyRound ev [e] label (k.step (.ofF64 y)) (some acc) s1 =
          .ok (if b then .stop (some acc') .cont else .go (some acc')) s1 := by
        unfold bodyRound
        show EM.bind (block ev [e]) _ s1 = _
        rw [bind_ok (block_one h)]
        show EM.bind (k.step _ _ _) _ s1 = _
        rw [bind_ok hstep]
        rfl
      rw [bind_ok hround]
      cases b with
      | true => exact .inr ⟨acc', y, sec, rfl, ha'⟩
      | false =>
        refine .inl ⟨acc', FloatOps.add y F64.one, sec, ?_, ha'⟩
        have hinc : incSlot (s.stack.length + 1 - 1) s1 = .ok () (St.with1 s x (.f64 (FloatOps.add y F64.one) sec)) := by
          unfold incSlot
          show EM.bind (slotE _) _ s1 = _
          rw [bind_ok hslot]
          simp [writeE, readPlace, hs1, St.with1, Val.atPath, writePlace, Val.setPath]
        show EM.bind (incSlot _) _ s1 = _
        rw [bind_ok hinc]
        show EM.bind (truncStack _) _ _ = _
        simp only [EM.bind, truncStack, EM.modify]
        show EM.bind (truncLocals _) _ _ = _
        simp only [EM.bind, truncLocals, EM.modify]
        show Ev.ok _ _ = _
        have e1 : ∀ (v : Val), (s.stack ++ [v]).take (s.stack.length + 1) = s.stack ++ [v] := fun v =>
          List.take_of_length_le (by simp)
        have e2 : ∀ (v : String × Nat), (s.locals ++ [v]).take (s.locals.length + 1) = s.locals ++ [v] := fun v =>
          List.take_of_length_le (by simp)
        simp [St.with1, e1, e2]
  · exact .inr (.inr ⟨acc, y, sec, rfl, ha⟩)

/-- The rounds, after start and end are known. -/
def foldInner (n : Nat) (ev : Evl) (k : ForKind) (x : String) (e : Expr) (label : Option String) (acc : Option Val) (a b : F64) :
    EM (Bool × (Option Val × R)) := do
  let s ← EM.get
  pushLocal x s.stack.length
  pushE (.ofF64 a)
  loopN n (countRound (s.stack.length + 1) (s.locals.length + 1) b (fun a ind => bodyRound ev [e] label (k.step (.ofF64 ind)) a)) acc

theorem foldInner_runs (fr : Framed Γ m i B s) (n : Nat) {ev : Evl} {k : ForKind} {V T : Ty} (hk : Collects k V T) {x : String} {e : Expr}
    {label : Option String} (hE : ∀ s', Framed (extend Γ x .f64) m i s'.stack s' → Fits s'.stack ev s' e V)
    {acc : Val} (ha : HasTy T acc) (a b : F64) :
    foldInner n ev k x e label (some acc) a b s = .timeout ∨
    ∃ acc' y sec, foldInner n ev k x e label (some acc) a b s = .ok (true, (some acc', (none, .cont))) (St.with1 s x (.f64 y sec)) ∧
      HasTy T acc' := by
  have e1 : foldInner n ev k x e label (some acc) a b s =
      loopN n (countRound (s.stack.length + 1) (s.locals.length + 1) b (fun a ind => bodyRound ev [e] label (k.step (.ofF64 ind)) a)) (some acc)
        (St.with1 s x (.ofF64 a)) := by
    unfold foldInner
    show EM.bind EM.get _ s = _
    simp only [EM.bind, EM.get]
    show EM.bind (pushLocal _ _) _ s = _
    simp only [EM.bind, pushLocal, EM.modify]
    show EM.bind (pushE _) _ _ = _
    simp only [EM.bind, pushE, EM.modify]
    rfl
  rw [e1]
  rcases loopN_runs (fun (acc : Option Val) st => ∃ acc' y sec, acc = some acc' ∧ st = St.with1 s x (.f64 y sec) ∧ HasTy T acc')
    (fun (q : Bool × (Option Val × R)) st => ∃ acc' y sec, q = (true, (some acc', (none, .cont))) ∧ st = St.with1 s x (.f64 y sec) ∧ HasTy T acc')
    (body := countRound (s.stack.length + 1) (s.locals.length + 1) b (fun a ind => bodyRound ev [e] label (k.step (.ofF64 ind)) a))
    (fun acc st h => by
      obtain ⟨acc, y, sec, rfl, rfl, ha⟩ := h
      rcases fold_round fr hk (label := label) hE b ha y sec with h | ⟨acc', y', sec', h, ha'⟩ | ⟨acc', y', sec', h, ha'⟩
      · exact .inl h
      · exact .inr (.inl ⟨_, _, h, acc', y', sec', rfl, rfl, ha'⟩)
      · exact .inr (.inr ⟨_, _, h, acc', y', sec', rfl, rfl, ha'⟩)) n (some acc) _ ⟨acc, a, none, rfl, rfl, ha⟩ with h | ⟨q, st, h, acc', y, sec, rfl, rfl, ha'⟩
  · exact .inl h
  · exact .inr ⟨acc', y, sec, h, ha'⟩

/-- A counting loop that gives a value. -/
theorem fold_fits {n : Nat} (fr : Framed Γ m i B s) {k : ForKind} {V T : Ty} (hk : Collects k V T) {x : String} {e : Expr}
    {label : Option String} {start : Option Expr} {stop : Expr} (h1 : ∀ a ∈ start, Fits B (eval c n) s a .f64)
    (h2 : Fits B (eval c n) s stop .f64)
    (hE : ∀ s', Framed (extend Γ x .f64) m i s'.stack s' → Fits s'.stack (eval c n) s' e V) :
    Fits B (eval c (n + 1)) s (.forN k x start stop [e] label) T := by
  obtain ⟨acc, hinit, hacc, hT, -, hne⟩ := collects_init hk
  obtain ⟨rest, hB⟩ := fr.base
  have e0 : eval c (n + 1) (.forN k x start stop [e] label) .right s =
      EM.bind (scope2 (wantStart (eval c n) start (fun x => pure (false, (some acc, (x, .ret)))) fun a =>
        wantNum (eval c n) stop "Expected number from for end" (fun x => pure (false, (some acc, (x, .ret)))) fun b =>
          foldInner n (eval c n) k x e label (some acc) a b)) (fun r => pure (accResult r)) s := by
    have : eval c (n + 1) (.forN k x start stop [e] label) .right s = forNLoop n (eval c n) k x start stop [e] label s := by
      cases k <;> first | rfl | exact absurd rfl hne
    rw [this]
    unfold forNLoop countLoop
    rw [hinit]
    rfl
  have hstop : ∀ a, wantNum (eval c n) stop "Expected number from for end" (fun x => pure (false, (some acc, ((x, .ret) : R)))) (fun b =>
      foldInner n (eval c n) k x e label (some acc) a b) s = .timeout ∨
      ∃ acc' y sec, wantNum (eval c n) stop "Expected number from for end" (fun x => pure (false, (some acc, ((x, .ret) : R)))) (fun b =>
      foldInner n (eval c n) k x e label (some acc) a b) s = .ok (true, (some acc', (none, .cont))) (St.with1 s x (.f64 y sec)) ∧ HasTy T acc' := by
    intro a
    rcases wantNum_fits hB h2 "Expected number from for end" (fun x => pure (false, (some acc, ((x, .ret) : R)))) (fun b =>
      foldInner n (eval c n) k x e label (some acc) a b) with h | ⟨b, h⟩
    · exact .inl h
    · rw [h]
      exact foldInner_runs fr n hk hE hacc a b
  have hstart : wantStart (eval c n) start (fun x => pure (false, (some acc, ((x, .ret) : R)))) (fun a =>
        wantNum (eval c n) stop "Expected number from for end" (fun x => pure (false, (some acc, ((x, .ret) : R)))) fun b =>
          foldInner n (eval c n) k x e label (some acc) a b) s = .timeout ∨
      ∃ acc' y sec, wantStart (eval c n) start (fun x => pure (false, (some acc, ((x, .ret) : R)))) (fun a =>
        wantNum (eval c n) stop "Expected number from for end" (fun x => pure (false, (some acc, ((x, .ret) : R)))) fun b =>
          foldInner n (eval c n) k x e label (some acc) a b) s = .ok (true, (some acc', (none, .cont))) (St.with1 s x (.f64 y sec)) ∧
          HasTy T acc' := by
    cases start with
    | none => exact hstop F64.zero
    | some a =>
      unfold wantStart
      rcases wantNum_fits hB (h1 a rfl) "Expected number from for start" (fun x => pure (false, (some acc, ((x, .ret) : R)))) (fun a =>
        wantNum (eval c n) stop "Expected number from for end" (fun x => pure (false, (some acc, ((x, .ret) : R)))) fun b =>
          foldInner n (eval c n) k x e label (some acc) a b) with h | ⟨a, h⟩
      · exact .inl h
      · simp only [h]
        exact hstop a
  rcases hstart with h | ⟨acc', y, sec, h, ha'⟩
  · left
    rw [e0]
    exact bind_timeout (scope2_timeout h)
  · refine .inr ⟨acc', ?_, acc', denotes_self (hT.not_ref ha'), ha', fun _ => rfl⟩
    rw [e0, bind_ok (scope2_cut h)]
    show Ev.ok _ _ = _
    simp [St.with1, accResult]

end

end Dyon.Sound
