import Verif.Check.TypesDemo
import Verif.Types.RefineProps

/-!
# C06, C64: the types of calls with extra signatures in a file
-/

namespace Dyon.Check

open Dyon.Ty

namespace Spec

/-- The node `s` of a file is the extra signature `σ`: its type variables, the types of its
arguments and the type that it returns are written there. -/
structure Signature (ns : Nodes) (s : Nat) (σ : Sig) : Prop where
  names : (ns.at s).names = σ.names
  args : (((ns.at s).children.filter fun k => (ns.at k).kind = .tyArg).map fun k => (ns.at k).ty) = σ.args.map some
  ret : ∃ r, ns.child s .tyRet = some r ∧ (ns.at r).ty = some σ.ret

/-- The expression `e` has the type `t` for a reason that can be read off the file. -/
inductive KnownType (env : Env) (ns : Nodes) : Nat → Ty → Prop
  /-- a number, a text or a boolean value -/
  | literal {e : Nat} {t : Ty} : (ns.at e).kind = .val → (ns.at e).children = [] → (ns.at e).ty = some t → KnownType env ns e t
  /-- a vector, matrix, object, array, link or swizzle, or a loop that sums, counts or compares -/
  | given {e : Nat} {t : Ty} : (ns.at e).kind.fixed = true → (ns.at e).kind ≠ .fn → (ns.at e).ty = some t → KnownType env ns e t
  /-- a parameter without properties -/
  | parameter {e d : Nat} {P : Ty} : (ns.at e).ty = none → (ns.at e).kind = .item → (ns.at e).children = [] →
      (ns.at e).declaration = some d → (ns.at d).kind = .arg → (ns.at d).ty = some P →
      KnownType env ns e ((ns.at e).innerType P)
  /-- a call of a function of the file without extra signatures -/
  | call {e f : Nat} {P : Ty} : (ns.at e).ty = none → (ns.at e).kind = .call → (ns.at e).declaration = some f →
      (ns.at f).kind = .fn → (ns.at f).ty = some P → (∀ k ∈ (ns.at f).children, (ns.at k).kind ≠ .ty) →
      KnownType env ns e P
  /-- a call of a function of another module or of the host without extra signatures -/
  | host {e i : Nat} {n : String} {d : Mod.Dfn} : (ns.at e).ty = none → (ns.at e).kind = .call →
      (ns.at e).declaration = none → (ns.at e).name = some n →
      ((ns.at e).alias = none ∧ env.prelude.functions n = some i ∨
        ∃ a, (ns.at e).alias = some a ∧ env.aliases.get a n = some (.loaded i)) →
      env.prelude.list[i]? = some d → d.ext = [] → KnownType env ns e d.ret
  /-- an expression around such an expression -/
  | around {e e' : Nat} {t : Ty} : (ns.at e).ty = none → (ns.at e).kind = .expr → (ns.at e).children = [e'] →
      KnownType env ns e' t → KnownType env ns e ((ns.at e).innerType t)

/-- The arguments of the call `c` are the expressions `es`. -/
def Arguments (ns : Nodes) (c : Nat) (es : List Nat) : Prop :=
  ((ns.at c).children.filter fun a => (ns.at a).kind = .callArg).map (fun a => (ns.at a).children) = es.map ([·])

end Spec

open Spec

/-! ## The signatures of a declared function -/

/-- What `refine::declaration` does, in terms of what `refine::prelude` does. -/
def RefinedDecl.of : Refined → RefinedDecl
  | .found t => .found (some t)
  | .delayed => .delayed
  | .mismatch => .mismatch
  | .bindError _ => .bindError
  | .unchanged => .unchanged

theorem matchTys_eq (names : List String) : ∀ (args : List (Option Ty)) (tys : List Ty) (vars : Ty.Vars),
    matchTys names args (tys.map some) vars = matchArgs names args tys vars
  | [], tys, vars => by cases tys <;> rfl
  | a :: args, [], vars => by cases a <;> rfl
  | a :: args, t :: tys, vars => by
    cases a with
    | none => rfl
    | some a =>
      simp only [List.map_cons, matchTys, matchArgs]
      cases t.bindTyVars a names vars with
      | error e => rfl
      | ok r =>
        simp only []
        rw [matchTys_eq names args tys r.2]

theorem refineDecl_sigs {ns : Nodes} (args : List (Option Ty)) : ∀ {tys : List Nat} {sigs : List Sig} {count m : Nat},
    List.Forall₂ (Signature ns) tys sigs → (0 < m ↔ 0 < count + sigs.length) →
    ns.refineDecl args count tys = .of (refineLoop args sigs m)
  | [], _, count, m, .nil, hm => by
    simp only [List.length_nil, Nat.add_zero] at hm
    simp only [Nodes.refineDecl, refineLoop]
    by_cases h : 0 < count
    · rw [if_pos h, if_pos (hm.2 h)]; rfl
    · rw [if_neg h, if_neg (fun h' => h (hm.1 h'))]; rfl
  | s :: tys, σ :: sigs, count, m, .cons h hs, hm => by
    simp only [Nodes.refineDecl, refineLoop, h.names, h.args, matchTys_eq]
    obtain ⟨r, hr, ht⟩ := h.ret
    cases matchArgs σ.names args σ.args (List.replicate σ.names.length none) with
    | error e => rfl
    | ambiguous => rfl
    | noMatch => exact refineDecl_sigs args hs (by simp only [List.length_cons] at hm; omega)
    | all vars => simp only [hr, ht]; rfl

/-- **C06** The extra signatures of a function of the file work like those of a function of the
host: for all arguments and all signatures that are written in the file. -/
theorem C06_declared {ns : Nodes} {tys : List Nat} {sigs : List Sig} (h : List.Forall₂ (Signature ns) tys sigs)
    (args : List (Option Ty)) : ns.refineDecl args 0 tys = match refinePrelude args sigs with
      | .found t => .found (some t)
      | .delayed => .delayed
      | .mismatch => .mismatch
      | .bindError _ => .bindError
      | .unchanged => .unchanged := by
  rw [refineDecl_sigs args h (m := sigs.length) (by omega)]
  rfl

/-! ## Types that are not known yet -/

/-- Some types of `ys` are missing in `xs`. -/
def LessKnown (xs ys : List (Option Ty)) : Prop := List.Forall₂ (fun x y => x = none ∨ x = y) xs ys

theorem matchArgs_below (names : List String) : ∀ {xs ys : List (Option Ty)}, LessKnown xs ys →
    ∀ (tys : List Ty) (vars : Ty.Vars), matchArgs names xs tys vars = .ambiguous ∨
      matchArgs names xs tys vars = matchArgs names ys tys vars
  | _, _, .nil, tys, vars => Or.inr rfl
  | _, _, .cons (a := x) (b := y) h hs, [], vars => by
    refine Or.inr ?_
    cases x <;> cases y <;> rfl
  | _, _, .cons (a := x) (b := y) h hs, t :: tys, vars => by
    rcases h with rfl | rfl
    · exact Or.inl rfl
    · cases x with
      | none => exact Or.inl rfl
      | some a =>
        simp only [matchArgs]
        split
        · exact Or.inr rfl
        · split
          · split
            · exact Or.inl rfl
            · exact matchArgs_below names hs tys _
          · exact Or.inr rfl

theorem refineLoop_below {xs ys : List (Option Ty)} (h : LessKnown xs ys) : ∀ (sigs : List Sig) (m : Nat),
    refineLoop xs sigs m = .delayed ∨ refineLoop xs sigs m = refineLoop ys sigs m
  | [], m => Or.inr rfl
  | σ :: sigs, m => by
    simp only [refineLoop]
    rcases matchArgs_below σ.names h σ.args (List.replicate σ.names.length none) with h1 | h1
    · rw [h1]; exact Or.inl rfl
    · rw [h1]
      split
      · exact Or.inr rfl
      · exact Or.inl rfl
      · exact refineLoop_below h sigs m
      · exact Or.inr rfl

/-- **C06** What a call gets from the types of its arguments that are known already does not
change when the others become known; only a call that was postponed is decided later. -/
theorem C06_early {xs ys : List (Option Ty)} (h : List.Forall₂ (fun x y => x = none ∨ x = y) xs ys) (ext : List Sig) :
    refinePrelude xs ext = .delayed ∨ refinePrelude xs ext = refinePrelude ys ext :=
  refineLoop_below h ext _

/-! ## Types that stay -/

/-- No expression of known type has another type. -/
def KnownOk (env : Env) (ns o : Nodes) : Prop :=
  ∀ e t, KnownType env ns e t → (o.at e).ty = none ∨ (o.at e).ty = some t

/-- A visit of the node `e` gives it no other type than `t`. -/
structure SettledTypes (env : Env) (ns : Nodes) (e : Nat) (t : Ty) : Prop where
  first : (ns.at e).ty = none ∨ (ns.at e).ty = some t
  kind : (ns.at e).kind ≠ .left ∧ (ns.at e).kind ≠ .fn ∧ (ns.at e).kind ≠ .closure
  visit : ∀ out errs v t', Shape ns out → Stable ns out → KnownOk env ns out →
    out.visit env errs e = .ok v → v.out = .ty (some t') → t' = t

theorem settledTypes_step {env : Env} {ns : Nodes} {e : Nat} {t : Ty} (h : SettledTypes env ns e t) {s s' : Spread} {j : Nat}
    (hsh : Shape ns s.nodes) (hst : Stable ns s.nodes) (hs : step env s j = .ok s') (hok : KnownOk env ns s.nodes)
    (hI : (s.nodes.at e).ty = none ∨ (s.nodes.at e).ty = some t) :
    (s'.nodes.at e).ty = none ∨ (s'.nodes.at e).ty = some t := by
  rcases (step_stepped hs).ty e with h1 | h1 | h1 | h1
  · rw [h1]; exact hI
  · rw [hsh.kind] at h1; exact absurd h1 h.kind.1
  · rw [hsh.kind] at h1
    rcases h1.1 with h1 | h1
    · exact absurd h1 h.kind.2.1
    · exact absurd h1 h.kind.2.2
  · obtain ⟨rfl, -⟩ := h1
    simp only [step] at hs
    split at hs
    · cases hs
    · rename_i v hv
      have hvn : (v.nodes.at e).ty = (s.nodes.at e).ty := by
        rcases (visit_visited hv).aside.2 e with h1 | h1 | h1
        · exact h1
        · rw [hsh.kind] at h1; exact absurd h1 h.kind.1
        · rw [hsh.kind] at h1
          rcases h1.1 with h1 | h1
          · exact absurd h1 h.kind.2.1
          · exact absurd h1 h.kind.2.2
      split at hs
      · cases hs; simp only [hvn]; exact hI
      · cases hs; simp only [hvn]; exact hI
      · cases hs; simp only [hvn]; exact hI
      · rename_i t' ho
        have := h.visit _ _ _ _ hsh hst hok hv ho
        subst this
        cases hs
        simp only [at_setTy]
        split
        · exact Or.inr rfl
        · rw [hvn]; exact hI

theorem known_plain {env : Env} {ns : Nodes} {e : Nat} {t : Ty} (h : KnownType env ns e t) :
    (ns.at e).itemIds = false ∧ (ns.at e).kind ≠ .ret ∧ (ns.at e).kind ≠ .left := by
  have key : (ns.at e).kind ≠ .item → (ns.at e).itemIds = false := by
    intro h; simp [Node.itemIds, h]
  cases h with
  | literal hk => exact ⟨key (by rw [hk]; decide), by rw [hk]; decide, by rw [hk]; decide⟩
  | given hk =>
    refine ⟨key ?_, ?_, ?_⟩ <;> (intro h; rw [h] at hk; cases hk)
  | parameter _ hk hc => exact ⟨by simp [Node.itemIds, hc], by rw [hk]; decide, by rw [hk]; decide⟩
  | call _ hk => exact ⟨key (by rw [hk]; decide), by rw [hk]; decide, by rw [hk]; decide⟩
  | host _ hk => exact ⟨key (by rw [hk]; decide), by rw [hk]; decide, by rw [hk]; decide⟩
  | around _ hk => exact ⟨key (by rw [hk]; decide), by rw [hk]; decide, by rw [hk]; decide⟩

theorem known_settled {env : Env} {ns : Nodes} {e : Nat} {t : Ty} (h : KnownType env ns e t) : SettledTypes env ns e t := by
  cases h with
  | literal hk hc ht =>
    refine ⟨Or.inr ht, by rw [hk]; decide, ?_⟩
    intro out errs v t' hsh hst _ hv ho
    simp only [Nodes.visit, hsh.kind, hk] at hv
    simp only [Nodes.visitWrap, hsh.children, hc] at hv
    cases hv; cases ho
  | given hk hf ht =>
    refine ⟨Or.inr ht, ⟨?_, hf, ?_⟩, ?_⟩
    · intro h; rw [h] at hk; cases hk
    · intro h; rw [h] at hk; cases hk
    · intro out errs v t' hsh hst _ hv ho
      exact absurd ho ((visit_fixed (by rw [hsh.kind]; exact hk) (by rw [hst e t hk ht]; simp) hv).2 t')
  | parameter hn hk hc hd hdk hP =>
    refine ⟨Or.inl hn, by rw [hk]; decide, ?_⟩
    intro out errs v t' hsh hst _ hv ho
    have hids : (out.at e).itemIds = false := by rw [hsh.itemIds]; simp [Node.itemIds, hc]
    simp only [Nodes.visit, hsh.kind, hk] at hv
    simp only [Nodes.visitItem, hids, hsh.declaration, hd, hsh.kind, hdk, hst _ _ (by rw [hdk]; rfl) hP,
      hsh.innerType, Kind.counts] at hv
    simp at hv
    subst hv
    simpa using ho.symm
  | @call _ f P hn hk hd hf hP he =>
    refine ⟨Or.inl hn, by rw [hk]; decide, ?_⟩
    intro out errs v t' hsh hst _ hv ho
    have hnil : ((ns.at f).children.filter fun k => decide ((out.at k).kind = .ty)) = [] := by
      rw [List.filter_eq_nil_iff]
      intro k hk
      simpa [hsh.kind] using he k hk
    simp only [Nodes.visit, hsh.kind, hk] at hv
    simp only [Nodes.visitCall, hsh.declaration, hd, hsh.children, hnil, Nodes.refineDecl,
      hst _ _ (by rw [hf]; rfl) hP] at hv
    simp at hv
    subst hv
    simp only [Out.ty.injEq] at ho
    split at ho
    · simpa using ho.symm
    · cases ho
  | @host _ i n d hn hk hd hnm hi hl he =>
    refine ⟨Or.inl hn, by rw [hk]; decide, ?_⟩
    intro out errs v t' hsh hst _ hv ho
    have hf : out.hostFn env e = some i := by
      rw [hsh.hostFn]
      simp only [Nodes.hostFn, hnm]
      rcases hi with ⟨h1, h2⟩ | ⟨a, h1, h2⟩
      · simp [h1, h2]
      · simp [h1, h2]
    simp only [Nodes.visit, hsh.kind, hk] at hv
    simp only [Nodes.visitCall, hsh.declaration, hd, hsh.name, hnm, hf, hl, Nodes.visitHost, he] at hv
    simp at hv
    subst hv
    simpa using ho.symm
  | @around _ e' t hn hk hc hin =>
    refine ⟨Or.inl hn, by rw [hk]; decide, ?_⟩
    intro out errs v t' hsh hst hok hv ho
    obtain ⟨h1, h2, -⟩ := known_plain hin
    have h3 := (takes_visit (.around (by rw [hk]; trivial) hc) hsh h1 (Or.inl h2) hv).2.2.1 t' ho
    rcases hok e' t hin with h4 | h4
    · rw [h4] at h3; cases h3
    · rw [h4] at h3; simpa using h3.symm

theorem known_step {env : Env} {ns : Nodes} {s s' : Spread} {j : Nat} (hsh : Shape ns s.nodes)
    (hst : Stable ns s.nodes) (hs : step env s j = .ok s') (hok : KnownOk env ns s.nodes) : KnownOk env ns s'.nodes :=
  fun e t hk => settledTypes_step (known_settled hk) hsh hst hs hok (hok e t hk)

theorem known_accept {env : Env} {fuel : Nat} {ns out : Nodes} (h : ns.typecheck env fuel = .accept out)
    (htree : Tree ns) {e : Nat} {t : Ty} (he : e < ns.length) (hk : KnownType env ns e t) :
    (out.at e).ty = some t := by
  induction hk with
  | @literal e t hk hc ht =>
    refine accept_inv (Inv := fun out => (out.at e).ty = some t) h ?_ ht
    intro s s' j hsh hst hs hI
    rcases (step_stepped hs).ty e with h2 | h2 | h2 | h2
    · rw [h2, hI]
    · rw [hsh.kind, hk] at h2; cases h2
    · rw [hI] at h2; cases h2.2
    · obtain ⟨rfl, -⟩ := h2
      simp only [step] at hs
      split at hs
      · cases hs
      · rename_i v hv
        simp only [Nodes.visit, hsh.kind, hk] at hv
        simp only [Nodes.visitWrap, hsh.children, hc] at hv
        cases hv; cases hs
        exact hI
  | given hk hf ht => exact (accept_shape h).2 _ _ hk ht
  | parameter hn hk hc hd hdk hP => exact C64_parameter h he hk hc hd hdk hP
  | call hn hk hd hf hP hx => exact C64_call h he hk hn hd hf hP hx
  | host hn hk hd hnm hi hl hx => exact C64_host h he hk hd hnm hi hl hx
  | @around e e' t hn hk hc hin ih =>
    obtain ⟨h1, h2, h3⟩ := known_plain hin
    have h4 := htree e e' (by simp [hc])
    exact C64_takes h htree (.around (by rw [hk]; trivial) hc) h1 (Or.inl h2) h3 (ih (by omega))

/-! ## Calls with extra signatures -/

/-- What a visit of the call does. -/
def CallVisit (env : Env) (ns : Nodes) (c : Nat) (P : Ty) (sigs : List Sig) : Prop :=
  ∀ out errs v, Shape ns out → Stable ns out → out.visit env errs c = .ok v →
    match refinePrelude (out.argTypes c) sigs with
    | .found T => v = { nodes := out, errs, out := .ty (some T) }
    | .delayed => v = { nodes := out, errs, push := [c], out := .ty (if (out.at c).ty = none then some P else none) }
    | .unchanged => v = { nodes := out, errs, out := .ty (if (out.at c).ty = none then some P else none) }
    | _ => False

theorem argTypes_width {ns : Nodes} {c : Nat} {es : List Nat} (h : Arguments ns c es) {out : Nodes} (hsh : Shape ns out) :
    out.argTypes c = es.map fun e => (out.at e).ty := by
  simp only [Nodes.argTypes, Nodes.callArgs, hsh.children, hsh.kind]
  unfold Arguments at h
  generalize ((ns.at c).children.filter fun a => decide ((ns.at a).kind = .callArg)) = as at h
  induction as generalizing es with
  | nil => cases es with
    | nil => rfl
    | cons e es => cases h
  | cons a as ih => cases es with
    | nil => cases h
    | cons e es =>
      simp only [List.map_cons, List.cons.injEq] at h
      simp only [List.filterMap_cons, h.1, List.head?_cons, Option.map_some, List.map_cons]
      rw [← ih h.2]

/-- The call has its final type. -/
def CallDone (c : Nat) (P : Ty) (R : Refined) (o : Nodes) : Prop :=
  match R with
  | .found T => (o.at c).ty = some T
  | .unchanged => (o.at c).ty = some P
  | _ => False

/-- The types the call can have on the way. -/
def CallTypes (c : Nat) (P : Ty) (R : Refined) (o : Nodes) : Prop :=
  (o.at c).ty = none ∨ (o.at c).ty = some P ∨ ∃ T, R = .found T ∧ (o.at c).ty = some T

/-- The invariant of a call whose arguments have known types. -/
def RefineInv (env : Env) (ns : Nodes) (c : Nat) (P : Ty) (R : Refined) (todo : List Nat)
    (s : Spread) : Prop :=
  KnownOk env ns s.nodes ∧ CallTypes c P R s.nodes ∧ (c ∈ todo ∨ c ∈ s.next ∨ CallDone c P R s.nodes)

theorem refine_step {env : Env} {ns : Nodes} {c : Nat} {P : Ty} {sigs : List Sig} {R : Refined}
    (hc : c < ns.length) (hk : (ns.at c).kind = .call) (hv : CallVisit env ns c P sigs) {s s' : Spread} {j : Nat}
    {rest : List Nat} (hdec : refinePrelude (s.nodes.argTypes c) sigs = .delayed ∨
      refinePrelude (s.nodes.argTypes c) sigs = R)
    (hsh : Shape ns s.nodes) (hst : Stable ns s.nodes) (hI : RefineInv env ns c P R (j :: rest) s)
    (hs : step env s j = .ok s') : RefineInv env ns c P R rest s' := by
  obtain ⟨h1, h2, h3⟩ := hI
  refine ⟨known_step hsh hst hs h1, ?_⟩
  by_cases hj : j = c
  · subst hj
    simp only [step] at hs
    split at hs
    · cases hs
    · rename_i v hvis
      have h4 := hv s.nodes s.errs v hsh hst hvis
      have hlen : j < s.nodes.length := by rw [hsh.1]; exact hc
      rcases hdec with h5 | h5
      · rw [h5] at h4
        simp only at h4
        subst h4
        by_cases hn : (s.nodes.at j).ty = none
        · simp only [hn, if_true] at hs
          cases hs
          refine ⟨Or.inr (Or.inl ?_), Or.inr (Or.inl (by simp))⟩
          rw [at_setTy, if_pos ⟨rfl, hlen⟩]
        · simp only [hn, if_false] at hs
          cases hs
          exact ⟨h2, Or.inr (Or.inl (by simp))⟩
      · rw [h5] at h4
        cases R with
        | found T =>
          simp only at h4
          subst h4
          simp only at hs
          cases hs
          have : ((s.nodes.setTy j (some T)).at j).ty = some T := by rw [at_setTy, if_pos ⟨rfl, hlen⟩]
          exact ⟨Or.inr (Or.inr ⟨T, rfl, this⟩), Or.inr (Or.inr this)⟩
        | delayed =>
          simp only at h4
          subst h4
          by_cases hn : (s.nodes.at j).ty = none
          · simp only [hn, if_true] at hs
            cases hs
            refine ⟨Or.inr (Or.inl ?_), Or.inr (Or.inl (by simp))⟩
            rw [at_setTy, if_pos ⟨rfl, hlen⟩]
          · simp only [hn, if_false] at hs
            cases hs
            exact ⟨h2, Or.inr (Or.inl (by simp))⟩
        | unchanged =>
          simp only at h4
          subst h4
          by_cases hn : (s.nodes.at j).ty = none
          · simp only [hn, if_true] at hs
            cases hs
            have : ((s.nodes.setTy j (some P)).at j).ty = some P := by rw [at_setTy, if_pos ⟨rfl, hlen⟩]
            exact ⟨Or.inr (Or.inl this), Or.inr (Or.inr this)⟩
          · simp only [hn, if_false] at hs
            cases hs
            exact ⟨h2, Or.inr (Or.inl (by simp))⟩
        | mismatch => exact h4.elim
        | bindError e => exact h4.elim
  · have hst' := step_stepped hs
    have hty : (s'.nodes.at c).ty = (s.nodes.at c).ty := by
      rcases hst'.ty c with h | h | h | h
      · exact h
      · rw [hsh.kind, hk] at h; cases h
      · rw [hsh.kind, hk] at h; rcases h.1 with h | h <;> cases h
      · exact absurd h.1.symm hj
    refine ⟨by simpa only [CallTypes, hty] using h2, ?_⟩
    rcases h3 with h3 | h3 | h3
    · rcases List.mem_cons.1 h3 with h3 | h3
      · exact absurd h3.symm hj
      · exact Or.inl h3
    · exact Or.inr (Or.inl (hst'.next _ h3))
    · exact Or.inr (Or.inr (by simpa only [CallDone, hty] using h3))

theorem refined_accept {env : Env} {fuel : Nat} {ns out : Nodes} (h : ns.typecheck env fuel = .accept out)
    (htree : Tree ns) {c : Nat} {P : Ty} {es : List Nat} {ts : List Ty} {sigs : List Sig} (hc : c < ns.length)
    (hk : (ns.at c).kind = .call) (hcn : (ns.at c).ty = none) (hv : CallVisit env ns c P sigs)
    (he : Arguments ns c es) (ht : List.Forall₂ (KnownType env ns) es ts) :
    match refinePrelude (ts.map some) sigs with
    | .found T => (out.at c).ty = some T
    | .delayed | .unchanged => (out.at c).ty = some P
    | .mismatch | .bindError _ => False := by
  have hr : ∀ e ∈ es, e < ns.length := by
    intro e hm
    have h1 : [e] ∈ es.map ([·]) := List.mem_map.2 ⟨e, hm, rfl⟩
    rw [← he] at h1
    obtain ⟨a, -, h2⟩ := List.mem_map.1 h1
    exact (htree a e (by rw [h2]; simp)).2.2
  -- the types of the arguments in all states
  have hbelow : ∀ o : Nodes, KnownOk env ns o →
      LessKnown (es.map fun e => (o.at e).ty) (ts.map some) := by
    intro o ho
    clear he hr
    induction ht with
    | nil => exact .nil
    | @cons e t es ts h1 h2 ih =>
      exact .cons (ho e t h1) ih
  have hfull : (es.map fun e => (out.at e).ty) = ts.map some := by
    clear he hbelow
    induction ht with
    | nil => rfl
    | @cons e t es ts h1 h2 ih =>
      simp only [List.map_cons, known_accept h htree (hr e (by simp)) h1]
      rw [ih (fun e he => hr e (by simp [he]))]
  obtain ⟨hsh, hst⟩ := accept_shape h
  have hdec : ∀ o, Shape ns o → KnownOk env ns o → refinePrelude (o.argTypes c) sigs = .delayed ∨
      refinePrelude (o.argTypes c) sigs = refinePrelude (ts.map some) sigs := by
    intro o hsh ho
    rw [argTypes_width he hsh]
    exact C06_early (hbelow o ho) sigs
  obtain ⟨todo, errs, ⟨-, hres, hI⟩, hvis⟩ := accept_general
    (Inv := RefineInv env ns c P (refinePrelude (ts.map some) sigs)) h
    (fun s s' j rest hsh hst _ hI hs => refine_step hc hk hv (hdec s.nodes hsh hI.1) hsh hst hI hs)
    (fun s hsh hI => by
      refine ⟨hI.1, hI.2.1, ?_⟩
      rcases hI.2.2 with h1 | h1 | h1
      · cases h1
      · refine Or.inl ?_
        simp only [List.mem_filter, List.mem_range, decide_eq_true_eq]
        exact ⟨by rw [hsh.1]; exact hc, h1⟩
      · exact Or.inr (Or.inr h1))
    ⟨fun e t hk => (known_settled hk).first, Or.inl hcn, Or.inl (List.mem_range.2 hc)⟩
  rcases hI with h1 | h1 | h1
  · obtain ⟨errs, v, h2, h3, -⟩ := hvis c h1
    have h4 := hv out errs v hsh hst h2
    rw [argTypes_width he hsh, hfull] at h4
    have key : ∀ v' : Visit, v = v' → v'.out = .ty (if (out.at c).ty = none then some P else none) →
        (∀ T, refinePrelude (ts.map some) sigs ≠ .found T) → (out.at c).ty = some P := by
      rintro v' rfl h5 h6
      rcases hres with h7 | h7 | ⟨T, h7, -⟩
      · rw [if_pos h7] at h5; exact absurd h5 (h3 P)
      · exact h7
      · exact absurd h7 (h6 T)
    generalize refinePrelude (ts.map some) sigs = R at h4 key
    cases R with
    | found T => simp only at h4; subst h4; exact absurd rfl (h3 T)
    | delayed => exact key _ h4 rfl (by simp)
    | unchanged => exact key _ h4 rfl (by simp)
    | mismatch => exact h4
    | bindError e => exact h4
  · cases h1
  · generalize refinePrelude (ts.map some) sigs = R at h1
    cases R with
    | found T => exact h1
    | unchanged => exact h1
    | delayed => exact h1.elim
    | mismatch => exact h1.elim
    | bindError e => exact h1.elim

theorem signature_stable {ns out : Nodes} {s : Nat} {σ : Sig} (h : Signature ns s σ) (hsh : Shape ns out)
    (hst : Stable ns out) : Signature out s σ := by
  refine ⟨by rw [hsh.names]; exact h.names, ?_, ?_⟩
  · rw [← h.args]
    simp only [hsh.children, hsh.kind]
    refine List.map_congr_left ?_
    intro k hk
    have hkind : (ns.at k).kind = .tyArg := by simpa using (List.mem_filter.1 hk).2
    have hm : (ns.at k).ty ∈ σ.args.map some := by
      rw [← h.args]; exact List.mem_map.2 ⟨k, hk, rfl⟩
    obtain ⟨t, -, ht⟩ := List.mem_map.1 hm
    rw [← ht]
    exact hst k t (by rw [hkind]; rfl) ht.symm
  · obtain ⟨r, h1, h2⟩ := h.ret
    exact ⟨r, by rw [hsh.child]; exact h1, hst r _ (by rw [child_kind h1]; rfl) h2⟩

theorem declared_visit {env : Env} {ns : Nodes} {c f : Nat} {P : Ty} {sigs : List Sig}
    (hk : (ns.at c).kind = .call) (hd : (ns.at c).declaration = some f) (hf : (ns.at f).kind = .fn)
    (hP : (ns.at f).ty = some P)
    (hs : List.Forall₂ (Signature ns) ((ns.at f).children.filter fun k => (ns.at k).kind = .ty) sigs) :
    CallVisit env ns c P sigs := by
  intro out errs v hsh hst hv
  have hs' : List.Forall₂ (Signature out) ((ns.at f).children.filter fun k => decide ((ns.at k).kind = .ty)) sigs :=
    hs.imp fun _ _ h => signature_stable h hsh hst
  simp only [Nodes.visit, hsh.kind, hk] at hv
  simp only [Nodes.visitCall, hsh.declaration, hd, hsh.children, hsh.kind, C06_declared hs',
    hst f P (by rw [hf]; rfl) hP] at hv
  cases hR : refinePrelude (out.argTypes c) sigs with
  | found T => simp only [hR] at hv; cases hv; rfl
  | delayed => simp only [hR] at hv; cases hv; rfl
  | unchanged => simp only [hR] at hv; cases hv; rfl
  | mismatch => simp only [hR] at hv; cases hv
  | bindError e => simp only [hR] at hv; cases hv

theorem host_visit {env : Env} {ns : Nodes} {c i : Nat} {n : String} {d : Mod.Dfn}
    (hk : (ns.at c).kind = .call) (hd : (ns.at c).declaration = none) (hn : (ns.at c).name = some n)
    (hi : ((ns.at c).alias = none ∧ env.prelude.functions n = some i) ∨
      ∃ a, (ns.at c).alias = some a ∧ env.aliases.get a n = some (.loaded i))
    (hl : env.prelude.list[i]? = some d) (hx : d.ext ≠ []) : CallVisit env ns c d.ret d.ext := by
  intro out errs v hsh hst hv
  have hf : out.hostFn env c = some i := by
    rw [hsh.hostFn]
    simp only [Nodes.hostFn, hn]
    rcases hi with ⟨h1, h2⟩ | ⟨a, h1, h2⟩
    · simp [h1, h2]
    · simp [h1, h2]
  simp only [Nodes.visit, hsh.kind, hk] at hv
  simp only [Nodes.visitCall, hsh.declaration, hd, hsh.name, hn, hf, hl, Nodes.visitHost, if_neg hx] at hv
  simp only [reduceCtorEq, if_false] at hv
  cases hR : refinePrelude (out.argTypes c) d.ext with
  | found T => simp only [hR] at hv; cases hv; rfl
  | delayed => simp only [hR] at hv; cases hv; rfl
  | unchanged => simp only [hR] at hv; cases hv; rfl
  | mismatch => simp only [hR] at hv; cases hv
  | bindError e => simp only [hR] at hv; cases hv

/-- **C64**, calls with extra signatures. In an accepted file, for a call of a function of the file
that is declared with the type `P` and has the extra signatures `sigs`, with arguments of known
types `ts`: the call has the type that the rules of C06 find for `ts`; it has the type `P` if an
argument is ambiguous or there are no extra signatures; and a call whose arguments fit none of
them is not accepted. -/
theorem C64_refined {env : Env} {fuel : Nat} {ns out : Nodes} (h : ns.typecheck env fuel = .accept out)
    (htree : Tree ns) {c f : Nat} {P : Ty} {es : List Nat} {ts : List Ty} {sigs : List Sig} (hc : c < ns.length)
    (hk : (ns.at c).kind = .call) (hcn : (ns.at c).ty = none) (hd : (ns.at c).declaration = some f)
    (hf : (ns.at f).kind = .fn) (hP : (ns.at f).ty = some P)
    (hs : List.Forall₂ (Signature ns) ((ns.at f).children.filter fun k => (ns.at k).kind = .ty) sigs)
    (he : Arguments ns c es) (ht : List.Forall₂ (KnownType env ns) es ts) :
    match refinePrelude (ts.map some) sigs with
    | .found T => (out.at c).ty = some T
    | .delayed | .unchanged => (out.at c).ty = some P
    | .mismatch | .bindError _ => False :=
  refined_accept h htree hc hk hcn (declared_visit hk hd hf hP hs) he ht

/-- **C64**, the same for a function of another module or of the host. -/
theorem C64_host_refined {env : Env} {fuel : Nat} {ns out : Nodes} (h : ns.typecheck env fuel = .accept out)
    (htree : Tree ns) {c i : Nat} {n : String} {d : Mod.Dfn} {es : List Nat} {ts : List Ty} (hc : c < ns.length)
    (hk : (ns.at c).kind = .call) (hcn : (ns.at c).ty = none) (hd : (ns.at c).declaration = none)
    (hn : (ns.at c).name = some n)
    (hi : ((ns.at c).alias = none ∧ env.prelude.functions n = some i) ∨
      ∃ a, (ns.at c).alias = some a ∧ env.aliases.get a n = some (.loaded i))
    (hl : env.prelude.list[i]? = some d) (hx : d.ext ≠ [])
    (he : Arguments ns c es) (ht : List.Forall₂ (KnownType env ns) es ts) :
    match refinePrelude (ts.map some) d.ext with
    | .found T => (out.at c).ty = some T
    | .delayed | .unchanged => (out.at c).ty = some d.ret
    | .mismatch | .bindError _ => False :=
  refined_accept h htree hc hk hcn (host_visit hk hd hn hi hl hx) he ht

/-- **C64**, overloads. In an accepted file, for extra signatures without type variables and
arguments that are not ambiguous, the call has the type of the first signature that accepts the
types of the arguments; there is one, unless the function has no extra signatures. -/
theorem C64_overload {env : Env} {fuel : Nat} {ns out : Nodes} (h : ns.typecheck env fuel = .accept out)
    (htree : Tree ns) {c f : Nat} {P : Ty} {es : List Nat} {ts : List Ty} {sigs : List Sig} (hc : c < ns.length)
    (hk : (ns.at c).kind = .call) (hcn : (ns.at c).ty = none) (hd : (ns.at c).declaration = some f)
    (hf : (ns.at f).kind = .fn) (hP : (ns.at f).ty = some P)
    (hs : List.Forall₂ (Signature ns) ((ns.at f).children.filter fun k => (ns.at k).kind = .ty) sigs)
    (he : Arguments ns c es) (ht : List.Forall₂ (KnownType env ns) es ts)
    (hnv : ∀ sig ∈ sigs, sig.names = [])
    (ha : ∀ sig ∈ sigs, ∀ p ∈ ts.zip sig.args, p.2.goesWith p.1 = true → p.2.ambiguous p.1 = false) :
    (∃ before sig after, sigs = before ++ sig :: after ∧ (∀ s ∈ before, s.accepts ts = false) ∧
      sig.accepts ts = true ∧ (out.at c).ty = some sig.ret) ∨ (sigs = [] ∧ (out.at c).ty = some P) := by
  have h1 := C64_refined h htree hc hk hcn hd hf hP hs he ht
  rw [C06_first_compatible ts sigs hnv ha] at h1
  cases hfd : sigs.find? (fun sig => sig.accepts ts) with
  | none =>
    simp only [hfd] at h1
    by_cases h2 : sigs = []
    · simp only [if_pos h2] at h1; exact Or.inr ⟨h2, h1⟩
    · simp only [if_neg h2] at h1
  | some sig =>
    simp only [hfd] at h1
    obtain ⟨h2, before, after, h3, h4⟩ := List.find?_eq_some_iff_append.1 hfd
    refine Or.inl ⟨before, sig, after, h3, fun s hs => ?_, h2, h1⟩
    simpa using h4 s hs

end Dyon.Check
