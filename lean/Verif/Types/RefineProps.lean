import Verif.Types.Refine
import Verif.Types.Props

/-!
# C06: extra type signatures
-/

namespace Dyon
open Ty

/-! ## Signatures without type variables -/

/-- A signature without type variables accepts the (known) argument types. -/
def Sig.accepts (sig : Sig) (args : List Ty) : Bool :=
  (args.zip sig.args).all fun p => p.2.goesWith p.1

theorem bind_nil (t a : Ty) (vars : Vars) : t.bindTyVars a [] vars = .ok (t, vars) := by
  rw [Ty.bindTyVars.eq_def]; simp

theorem matchArgs_nil (args tys : List Ty)
    (h : ∀ p ∈ args.zip tys, p.2.goesWith p.1 = true → p.2.ambiguous p.1 = false) (vars : Vars) :
    matchArgs [] (args.map some) tys vars =
      if (args.zip tys).all (fun p => p.2.goesWith p.1) then .all vars else .noMatch := by
  induction args generalizing tys with
  | nil => cases tys <;> simp [matchArgs]
  | cons a args ih =>
    cases tys with
    | nil => simp [matchArgs]
    | cons t tys =>
      have h0 := h (a, t) (by simp)
      have ih := ih tys (fun p hp => h p (by simp [hp]))
      simp only [List.map_cons, matchArgs, bind_nil]
      cases hg : t.goesWith a with
      | false => simp [hg]
      | true =>
        have h0 : t.ambiguous a = false := h0 hg
        simp only [h0, ih, List.zip_cons_cons, List.all_cons, hg, Bool.true_and, if_true]
        rfl

theorem substRet_nil (vars : Vars) (t : Ty) : substRet [] vars t = t := by
  simp [substRet]

theorem refineLoop_nil (args : List Ty) (ext : List Sig) (count : Nat)
    (hn : ∀ sig ∈ ext, sig.names = [])
    (ha : ∀ sig ∈ ext, ∀ p ∈ args.zip sig.args, p.2.goesWith p.1 = true → p.2.ambiguous p.1 = false) :
    refineLoop (args.map some) ext count =
      match ext.find? (fun sig => sig.accepts args) with
      | some sig => .found sig.ret
      | none => if count > 0 then .mismatch else .unchanged := by
  induction ext with
  | nil => simp [refineLoop]
  | cons sig ext ih =>
    have ih := ih (fun s hs => hn s (by simp [hs])) (fun s hs => ha s (by simp [hs]))
    simp only [refineLoop, hn sig (by simp), matchArgs_nil args sig.args (ha sig (by simp))]
    cases hacc : (args.zip sig.args).all (fun p => p.2.goesWith p.1) with
    | true => simp [List.find?, Sig.accepts, hacc, substRet_nil]
    | false =>
      simp [List.find?, Sig.accepts, hacc] at ih ⊢
      exact ih

/-- **C06** When the argument types are known and none is ambiguous, the call gets
the return type of the first extra signature (without type variables) all of whose
arguments are compatible; if there are signatures but none is compatible it is a
type error; without signatures nothing happens. -/
theorem C06_first_compatible (args : List Ty) (ext : List Sig)
    (hn : ∀ sig ∈ ext, sig.names = [])
    (ha : ∀ sig ∈ ext, ∀ p ∈ args.zip sig.args, p.2.goesWith p.1 = true → p.2.ambiguous p.1 = false) :
    refinePrelude (args.map some) ext =
      match ext.find? (fun sig => sig.accepts args) with
      | some sig => .found sig.ret
      | none => if ext = [] then .unchanged else .mismatch := by
  rw [refinePrelude, refineLoop_nil args ext _ hn ha]
  cases ext with
  | nil => simp
  | cons s ext => simp

theorem matchArgs_ambiguous (names : List String) (args : List (Option Ty)) (tys : List Ty)
    (vars : Vars) (h : matchArgs names args tys vars = .ambiguous) :
    (∃ k : Nat, args[k]? = some none) ∨
    ∃ (k : Nat) (a t b : Ty) (vs ws : Vars), args[k]? = some (some a) ∧ tys[k]? = some t ∧
      t.bindTyVars a names vs = .ok (b, ws) ∧ b.goesWith a = true ∧ b.ambiguous a = true := by
  induction args generalizing tys vars with
  | nil => cases tys <;> simp [matchArgs] at h
  | cons arg args ih =>
    cases tys with
    | nil => simp [matchArgs] at h
    | cons t tys =>
      cases arg with
      | none => exact .inl ⟨0, by simp⟩
      | some a =>
        simp only [matchArgs] at h
        split at h
        · cases h
        · next b vs hb =>
          split at h
          · next hg =>
            split at h
            · next hamb => exact .inr ⟨0, a, t, b, vars, vs, by simp, by simp, hb, hg, hamb⟩
            · rcases ih tys vs h with ⟨k, hk⟩ | ⟨k, a', t', b', vs', ws', h1, h2, h3⟩
              · exact .inl ⟨k + 1, by simpa using hk⟩
              · exact .inr ⟨k + 1, a', t', b', vs', ws', by simpa using h1, by simpa using h2, h3⟩
          · cases h

/-- **C06** A call is only postponed because the type of an argument is not known yet,
or because a compatible argument is still ambiguous for one of the signatures. -/
theorem C06_delay_reason (args : List (Option Ty)) (ext : List Sig)
    (h : refinePrelude args ext = .delayed) :
    (∃ k : Nat, args[k]? = some none) ∨
    ∃ sig ∈ ext, ∃ (k : Nat) (a t b : Ty) (vs ws : Vars), args[k]? = some (some a) ∧ sig.args[k]? = some t ∧
      t.bindTyVars a sig.names vs = .ok (b, ws) ∧ b.goesWith a = true ∧ b.ambiguous a = true := by
  unfold refinePrelude at h
  generalize ext.length = n at h
  induction ext with
  | nil => simp only [refineLoop] at h; split at h <;> cases h
  | cons sig ext ih =>
    simp only [refineLoop] at h
    split at h
    · cases h
    · next hm =>
      rcases matchArgs_ambiguous _ _ _ _ hm with hk | hk
      · exact .inl hk
      · exact .inr ⟨sig, by simp, hk⟩
    · rcases ih h with hk | ⟨s, hs, hk⟩
      · exact .inl hk
      · exact .inr ⟨s, by simp [hs], hk⟩
    · cases h

/-- **C06** Conversely, a call whose first argument is not known yet is postponed, as
soon as there is a signature with an argument. -/
theorem C06_unknown_delays (args : List (Option Ty)) (sig : Sig) (ext : List Sig)
    (hs : sig.args ≠ []) : refinePrelude (none :: args) (sig :: ext) = .delayed := by
  cases hsa : sig.args with
  | nil => exact absurd hsa hs
  | cons t ts => simp [refinePrelude, refineLoop, hsa, matchArgs]

/-! ## Type variables -/

/-- An argument of type `name a` or just `a`. -/
def wrap (name : Option String) (a : Ty) : Ty :=
  match name with
  | some n => adHoc n a
  | none => a

/-- What the single type variable of `all T { (T a, T b, ..) -> T r }` must become,
given the ad-hoc names (or their absence) of the arguments from left to right: once
bound, every further argument must carry the same name. -/
def unify : List (Option String) → Option String → Except Unit (Option String)
  | [], v => .ok v
  | none :: os, none => unify os none
  | some b :: os, none => unify os (some b)
  | none :: _, some _ => .error ()
  | some b :: os, some n => if b = n then unify os (some n) else .error ()

theorem bind_nonAdHoc (t a : Ty) (names : List String) (vars : Vars) (h : t.isAdHoc = false) :
    t.bindTyVars a names vars = .ok (t, vars) := by
  rw [Ty.bindTyVars.eq_def]
  cases t <;> simp_all [isAdHoc]

theorem bind_T_plain (t a : Ty) (v : Option String) (ht : t.isAdHoc = false)
    (ha : a.isAdHoc = false) (hg : t.goesWith a = true) (hamb : t.ambiguous a = false) :
    (adHoc "T" t).bindTyVars a ["T"] [v] =
      match v with
      | none => .ok (t, [none])
      | some _ => .error "Type mismatch (#1600)" := by
  rw [Ty.bindTyVars.eq_def]
  have hb := bind_nonAdHoc t a ["T"] [v] ht
  cases a <;> simp [isAdHoc] at ha <;>
    (cases v <;> simp [bindPlain, hb, Vars.at, hg, hamb])

theorem bind_T_adHoc (t a : Ty) (b : String) (v : Option String) (ht : t.isAdHoc = false)
    (hg : t.goesWith a = true) (hamb : t.ambiguous a = false) :
    (adHoc "T" t).bindTyVars (adHoc b a) ["T"] [v] =
      match v with
      | none => .ok (adHoc b t, [some b])
      | some n => if b = n then .ok (adHoc b t, [some b]) else .error "Type mismatch (#1500)" := by
  rw [Ty.bindTyVars.eq_def]
  have hb := fun v => bind_nonAdHoc t a ["T"] [v] ht
  cases v with
  | none => simp [bindAdHoc, hb, Vars.at]
  | some n =>
    by_cases hn : b = n
    · subst hn; simp [bindAdHoc, hb, Vars.at]
    · have hn' : n ≠ b := fun e => hn e.symm
      simp [bindAdHoc, hb, Vars.at, hg, hamb, hn, hn']

/-- One argument position: declared inner type, supplied inner type, ad-hoc name. -/
structure Pos where
  declared : Ty
  supplied : Ty
  name : Option String

theorem matchArgs_T (ps : List Pos) (v : Option String)
    (h : ∀ p ∈ ps, p.declared.isAdHoc = false ∧ p.supplied.isAdHoc = false ∧
      p.declared.goesWith p.supplied = true ∧ p.declared.ambiguous p.supplied = false) :
    match unify (ps.map Pos.name) v with
    | .ok w => matchArgs ["T"] (ps.map fun p => some (wrap p.name p.supplied))
        (ps.map fun p => adHoc "T" p.declared) [v] = .all [w]
    | .error _ => ∃ e, matchArgs ["T"] (ps.map fun p => some (wrap p.name p.supplied))
        (ps.map fun p => adHoc "T" p.declared) [v] = .error e := by
  induction ps generalizing v with
  | nil => simp [unify, matchArgs]
  | cons p ps ih =>
    obtain ⟨h1, h2, h3, h4⟩ := h p (by simp)
    have ih := fun v => ih v (fun q hq => h q (by simp [hq]))
    cases hn : p.name with
    | none =>
      have hb := bind_T_plain p.declared p.supplied v h1 h2 h3 h4
      cases v with
      | none =>
        simp only [List.map_cons, hn, unify, matchArgs, wrap, hb, h3, h4]
        exact ih none
      | some n =>
        simp only [List.map_cons, hn, unify, matchArgs, wrap, hb]
        exact ⟨_, rfl⟩
    | some b =>
      have hb := bind_T_adHoc p.declared p.supplied b v h1 h3 h4
      have hg : (adHoc b p.declared).goesWith (adHoc b p.supplied) = true := by
        rw [gw_adHoc_adHoc]; simp [h3]
      have hamb : (adHoc b p.declared).ambiguous (adHoc b p.supplied) = false := by
        simp [Ty.ambiguous, h4]
      cases v with
      | none =>
        simp only [List.map_cons, hn, unify, matchArgs, wrap, hb, hg, hamb]
        exact ih (some b)
      | some n =>
        by_cases hbn : b = n
        · subst hbn
          simp only [List.map_cons, hn, unify, matchArgs, wrap, hb, hg, hamb, if_true]
          exact ih (some b)
        · simp only [List.map_cons, hn, unify, matchArgs, wrap, hb, if_neg hbn]
          exact ⟨_, rfl⟩

/-- **C06** Type variables are bound consistently.  For a signature
`all T { (T a₁, .., T aₙ) -> T r }` of any arity and arguments with compatible inner
types: if the ad-hoc names found from left to right unify, the call has type `r` under
that name (or plain `r` when no argument carries a name); a second, different name, or a
missing name after a bound one, is an error. -/
theorem C06_type_variable (ps : List Pos) (r : Ty) (ext : List Sig) (hr : r.isAdHoc = false)
    (h : ∀ p ∈ ps, p.declared.isAdHoc = false ∧ p.supplied.isAdHoc = false ∧
      p.declared.goesWith p.supplied = true ∧ p.declared.ambiguous p.supplied = false) :
    let sig : Sig := { names := (allExt (ps.map Pos.declared) r).1
                       args := (allExt (ps.map Pos.declared) r).2.1
                       ret := (allExt (ps.map Pos.declared) r).2.2 }
    match unify (ps.map Pos.name) none with
    | .ok w => refinePrelude (ps.map fun p => some (wrap p.name p.supplied)) (sig :: ext)
        = .found (wrap w r)
    | .error _ => ∃ e, refinePrelude (ps.map fun p => some (wrap p.name p.supplied)) (sig :: ext)
        = .bindError e := by
  intro sig
  have hm := matchArgs_T ps none h
  have hargs : sig.args = ps.map fun p => adHoc "T" p.declared := by
    simp [sig, allExt, Function.comp_def]
  have hnames : sig.names = ["T"] := rfl
  have hret : sig.ret = adHoc "T" r := rfl
  simp only [refinePrelude, refineLoop, hargs, hnames, hret, List.length_singleton, List.replicate]
  cases hu : unify (ps.map Pos.name) none with
  | ok w =>
    rw [hu] at hm
    simp only at hm ⊢
    rw [hm]
    have hi : ∀ n, r.insertVar "T" n = r := by intro n; cases r <;> simp_all [insertVar, isAdHoc]
    have hi' : r.insertNoneVar "T" = r := by cases r <;> simp_all [insertNoneVar, isAdHoc]
    cases w <;> simp [substRet, insertVar, insertNoneVar, wrap, hi, hi']
  | error u =>
    rw [hu] at hm
    obtain ⟨e, he⟩ := hm
    exact ⟨e, by simp only [he]⟩

/-- Every bound variable keeps its binding. -/
def Kept (vs ws : Vars) : Prop := ∀ (i : Nat) (n : String), vs[i]? = some (some n) → ws[i]? = some (some n)

theorem kept_bindAdHoc (a : String) (ai : Ty) (b : String) (bi : Ty) (names : List String)
    (ih : ∀ a' vs r ws, ai.bindTyVars a' names vs = .ok (r, ws) → Kept vs ws)
    (rest : List String) (i : Nat) (vs : Vars) (r : Ty) (ws : Vars)
    (h : bindAdHoc a ai b bi names vs rest i = .ok (r, ws)) : Kept vs ws := by
  induction rest generalizing i with
  | nil =>
    simp only [bindAdHoc] at h
    split at h
    · cases h
    · next t us ht => cases h; exact ih _ _ _ _ ht
  | cons n rest ihr =>
    simp only [bindAdHoc] at h
    split at h
    · split at h
      · cases h
      · next ni us hni =>
        have k1 := ih _ _ _ _ hni
        split at h
        · split at h
          · cases h
          · cases h; exact k1
        · next hat =>
          split at h
          · cases h
          · next t us2 ht =>
            cases h
            have k2 := ih _ _ _ _ ht
            intro j m hj
            apply k2
            have hj' := k1 j m hj
            by_cases hij : i = j
            · subst hij
              simp [Vars.at, hj'] at hat
            · rw [List.getElem?_set_ne hij]; exact hj'
    · exact ihr _ h

theorem kept_bindPlain (a : String) (ai refine : Ty) (names : List String)
    (ih : ∀ a' vs r ws, ai.bindTyVars a' names vs = .ok (r, ws) → Kept vs ws)
    (rest : List String) (i : Nat) (vs : Vars) (r : Ty) (ws : Vars)
    (h : bindPlain a ai refine names vs rest i = .ok (r, ws)) : Kept vs ws := by
  induction rest generalizing i vs with
  | nil =>
    simp only [bindPlain] at h
    exact ih _ _ _ _ h
  | cons n rest ihr =>
    simp only [bindPlain] at h
    split at h
    · split at h
      · cases h
      · next ni us hni =>
        have k1 := ih _ _ _ _ hni
        split at h
        · split at h
          · cases h
          · intro j m hj
            exact ihr _ _ h j m (k1 j m hj)
        · intro j m hj
          exact ih _ _ _ _ h j m (k1 j m hj)
    · exact ihr _ _ h

/-- **C06** Once a type variable is bound it keeps that binding, for every signature
type, argument type and set of variables. -/
theorem C06_bindings_kept (t a : Ty) (names : List String) (vs ws : Vars) (r : Ty)
    (h : t.bindTyVars a names vs = .ok (r, ws)) (i : Nat) (n : String)
    (hi : vs[i]? = some (some n)) : ws[i]? = some (some n) := by
  suffices Kept vs ws from this i n hi
  clear hi
  induction t using single_induction generalizing a vs ws r with
  | h t ih =>
    rw [Ty.bindTyVars.eq_def] at h
    split at h
    · cases h; exact fun _ _ h => h
    · split at h
      · next x y =>
        have ih' := fun a' vs r ws h => ih y (by simp [size]) a' vs ws r h
        split at h
        · exact kept_bindAdHoc _ _ _ _ _ ih' _ _ _ _ _ h
        · exact kept_bindPlain _ _ _ _ ih' _ _ _ _ _ h
      · cases h; exact fun _ _ h => h

/-- **C06** A variable that is already bound to the name `ex` stands for `ex` in the
argument: another ad-hoc name is then compared against `ex`. -/
theorem C06_bound_name_used (n b ex : String) (ai bi : Ty) (pre post : List String) (vs : Vars)
    (hn : n ∉ pre) (hi : vs[pre.length]? = some (some ex)) (r : Ty) (ws : Vars)
    (h : (adHoc n ai).bindTyVars (adHoc b bi) (pre ++ n :: post) vs = .ok (r, ws)) :
    ∃ t, r = adHoc ex t := by
  have key : ∀ (names : List String) (pre' : List String) (i : Nat), n ∉ pre' →
      vs[i + pre'.length]? = some (some ex) →
      bindAdHoc n ai b bi names vs (pre' ++ n :: post) i = .ok (r, ws) → ∃ t, r = adHoc ex t := by
    intro names pre'
    induction pre' with
    | nil =>
      intro i _ hi h
      simp only [List.nil_append, bindAdHoc, beq_self_eq_true, if_true] at h
      split at h
      · cases h
      · next t us hb =>
        have hk := C06_bindings_kept _ _ _ _ _ _ hb i ex (by simpa using hi)
        have hat : us.at i = some ex := by simp [Vars.at, hk]
        rw [hat] at h
        simp only at h
        split at h
        · cases h
        · cases h; exact ⟨_, rfl⟩
    | cons m pre' ih =>
      intro i hm hi h
      have hm' : n ≠ m ∧ n ∉ pre' := by simpa using hm
      simp only [List.cons_append, bindAdHoc] at h
      rw [if_neg (by simpa using hm'.1)] at h
      exact ih (i + 1) hm'.2 (by rw [← hi]; congr 1; simp; omega) h
  rw [Ty.bindTyVars.eq_def] at h
  have hne : (pre ++ n :: post).isEmpty = false := by cases pre <;> rfl
  rw [hne] at h
  exact key _ pre 0 hn (by simpa using hi) h

example : (adHoc "T" f64).bindTyVars (adHoc "Foo" str) ["T"] [some "Bar"] =
    .ok (adHoc "Bar" f64, [some "Bar"]) := by
  simp [Ty.bindTyVars.eq_def, bindAdHoc, Vars.at, goesWith.eq_def, isAdHoc, isUnreachable, isAny]

/-- A signature accepts the arguments from left to right, binding variables. -/
inductive Accepts (names : List String) : List (Option Ty) → List Ty → Vars → Vars → Prop
  | nil {tys vs} : Accepts names [] tys vs vs
  | extra {args vs} : Accepts names args [] vs vs
  | cons {a args t tys b vs us ws} :
      t.bindTyVars a names vs = .ok (b, us) → b.goesWith a = true → b.ambiguous a = false →
      Accepts names args tys us ws → Accepts names (some a :: args) (t :: tys) vs ws

/-- A signature is ruled out: some prefix of the arguments is accepted and the next
argument is incompatible. -/
inductive Rejects (names : List String) : List (Option Ty) → List Ty → Vars → Prop
  | here {a args t tys b vs us} :
      t.bindTyVars a names vs = .ok (b, us) → b.goesWith a = false →
      Rejects names (some a :: args) (t :: tys) vs
  | later {a args t tys b vs us} :
      t.bindTyVars a names vs = .ok (b, us) → b.goesWith a = true → b.ambiguous a = false →
      Rejects names args tys us → Rejects names (some a :: args) (t :: tys) vs

theorem matchArgs_all_iff (names : List String) (args : List (Option Ty)) (tys : List Ty)
    (vs ws : Vars) : matchArgs names args tys vs = .all ws ↔ Accepts names args tys vs ws := by
  induction args generalizing tys vs with
  | nil =>
    constructor
    · intro h; simp [matchArgs] at h; subst h; exact .nil
    · intro h; cases h <;> simp [matchArgs]
  | cons arg args ih =>
    cases tys with
    | nil =>
      constructor
      · intro h; simp [matchArgs] at h; subst h; exact .extra
      · intro h; cases h; simp [matchArgs]
    | cons t tys =>
      constructor
      · intro h
        cases arg with
        | none => simp [matchArgs] at h
        | some a =>
          simp only [matchArgs] at h
          split at h
          · cases h
          · next b us hb =>
            split at h
            · next hg =>
              split at h
              · cases h
              · next hamb => exact .cons hb hg (by simpa using hamb) ((ih _ _).1 h)
            · cases h
      · intro h
        cases h with
        | cons hb hg hamb hr =>
          simp only [matchArgs, hb, hg, hamb]
          exact (ih _ _).2 hr

theorem matchArgs_noMatch_iff (names : List String) (args : List (Option Ty)) (tys : List Ty)
    (vs : Vars) : matchArgs names args tys vs = .noMatch ↔ Rejects names args tys vs := by
  induction args generalizing tys vs with
  | nil =>
    constructor
    · intro h; simp [matchArgs] at h
    · intro h; cases h
  | cons arg args ih =>
    cases tys with
    | nil =>
      constructor
      · intro h; simp [matchArgs] at h
      · intro h; cases h
    | cons t tys =>
      constructor
      · intro h
        cases arg with
        | none => simp [matchArgs] at h
        | some a =>
          simp only [matchArgs] at h
          split at h
          · cases h
          · next b us hb =>
            split at h
            · next hg =>
              split at h
              · cases h
              · next hamb => exact .later hb hg (by simpa using hamb) ((ih _ _).1 h)
            · next hg => exact .here hb (by simpa using hg)
      · intro h
        cases h with
        | here hb hg => simp only [matchArgs, hb, hg]; rfl
        | later hb hg hamb hr =>
          simp only [matchArgs, hb, hg, hamb]
          exact (ih _ _).2 hr

/-- **C06** In general (with type variables): the call is refined to `t` exactly when
some signature accepts the arguments, all signatures before it are ruled out by an
incompatible argument, and `t` is its return type with the variables filled in. -/
theorem C06_found_iff (args : List (Option Ty)) (ext : List Sig) (t : Ty) :
    refinePrelude args ext = .found t ↔
      ∃ pre sig post vars, ext = pre ++ sig :: post ∧
        (∀ s ∈ pre, Rejects s.names args s.args (List.replicate s.names.length none)) ∧
        Accepts sig.names args sig.args (List.replicate sig.names.length none) vars ∧
        t = substRet sig.names vars sig.ret := by
  unfold refinePrelude
  generalize ext.length = n
  induction ext with
  | nil =>
    constructor
    · intro h; simp only [refineLoop] at h; split at h <;> cases h
    · rintro ⟨pre, sig, post, vars, h, -⟩; simp at h
  | cons s ext ih =>
    constructor
    · intro h
      simp only [refineLoop] at h
      split at h
      · cases h
      · cases h
      · next hm =>
        obtain ⟨pre, sig, post, vars, h1, h2, h3, h4⟩ := ih.1 h
        refine ⟨s :: pre, sig, post, vars, by rw [h1]; rfl, ?_, h3, h4⟩
        intro x hx
        rcases List.mem_cons.1 hx with rfl | hx
        · exact (matchArgs_noMatch_iff _ _ _ _).1 hm
        · exact h2 x hx
      · next vars hm =>
        cases h
        exact ⟨[], s, ext, vars, rfl, by simp, (matchArgs_all_iff _ _ _ _ _).1 hm, rfl⟩
    · rintro ⟨pre, sig, post, vars, h1, h2, h3, h4⟩
      cases pre with
      | nil =>
        simp at h1
        obtain ⟨rfl, rfl⟩ := h1
        simp only [refineLoop, (matchArgs_all_iff _ _ _ _ _).2 h3, h4]
      | cons p pre =>
        simp at h1
        obtain ⟨rfl, rfl⟩ := h1
        simp only [refineLoop, (matchArgs_noMatch_iff _ _ _ _).2 (h2 s (by simp))]
        exact ih.2 ⟨pre, sig, post, vars, rfl, fun x hx => h2 x (by simp [hx]), h3, h4⟩

/-- **C06** A type error is reported exactly when there are signatures and each of
them is ruled out by an incompatible argument. -/
theorem C06_mismatch_iff (args : List (Option Ty)) (ext : List Sig) :
    refinePrelude args ext = .mismatch ↔
      ext ≠ [] ∧ ∀ s ∈ ext, Rejects s.names args s.args (List.replicate s.names.length none) := by
  have key : ∀ (ext : List Sig) (n : Nat), refineLoop args ext n = .mismatch ↔
      n > 0 ∧ ∀ s ∈ ext, Rejects s.names args s.args (List.replicate s.names.length none) := by
    intro ext n
    induction ext with
    | nil =>
      by_cases hn : n > 0
      · simp only [refineLoop, if_pos hn]; simp [hn]
      · simp only [refineLoop, if_neg hn]; simp [hn]
    | cons s ext ih =>
      simp only [refineLoop, List.mem_cons, forall_eq_or_imp,
        ← matchArgs_noMatch_iff s.names args s.args]
      split
      · next h => simp [h]
      · next h => simp [h]
      · next h => rw [ih]; simp [h]
      · next h => simp [h]
  rw [refinePrelude, key]
  cases ext <;> simp

/-- **C06** finding: when a signature has several type variables and one of them stays
unbound, the return type loses the ad-hoc names of all of them (`insert_none_var`
ignores its argument). -/
theorem C06_unbound_variable_erases :
    substRet ["A", "B"] [some "Foo", none] (adHoc "A" str) = str := by
  simp [substRet, insertVar, insertNoneVar]

/-! ## Non-vacuity -/

/-- `sum(f64, f64) -> f64` and `sum(str, str) -> str`. -/
def sampleExt : List Sig :=
  [{ names := [], args := [f64, f64], ret := f64 }, { names := [], args := [str, str], ret := str }]

theorem f64_not_str : f64.goesWith str = false := by
  rw [goesWith.eq_def]; simp [isAdHoc, isUnreachable, isAny]

example : refinePrelude ([str, str].map some) sampleExt = .found str := by
  rw [C06_first_compatible]
  · simp [sampleExt, List.find?, Sig.accepts, f64_not_str, Ty.C04_refl]
  · simp [sampleExt]
  · simp [sampleExt, Ty.ambiguous]

example : ∀ p ∈ [Pos.mk f64 f64 (some "km"), Pos.mk f64 f64 (some "km")],
    p.declared.isAdHoc = false ∧ p.supplied.isAdHoc = false ∧
      p.declared.goesWith p.supplied = true ∧ p.declared.ambiguous p.supplied = false := by
  simp [isAdHoc, Ty.C04_refl, Ty.ambiguous]

example : unify [none, some "km", some "km"] none = .ok (some "km") := rfl
example : unify [some "km", some "m"] none = .error () := rfl
example : unify [some "km", none] none = .error () := rfl

end Dyon
