import Verif.Check.LifetimeProps
import Verif.Module.Names
import Mathlib.Data.List.Nodup

/-!
# C59 and C65: calls have a function with as many parameters; extra signatures fit the function
-/

namespace Dyon.Check

namespace Spec

/-- What a call means: a function of the file; else one of another module or of the host; with an
alias the function that the alias stands for. -/
inductive Callee where
  | declared (f : Nat)
  | imported (d : Mod.Dfn)

/-- The call `c` means this function. -/
inductive CallMeans (env : Env) (ns : Nodes) (c : Nat) : Callee → Prop
  | declared {f : Nat} {n : String} : (ns.at c).alias = none → (ns.at c).name = some n → f < ns.length →
      (ns.at f).kind = .fn → (ns.at f).name = some n → CallMeans env ns c (.declared f)
  | imported {n : String} {i : Nat} {d : Mod.Dfn} : (ns.at c).alias = none → (ns.at c).name = some n →
      (∀ f < ns.length, (ns.at f).kind = .fn → (ns.at f).name ≠ some n) →
      env.prelude.functions n = some i → env.prelude.list[i]? = some d → CallMeans env ns c (.imported d)
  | aliased {al n : String} {i : Nat} {d : Mod.Dfn} : (ns.at c).alias = some al → (ns.at c).name = some n →
      env.aliases.get al n = some (.loaded i) → env.prelude.list[i]? = some d → CallMeans env ns c (.imported d)

/-- The number of parameters of a function. -/
def Callee.arity (ns : Nodes) : Callee → Nat
  | .declared f => (ns.args f).length
  | .imported d => d.lts.length

/-- Parts of a call give this number of arguments: the components of a swizzle, or one. -/
inductive Gives (ns : Nodes) : List Nat → Nat → Prop
  | nil : Gives ns [] 0
  | other {c cs n} : (ns.at c).kind ≠ .callArg → Gives ns cs n → Gives ns (c :: cs) n
  | one {c cs n} : (ns.at c).kind = .callArg → (∀ s ∈ (ns.at c).children, (ns.at s).kind ≠ .swizzle) →
      Gives ns cs n → Gives ns (c :: cs) (n + 1)
  | swizzle {c cs n before s after} : (ns.at c).kind = .callArg → (ns.at c).children = before ++ s :: after →
      (∀ b ∈ before, (ns.at b).kind ≠ .swizzle) → (ns.at s).kind = .swizzle → Gives ns cs n →
      Gives ns (c :: cs) ((ns.at s).children.countP (fun k => (ns.at k).kind ∈ [.sw0, .sw1, .sw2, .sw3]) + n)

/-- What later checks read of a call: the declaration, or the lifetimes of the parameters. -/
def Callee.Linked (out : Nodes) (c : Nat) : Callee → Prop
  | .declared f => (out.at c).declaration = some f
  | .imported d => (out.at c).lts = d.lts

/-- Functions have names. -/
def Named (ns : Nodes) : Prop := ∀ f < ns.length, (ns.at f).kind = .fn → ∃ n, (ns.at f).name = some n

/-- No two functions have the same name. -/
def FunctionsDistinct (ns : Nodes) : Prop :=
  ∀ f < ns.length, ∀ g < ns.length, (ns.at f).kind = .fn → (ns.at g).kind = .fn →
    (ns.at f).name = (ns.at g).name → f = g

/-- No two parameters of the function have the same name. -/
def ParamsDistinct (ns : Nodes) (f : Nat) : Prop := ((ns.args f).map fun a => (ns.at a).name).Nodup

/-- The extra signature `s` of the function `f` of type `F` has as many types as the function has
parameters, and the types go with those of the parameters and the type of the function. -/
structure SigFits (ns : Nodes) (f : Nat) (F : Ty) (s : Nat) : Prop where
  count : ((ns.at s).children.filter fun t => (ns.at t).kind = .tyArg).length = (ns.args f).length
  args : ∀ (j t a : Nat) (T P : Ty), ((ns.at s).children.filter fun t => (ns.at t).kind = .tyArg)[j]? = some t →
    (ns.args f)[j]? = some a → (ns.at t).ty = some T → (ns.at a).ty = some P → P.goesWith T = true
  ret : ∀ t ∈ (ns.at s).children, (ns.at t).kind = .tyRet → ∀ R, (ns.at t).ty = some R → F.goesWith R = true

/-- The extra signatures of the function fit it; a function without result has none. -/
def ExtraFits (ns : Nodes) (f : Nat) : Prop :=
  ∀ F, (ns.at f).ty = some F → ∀ s ∈ (ns.at f).children, (ns.at s).kind = .ty → F ≠ .void ∧ SigFits ns f F s

/-- The parameters of a function come first, ast: the grammar has `fn name(args) ..`. -/
def ParamsFirst (ns : Nodes) (f : Nat) : Prop :=
  ∃ rest, (ns.at f).children = ns.args f ++ rest

end Spec

open Spec

/-! ## Linking -/

/-- Equal up to what linking writes. -/
def Like (ns ns' : Nodes) : Prop :=
  ns'.length = ns.length ∧
    ∀ i, { ns'.at i with declaration := none, lts := [] } = { ns.at i with declaration := none, lts := [] }

theorem Like.refl (ns : Nodes) : Like ns ns := ⟨rfl, fun _ => rfl⟩

theorem Like.trans {a b c : Nodes} (h : Like a b) (h' : Like b c) : Like a c :=
  ⟨h'.1.trans h.1, fun i => (h'.2 i).trans (h.2 i)⟩

theorem Like.symm {a b : Nodes} (h : Like a b) : Like b a := ⟨h.1.symm, fun i => (h.2 i).symm⟩

theorem Like.kind {a b : Nodes} (h : Like a b) (i : Nat) : (b.at i).kind = (a.at i).kind := by
  have := congrArg Node.kind (h.2 i); exact this
theorem Like.children {a b : Nodes} (h : Like a b) (i : Nat) : (b.at i).children = (a.at i).children := by
  have := congrArg Node.children (h.2 i); exact this
theorem Like.names {a b : Nodes} (h : Like a b) (i : Nat) : (b.at i).names = (a.at i).names := by
  have := congrArg Node.names (h.2 i); exact this
theorem Like.name {a b : Nodes} (h : Like a b) (i : Nat) : (b.at i).name = (a.at i).name := by
  simp only [Node.name, h.names]
theorem Like.alias {a b : Nodes} (h : Like a b) (i : Nat) : (b.at i).alias = (a.at i).alias := by
  have := congrArg Node.alias (h.2 i); exact this
theorem Like.child {a b : Nodes} (h : Like a b) (i : Nat) (k : Kind) : b.child i k = a.child i k := by
  simp only [Nodes.child, h.children, h.kind]
theorem Like.width {a b : Nodes} (h : Like a b) : b.width = a.width := by
  funext i; simp only [Nodes.width, h.child, h.children, h.kind]
theorem Like.functions {a b : Nodes} (h : Like a b) : b.functions = a.functions := by
  simp only [Nodes.functions, h.1, h.kind]
theorem Like.args {a b : Nodes} (h : Like a b) (i : Nat) : b.args i = a.args i := by
  simp only [Nodes.args, h.children, h.kind]
theorem Like.argCount {a b : Nodes} (h : Like a b) (i : Nat) : b.argCount i = a.argCount i := by
  simp only [Nodes.argCount, Nodes.callArgs, h.children, h.kind, h.width]

theorem at_modify' (ns : Nodes) (i k : Nat) (g : Node → Node) :
    Nodes.at (ns.modify i g) k = if k = i ∧ k < ns.length then g (ns.at k) else ns.at k := by
  simp only [Nodes.at, List.getD_eq_getElem?_getD, List.getElem?_modify]
  by_cases hk : k < ns.length
  · simp only [List.getElem?_eq_getElem hk]
    by_cases h : i = k
    · subst h; simp [hk]
    · simp [h, Ne.symm h]
  · simp [List.getElem?_eq_none (by omega : ns.length ≤ k), hk]

/-- What linking one call finds and writes. -/
theorem linkCall_ok {env : Env} {look : Mod.Map Nat} {ns ns' : Nodes} {c : Nat}
    (h : ns.linkCall env look c = .ok ns') : Like ns ns' ∧ (∀ k, k ≠ c → ns'.at k = ns.at k) := by
  have key : ∀ g : Node → Node, (∀ n : Node, { g n with declaration := none, lts := [] } =
      { n with declaration := none, lts := [] }) → Like ns (ns.modify c g) ∧
      (∀ k, k ≠ c → Nodes.at (ns.modify c g) k = ns.at k) := by
    intro g hg
    refine ⟨⟨by simp, fun i => ?_⟩, fun k hk => ?_⟩
    · rw [at_modify']; split
      · exact hg _
      · rfl
    · rw [at_modify', if_neg (fun h => hk h.1)]
  simp only [Nodes.linkCall, Nodes.setDecl] at h
  repeat' split at h
  all_goals first
    | (cases h; exact key _ (fun _ => rfl))
    | (cases h; done)

theorem functions_mem {ns : Nodes} {f : Nat} : f ∈ ns.functions ↔ f < ns.length ∧ (ns.at f).kind = .fn := by
  simp [Nodes.functions]

theorem lookup_spec {ns : Nodes} {look : Mod.Map Nat} (hn : Named ns)
    (hl : Mod.functionLookup (ns.functions.map fun f => (ns.at f).name.getD "") 0 Mod.Map.empty = some look)
    (n : String) : (∀ i, look n = some i → ∃ f, ns.functions[i]? = some f ∧ f < ns.length ∧
        (ns.at f).kind = .fn ∧ (ns.at f).name = some n) ∧
      (look n = none → ∀ f < ns.length, (ns.at f).kind = .fn → (ns.at f).name ≠ some n) := by
  obtain ⟨h1, h2⟩ := Mod.functionLookup_get _ _ _ _ hl
  constructor
  · intro i hi
    by_cases hm : n ∈ ns.functions.map fun f => (ns.at f).name.getD ""
    · obtain ⟨j, hj⟩ := List.mem_iff_getElem?.1 hm
      have := h1 j n hj
      rw [hi] at this
      simp only [Nat.zero_add, Option.some.injEq] at this
      subst this
      rw [List.getElem?_map] at hj
      cases hf : ns.functions[i]? with
      | none => rw [hf] at hj; cases hj
      | some f =>
        rw [hf] at hj
        simp only [Option.map_some, Option.some.injEq] at hj
        obtain ⟨hlt, hk⟩ := functions_mem.1 (List.mem_of_getElem? hf)
        obtain ⟨m, hm⟩ := hn f hlt hk
        refine ⟨f, rfl, hlt, hk, ?_⟩
        rw [hm] at hj ⊢
        exact congrArg some hj
    · rw [h2 n hm] at hi; cases hi
  · intro hno f hf hk hname
    obtain ⟨j, hj⟩ := List.mem_iff_getElem?.1 (functions_mem.2 ⟨hf, hk⟩)
    have := h1 j n (by rw [List.getElem?_map, hj]; simp [hname])
    rw [hno] at this
    cases this

/-- One call. -/
theorem linkCall_spec {env : Env} {look : Mod.Map Nat} {ns ns' : Nodes} {c : Nat} (hn : Named ns) (hc : c < ns.length)
    (hl : Mod.functionLookup (ns.functions.map fun f => (ns.at f).name.getD "") 0 Mod.Map.empty = some look)
    (h : ns.linkCall env look c = .ok ns') : ∃ m, CallMeans env ns c m ∧ m.Linked ns' c ∧
      ((ns.at c).alias = none → m.arity ns = ns.argCount c) := by
  simp only [Nodes.linkCall] at h
  split at h
  · cases h
  · rename_i name hname
    split at h
    · cases h
    · rename_i sig hsig
      split at h
      · rename_i har
        simp only [Mod.checkCall] at hsig
        cases hal : (ns.at c).alias with
        | some al =>
          simp only [hal] at hsig
          split at hsig
          · rename_i i hi
            cases hsig
            simp only at h
            split at h
            · rename_i d hd
              cases h
              refine ⟨.imported d, .aliased hal hname hi hd, ?_, fun h => by cases h⟩
              simp only [Callee.Linked]
              rw [at_modify', if_pos ⟨rfl, hc⟩]
            · cases h
          · cases hsig
        | none =>
          simp only [hal] at hsig har
          obtain ⟨l1, l2⟩ := lookup_spec hn hl name
          cases hlk : look name with
          | some i =>
            simp only [hlk, Option.some.injEq] at hsig
            subst hsig
            obtain ⟨f, hf, h1, h2, h3⟩ := l1 i hlk
            simp only [hf, Except.ok.injEq] at h
            subst h
            refine ⟨.declared f, .declared hal hname h1 h2 h3, ?_, fun _ => ?_⟩
            · simp only [Callee.Linked, Nodes.setDecl]
              rw [at_modify', if_pos ⟨rfl, hc⟩]
            · simpa [Mod.checkArity, hf, Callee.arity] using har
          | none =>
            simp only [hlk] at hsig
            split at hsig
            · rename_i i hi
              cases hsig
              simp only at h
              split at h
              · rename_i d hd
                cases h
                refine ⟨.imported d, .imported hal hname (l2 hlk) hi hd, ?_, fun _ => ?_⟩
                · simp only [Callee.Linked]
                  rw [at_modify', if_pos ⟨rfl, hc⟩]
                · simpa [Mod.checkArity, hd, Callee.arity] using har
              · cases h
            · cases hsig
      · cases h

theorem means_like {env : Env} {a b : Nodes} (h : Like a b) {c : Nat} {m : Callee} (hm : CallMeans env b c m) :
    CallMeans env a c m := by
  cases hm with
  | declared h1 h2 h3 h4 h5 =>
    rw [h.alias] at h1; rw [h.name] at h2; rw [h.1] at h3; rw [h.kind] at h4; rw [h.name] at h5
    exact .declared h1 h2 h3 h4 h5
  | imported h1 h2 h3 h4 h5 =>
    rw [h.alias] at h1; rw [h.name] at h2
    exact .imported h1 h2 (fun f hf hk => by
      have := h3 f (by rw [h.1]; exact hf) (by rw [h.kind]; exact hk)
      rwa [h.name] at this) h4 h5
  | aliased h1 h2 h3 h4 =>
    rw [h.alias] at h1; rw [h.name] at h2
    exact .aliased h1 h2 h3 h4

theorem arity_like {a b : Nodes} (h : Like a b) (m : Callee) : m.arity b = m.arity a := by
  cases m <;> simp only [Callee.arity, h.args]

theorem linkCallList_spec {env : Env} {look : Mod.Map Nat} {ns0 : Nodes} (hn : Named ns0)
    (hl : Mod.functionLookup (ns0.functions.map fun f => (ns0.at f).name.getD "") 0 Mod.Map.empty = some look) :
    ∀ (cs : List Nat) (ns out : Nodes), Like ns0 ns → cs.Nodup → (∀ c ∈ cs, c < ns0.length) →
      ns.linkCallList env look cs = .ok out → Like ns0 out ∧ (∀ k, k ∉ cs → out.at k = ns.at k) ∧
      ∀ c ∈ cs, ∃ m, CallMeans env ns0 c m ∧ m.Linked out c ∧ ((ns0.at c).alias = none → m.arity ns0 = ns0.argCount c)
  | [], ns, out, hL, _, _, h => by
    cases h
    exact ⟨hL, fun _ _ => rfl, fun c hc => by cases hc⟩
  | c :: cs, ns, out, hL, hnd, hcs, h => by
    simp only [Nodes.linkCallList] at h
    split at h
    · cases h
    · rename_i ns1 h1
      obtain ⟨hL1, hk1⟩ := linkCall_ok h1
      rw [List.nodup_cons] at hnd
      obtain ⟨i1, i2, i3⟩ := linkCallList_spec hn hl cs ns1 out (hL.trans hL1) hnd.2
        (fun c hc => hcs c (List.mem_cons_of_mem _ hc)) h
      refine ⟨i1, fun k hk => ?_, fun d hd => ?_⟩
      · rw [List.mem_cons, not_or] at hk
        rw [i2 k hk.2, hk1 k hk.1]
      · rcases List.mem_cons.1 hd with rfl | hd
        · have hfn : Mod.functionLookup (ns.functions.map fun f => (ns.at f).name.getD "") 0 Mod.Map.empty
              = some look := by
            simp only [hL.functions, hL.name]; exact hl
          obtain ⟨m, m1, m2, m3⟩ := linkCall_spec (env := env) (ns := ns) (c := d)
            (fun f hf hk => by
              rw [hL.1] at hf; rw [hL.kind] at hk; rw [hL.name]; exact hn f hf hk)
            (by rw [hL.1]; exact hcs d (List.mem_cons_self ..)) hfn h1
          refine ⟨m, means_like hL m1, ?_, fun ha => ?_⟩
          · have := i2 d hnd.1
            cases m <;> simpa only [Callee.Linked, this] using m2
          · rw [← arity_like hL, ← hL.argCount]
            exact m3 (by rw [hL.alias]; exact ha)
        · exact i3 d hd

theorem calls_nodup (ns : Nodes) : ns.calls.Nodup := List.Nodup.filter _ List.nodup_range

theorem calls_mem {ns : Nodes} {c : Nat} : c ∈ ns.calls ↔ c < ns.length ∧ (ns.at c).kind = .call := by
  simp [Nodes.calls]

theorem isSw_iff (k : Kind) : k.isSw = decide (k ∈ [Kind.sw0, .sw1, .sw2, .sw3]) := by cases k <;> rfl

theorem gives_argCount {ns : Nodes} : ∀ {cs : List Nat} {n : Nat},
    Gives ns cs n ↔ n = ((cs.filter fun a => (ns.at a).kind = .callArg).map ns.width).sum := by
  intro cs
  induction cs with
  | nil => intro n; exact ⟨fun h => by cases h; rfl, fun h => by subst h; exact .nil⟩
  | cons c cs ih =>
    intro n
    constructor
    · intro h
      cases h with
      | other hk h => rw [List.filter_cons_of_neg (by simpa using hk)]; exact ih.1 h
      | one hk hs h =>
        rw [List.filter_cons_of_pos (by simpa using hk), List.map_cons, List.sum_cons, ← ih.1 h]
        have : ns.child c .swizzle = none := by
          simp only [Nodes.child, List.find?_eq_none, decide_eq_true_eq]
          exact hs
        simp only [Nodes.width, this]
        omega
      | swizzle hk hc hb hs h =>
        rename_i m before s after
        rw [List.filter_cons_of_pos (by simpa using hk), List.map_cons, List.sum_cons, ← ih.1 h]
        have : ns.child c .swizzle = some s := by
          simp only [Nodes.child, hc, List.find?_append, List.find?_cons, hs, decide_true]
          rw [List.find?_eq_none.2 (by simpa using hb)]
          rfl
        simp only [Nodes.width, this, ← List.countP_eq_length_filter, isSw_iff]
    · intro h
      by_cases hk : (ns.at c).kind = .callArg
      · rw [List.filter_cons_of_pos (by simpa using hk), List.map_cons, List.sum_cons] at h
        have hr := ih.2 rfl
        cases hc : ns.child c .swizzle with
        | none =>
          simp only [Nodes.width, hc] at h
          rw [h, Nat.add_comm]
          refine .one hk ?_ hr
          simpa only [Nodes.child, List.find?_eq_none, decide_eq_true_eq] using hc
        | some s =>
          obtain ⟨h1, before, after, h2, h3⟩ := List.find?_eq_some_iff_append.1 hc
          simp only [Nodes.width, hc, ← List.countP_eq_length_filter, isSw_iff] at h
          rw [h]
          exact .swizzle hk h2 (by simpa using h3) (by simpa using h1) hr
      · rw [List.filter_cons_of_neg (by simpa using hk)] at h
        exact .other hk (ih.2 h)

theorem gives_iff {ns : Nodes} {c n : Nat} : Gives ns (ns.at c).children n ↔ n = ns.argCount c := gives_argCount

/-- **C59.** In an accepted file every call means a function: one of the file, else one of another
module or of the host. It is linked to it, and if the call is not through an alias, the function has
as many parameters as the call has arguments. -/
theorem C59_resolved_partial {env : Env} {ns out : Nodes} (hn : Named ns) (h : ns.linkCalls env = .ok out) {c : Nat}
    (hc : c < ns.length) (hk : (ns.at c).kind = .call) :
    ∃ m, CallMeans env ns c m ∧ m.Linked out c ∧
      ((ns.at c).alias = none → Gives ns (ns.at c).children (m.arity ns)) := by
  simp only [gives_iff]
  simp only [Nodes.linkCalls] at h
  split at h
  · cases h
  split at h
  · cases h
  split at h
  · cases h
  · rename_i look hl
    exact (linkCallList_spec hn hl ns.calls ns out (Like.refl _) (calls_nodup _)
      (fun c hc => (calls_mem.1 hc).1) h).2.2 c (calls_mem.2 ⟨hc, hk⟩)

/-- **C59.** Nothing but the calls is changed. -/
theorem C59_others {env : Env} {ns out : Nodes} (hn : Named ns) (h : ns.linkCalls env = .ok out) {k : Nat}
    (hk : (ns.at k).kind ≠ .call) : out.at k = ns.at k := by
  simp only [Nodes.linkCalls] at h
  split at h
  · cases h
  split at h
  · cases h
  split at h
  · cases h
  · rename_i look hl
    exact (linkCallList_spec hn hl ns.calls ns out (Like.refl _) (calls_nodup _)
      (fun c hc => (calls_mem.1 hc).1) h).2.1 k (fun hc => hk (calls_mem.1 hc).2)

theorem duplicateArg_go (ns : Nodes) : ∀ (as : List Nat) (seen : List (Option String)),
    Nodes.duplicateArg.go ns seen as = none ↔
      (as.map fun a => (ns.at a).name).Nodup ∧ ∀ a ∈ as, (ns.at a).name ∉ seen
  | [], seen => by simp [Nodes.duplicateArg.go]
  | a :: as, seen => by
    rw [Nodes.duplicateArg.go]
    split
    · rename_i h
      simp only [reduceCtorEq, List.mem_cons, forall_eq_or_imp, false_iff]
      exact fun h' => h'.2.1 h
    · rename_i h
      rw [duplicateArg_go ns as]
      simp only [List.map_cons, List.nodup_cons, List.mem_cons, forall_eq_or_imp, List.mem_map, not_or,
        not_exists, not_and]
      constructor
      · rintro ⟨h1, h2⟩
        exact ⟨⟨fun x hx => (h2 x hx).1, h1⟩, h, fun x hx => (h2 x hx).2⟩
      · rintro ⟨⟨h1, h2⟩, -, h3⟩
        exact ⟨h2, fun x hx => ⟨h1 x hx, h3 x hx⟩⟩

theorem duplicateArg_none {ns : Nodes} {f : Nat} : ns.duplicateArg f = none ↔ ParamsDistinct ns f := by
  rw [Nodes.duplicateArg, duplicateArg_go]
  simp [ParamsDistinct]

theorem functions_nodup {ns : Nodes} (hn : Named ns) :
    (ns.functions.map fun f => (ns.at f).name.getD "").Nodup ↔ FunctionsDistinct ns := by
  rw [List.nodup_map_iff_inj_on (show ns.functions.Nodup from List.Nodup.filter _ List.nodup_range)]
  constructor
  · intro h f hf g hg hkf hkg he
    exact h f (functions_mem.2 ⟨hf, hkf⟩) g (functions_mem.2 ⟨hg, hkg⟩) (by rw [he])
  · intro h f hf g hg he
    obtain ⟨f1, f2⟩ := functions_mem.1 hf
    obtain ⟨g1, g2⟩ := functions_mem.1 hg
    obtain ⟨n, hn1⟩ := hn f f1 f2
    obtain ⟨m, hm1⟩ := hn g g1 g2
    refine h f f1 g g1 f2 g2 ?_
    rw [hn1, hm1] at he ⊢
    exact congrArg some he

/-- **C59.** In an accepted file no two functions have the same name and no function has two
parameters of the same name. -/
theorem C59_distinct {env : Env} {ns out : Nodes} (hn : Named ns) (h : ns.linkCalls env = .ok out) :
    FunctionsDistinct ns ∧ ∀ f < ns.length, (ns.at f).kind = .fn → ParamsDistinct ns f := by
  simp only [Nodes.linkCalls] at h
  split at h
  · cases h
  · rename_i hd
    rw [List.findSome?_eq_none_iff] at hd
    split at h
    · cases h
    split at h
    · cases h
    · rename_i look hl
      refine ⟨?_, fun f hf hk => duplicateArg_none.1 (hd f (functions_mem.2 ⟨hf, hk⟩))⟩
      rw [← functions_nodup hn]
      by_contra hnd
      rw [(Mod.functionLookup_none _ _ _).2 (Or.inr hnd)] at hl
      cases hl

/-! ## Extra signatures -/

/-- Parameters come first: `skipToArg` stays where it is. -/
theorem skip_first {ns : Nodes} {f a : Nat} (hp : ParamsFirst ns f) (ha : a < (ns.args f).length) :
    ns.skipToArg f a = some a ∧ (ns.at f).children.getD a 0 = (ns.args f)[a] := by
  obtain ⟨rest, hr⟩ := hp
  have hk : (ns.at (ns.args f)[a]).kind = .arg := by
    have : (ns.args f)[a] ∈ ns.args f := List.getElem_mem ha
    exact of_decide_eq_true (List.mem_filter.1 this).2
  have hget : (ns.at f).children[a]? = some (ns.args f)[a] := by
    rw [hr, List.getElem?_append_left ha, List.getElem?_eq_getElem ha]
  have hlt : a < (ns.at f).children.length := by
    rw [hr, List.length_append]; omega
  constructor
  · rw [Nodes.skipToArg, List.drop_eq_getElem_cons hlt, List.findIdx?_cons]
    rw [List.getElem?_eq_getElem hlt, Option.some.injEq] at hget
    rw [hget]
    simp [hk]
  · rw [List.getD_eq_getElem?_getD, hget]; rfl

theorem extraParts_spec {ns : Nodes} {f : Nat} {F : Ty} (hp : ParamsFirst ns f) : ∀ (ts : List Nat) (arg count : Nat),
    arg = min count (ns.args f).length →
    ((∃ n, ns.extraParts f (ns.args f).length F ts arg count = .ok n) ↔
      (∀ (j t a : Nat) (T P : Ty), (ts.filter fun t => (ns.at t).kind = .tyArg)[j]? = some t →
        (ns.args f)[count + j]? = some a → (ns.at t).ty = some T → (ns.at a).ty = some P → P.goesWith T = true) ∧
      ∀ t ∈ ts, (ns.at t).kind = .tyRet → ∀ R, (ns.at t).ty = some R → F.goesWith R = true) ∧
    ∀ n, ns.extraParts f (ns.args f).length F ts arg count = .ok n →
      n = count + (ts.filter fun t => (ns.at t).kind = .tyArg).length
  | [], arg, count, _ => by
    refine ⟨⟨fun _ => ⟨?_, ?_⟩, fun _ => ⟨count, rfl⟩⟩, ?_⟩
    · simp
    · simp
    · intro n h; cases h; simp
  | t :: ts, arg, count, harg => by
    rw [Nodes.extraParts]
    by_cases hk : (ns.at t).kind = .tyArg
    · have hkr : (ns.at t).kind ≠ .tyRet := by rw [hk]; decide
      simp only [hk, if_true, List.filter_cons_of_pos, decide_true, List.length_cons]
      -- the statement about the rest
      have key : ∀ arg', arg' = min (count + 1) (ns.args f).length →
          (∀ (a : Nat) (T P : Ty), (ns.args f)[count]? = some a → (ns.at t).ty = some T → (ns.at a).ty = some P →
            P.goesWith T = true) →
          ((∃ n, ns.extraParts f (ns.args f).length F ts arg' (count + 1) = .ok n) ↔
            (∀ (j u a : Nat) (T P : Ty), (t :: ts.filter fun t => (ns.at t).kind = .tyArg)[j]? = some u →
              (ns.args f)[count + j]? = some a → (ns.at u).ty = some T → (ns.at a).ty = some P →
              P.goesWith T = true) ∧
            ∀ u ∈ t :: ts, (ns.at u).kind = .tyRet → ∀ R, (ns.at u).ty = some R → F.goesWith R = true) ∧
          ∀ n, ns.extraParts f (ns.args f).length F ts arg' (count + 1) = .ok n →
            n = count + ((ts.filter fun t => (ns.at t).kind = .tyArg).length + 1) := by
        intro arg' ha' hhead
        obtain ⟨i1, i2⟩ := extraParts_spec hp ts arg' (count + 1) ha'
        refine ⟨i1.trans ⟨?_, ?_⟩, fun n hn => by rw [i2 n hn]; omega⟩
        · rintro ⟨h1, h2⟩
          constructor
          · intro j u a T P hu ha hT hP
            cases j with
            | zero =>
              simp only [List.getElem?_cons_zero, Option.some.injEq] at hu
              subst hu
              exact hhead a T P ha hT hP
            | succ j =>
              rw [List.getElem?_cons_succ] at hu
              exact h1 j u a T P hu (by rw [show count + 1 + j = count + (j + 1) by omega]; exact ha) hT hP
          · intro u hu huk R hR
            rcases List.mem_cons.1 hu with rfl | hu
            · exact absurd huk hkr
            · exact h2 u hu huk R hR
        · rintro ⟨h1, h2⟩
          constructor
          · intro j u a T P hu ha hT hP
            exact h1 (j + 1) u a T P (by rw [List.getElem?_cons_succ]; exact hu)
              (by rw [show count + (j + 1) = count + 1 + j by omega]; exact ha) hT hP
          · exact fun u hu => h2 u (List.mem_cons_of_mem _ hu)
      by_cases hlt : arg < (ns.args f).length
      · have hac : arg = count := by omega
        subst hac
        rw [if_pos hlt]
        cases hty : (ns.at t).ty with
        | none =>
          exact key (arg + 1) (by omega) (fun a T P _ hT => by rw [hty] at hT; cases hT)
        | some T =>
          obtain ⟨s1, s2⟩ := skip_first hp hlt
          have hb' : takes (ns.at (ns.args f)[arg]).ty T = true ↔ ∀ (a : Nat) (T' P : Ty),
              (ns.args f)[arg]? = some a → (ns.at t).ty = some T' → (ns.at a).ty = some P →
              P.goesWith T' = true := by
            cases hat : (ns.at (ns.args f)[arg]).ty with
            | none =>
              simp only [takes, true_iff]
              intro a T' P ha hT hP
              rw [List.getElem?_eq_getElem hlt, Option.some.injEq] at ha
              rw [ha, hP] at hat; cases hat
            | some P =>
              simp only [takes]
              constructor
              · intro hg a T' P' ha hT hP
                rw [List.getElem?_eq_getElem hlt, Option.some.injEq] at ha
                rw [ha, hP] at hat; cases hat
                rw [hty] at hT; cases hT
                exact hg
              · intro hg
                exact hg _ T P (List.getElem?_eq_getElem hlt) hty hat
          simp only [s1, s2, hlt, decide_true, Bool.not_true, Bool.false_or]
          by_cases hb : takes (ns.at (ns.args f)[arg]).ty T = true
          · simp only [hb, if_true]
            exact key (arg + 1) (by omega) (hb'.1 hb)
          · simp only [hb, if_false]
            refine ⟨⟨fun h => ?_, fun h => ?_⟩, fun n hn => by cases hn⟩
            · obtain ⟨n, hn⟩ := h; cases hn
            · exact absurd (hb'.2 (fun a T' P ha hT hP => h.1 0 t a T' P (by simp) (by simpa using ha) hT hP)) hb
      · rw [if_neg hlt]
        refine key arg (by omega) (fun a T P ha => ?_)
        rw [List.getElem?_eq_none (by omega)] at ha
        cases ha
    · simp only [hk, if_false, decide_false, Bool.false_eq_true, not_false_eq_true, List.filter_cons_of_neg]
      obtain ⟨i1, i2⟩ := extraParts_spec hp ts arg count harg
      by_cases hr : (ns.at t).kind = .tyRet
      · rw [if_pos hr]
        cases hty : (ns.at t).ty with
        | none =>
          refine ⟨i1.trans ⟨?_, ?_⟩, i2⟩
          · rintro ⟨h1, h2⟩
            refine ⟨h1, fun u hu huk R hR => ?_⟩
            rcases List.mem_cons.1 hu with rfl | hu
            · rw [hty] at hR; cases hR
            · exact h2 u hu huk R hR
          · rintro ⟨h1, h2⟩
            exact ⟨h1, fun u hu => h2 u (List.mem_cons_of_mem _ hu)⟩
        | some R =>
          simp only
          split
          · rename_i hg
            refine ⟨i1.trans ⟨?_, ?_⟩, i2⟩
            · rintro ⟨h1, h2⟩
              refine ⟨h1, fun u hu huk R' hR => ?_⟩
              rcases List.mem_cons.1 hu with rfl | hu
              · rw [hty] at hR; cases hR; exact hg
              · exact h2 u hu huk R' hR
            · rintro ⟨h1, h2⟩
              exact ⟨h1, fun u hu => h2 u (List.mem_cons_of_mem _ hu)⟩
          · rename_i hg
            simp only [reduceCtorEq, exists_false, false_iff, false_implies, implies_true, and_true]
            rintro ⟨-, h2⟩
            exact hg (h2 t (List.mem_cons_self ..) hr R hty)
      · rw [if_neg hr]
        refine ⟨i1.trans ⟨?_, ?_⟩, i2⟩
        · rintro ⟨h1, h2⟩
          refine ⟨h1, fun u hu huk R hR => ?_⟩
          rcases List.mem_cons.1 hu with rfl | hu
          · exact absurd huk hr
          · exact h2 u hu huk R hR
        · rintro ⟨h1, h2⟩
          exact ⟨h1, fun u hu => h2 u (List.mem_cons_of_mem _ hu)⟩

theorem extraOne_none {ns : Nodes} {f s : Nat} {F : Ty} (hp : ParamsFirst ns f) :
    ns.extraOne f (ns.args f).length F s = none ↔ ((ns.at s).kind = .ty → SigFits ns f F s) := by
  rw [Nodes.extraOne]
  by_cases hk : (ns.at s).kind = .ty
  · simp only [hk, if_true, true_implies]
    obtain ⟨i1, i2⟩ := extraParts_spec (F := F) hp (ns.at s).children 0 0 (by simp)
    simp only [Nat.zero_add] at i1 i2
    cases he : ns.extraParts f (ns.args f).length F (ns.at s).children 0 0 with
    | error e =>
      simp only [reduceCtorEq, false_iff]
      intro hf
      obtain ⟨n, hn⟩ := i1.2 ⟨hf.args, hf.ret⟩
      rw [he] at hn; cases hn
    | ok n =>
      have hn := i2 n he
      obtain ⟨h1, h2⟩ := i1.1 ⟨n, he⟩
      simp only
      constructor
      · intro h
        have : n = (ns.args f).length := by
          by_contra hne
          simp [hne] at h
        exact ⟨by rw [← hn, this], h1, h2⟩
      · intro h
        rw [if_neg]
        rw [hn, h.count]; simp
  · simp [hk]

/-- **C65.** The checker accepts the extra signatures of a function if and only if they fit it:
as many types as the function has parameters, and types that go with those of the parameters and the
type of the function. -/
theorem C65_extra {ns : Nodes} {f : Nat} (hp : ParamsFirst ns f) : ns.extra f = none ↔ ExtraFits ns f := by
  cases hF : (ns.at f).ty with
  | none => simp [ExtraFits, Nodes.extra, hF]
  | some F =>
    by_cases hv : F = .void
    · subst hv
      simp only [Nodes.extra, hF, List.findSome?_eq_none_iff]
      constructor
      · intro h F' hF' s hs hk
        have := h s hs
        simp [hk] at this
      · intro h s hs
        split
        · rename_i hk
          exact absurd rfl (h _ hF s hs hk).1
        · rfl
    · have : ns.extra f = (ns.at f).children.findSome? (ns.extraOne f (ns.args f).length F) := by
        rw [Nodes.extra, hF]
        cases F <;> first | rfl | exact absurd rfl hv
      rw [this, List.findSome?_eq_none_iff]
      constructor
      · intro h F' hF' s hs hk
        rw [hF] at hF'; cases hF'
        exact ⟨hv, (extraOne_none hp).1 (h s hs) hk⟩
      · intro h s hs
        exact (extraOne_none hp).2 (fun hk => (h F hF s hs hk).2)

/-- **C65.** In an accepted file the extra signatures of every function fit it. -/
theorem C65_accepted {env : Env} {ns out : Nodes} (h : ns.linkCalls env = .ok out) {f : Nat} (hf : f < ns.length)
    (hk : (ns.at f).kind = .fn) (hp : ParamsFirst ns f) : ExtraFits ns f := by
  rw [← C65_extra hp]
  simp only [Nodes.linkCalls] at h
  split at h
  · cases h
  split at h
  · cases h
  · rename_i hd
    rw [List.findSome?_eq_none_iff] at hd
    exact hd f (functions_mem.2 ⟨hf, hk⟩)

/-! ## Nothing else is refused -/

theorem linkCall_complete {env : Env} {look : Mod.Map Nat} {ns : Nodes} {c : Nat} {m : Callee}
    (hd : FunctionsDistinct ns) (hn : Named ns)
    (hl : Mod.functionLookup (ns.functions.map fun f => (ns.at f).name.getD "") 0 Mod.Map.empty = some look)
    (hm : CallMeans env ns c m) (ha : (ns.at c).alias = none → m.arity ns = ns.argCount c) :
    ∃ ns', ns.linkCall env look c = .ok ns' := by
  cases hm with
  | declared h1 h2 h3 h4 h5 =>
    rename_i f n
    obtain ⟨l1, l2⟩ := lookup_spec hn hl n
    have ha := ha h1
    simp only [Callee.arity] at ha
    cases hlk : look n with
    | none => exact absurd h5 (l2 hlk f h3 h4)
    | some i =>
      obtain ⟨g, g1, g2, g3, g4⟩ := l1 i hlk
      have hfg : f = g := hd f h3 g g2 h4 g3 (by rw [h5, g4])
      subst hfg
      simp only [Nodes.linkCall, h2, Mod.checkCall, h1, hlk, Mod.checkArity, List.getElem?_map, g1]
      simp [ha]
  | imported h1 h2 h3 h4 h5 =>
    rename_i n i d
    obtain ⟨l1, l2⟩ := lookup_spec hn hl n
    have ha := ha h1
    simp only [Callee.arity] at ha
    cases hlk : look n with
    | none =>
      simp only [Nodes.linkCall, h2, Mod.checkCall, h1, hlk, h4, Mod.checkArity, h5]
      simp [ha]
    | some j =>
      obtain ⟨g, g1, g2, g3, g4⟩ := l1 j hlk
      exact absurd g4 (h3 g g2 g3)
  | aliased h1 h2 h3 h4 =>
    simp only [Nodes.linkCall, h2, Mod.checkCall, h1, h3, Mod.checkArity, h4]
    simp

theorem linkCallList_complete {env : Env} {look : Mod.Map Nat} {ns0 : Nodes} (hn : Named ns0)
    (hd : FunctionsDistinct ns0)
    (hl : Mod.functionLookup (ns0.functions.map fun f => (ns0.at f).name.getD "") 0 Mod.Map.empty = some look) :
    ∀ (cs : List Nat) (ns : Nodes), Like ns0 ns →
      (∀ c ∈ cs, ∃ m, CallMeans env ns0 c m ∧ ((ns0.at c).alias = none → m.arity ns0 = ns0.argCount c)) →
      ∃ out, ns.linkCallList env look cs = .ok out
  | [], ns, _, _ => ⟨ns, rfl⟩
  | c :: cs, ns, hL, h => by
    obtain ⟨m, h1, h2⟩ := h c (List.mem_cons_self ..)
    obtain ⟨ns1, h3⟩ := linkCall_complete (env := env) (look := look) (ns := ns) (c := c) (m := m)
      (fun f hf g hg => by
        rw [hL.1] at hf hg
        rw [hL.kind, hL.kind, hL.name, hL.name]
        exact hd f hf g hg)
      (fun f hf hk => by rw [hL.1] at hf; rw [hL.kind] at hk; rw [hL.name]; exact hn f hf hk)
      (by simp only [hL.functions, hL.name]; exact hl) (means_like hL.symm h1)
      (fun ha => by rw [arity_like hL, hL.argCount]; exact h2 (by rw [← hL.alias]; exact ha))
    obtain ⟨out, h4⟩ := linkCallList_complete hn hd hl cs ns1 (hL.trans (linkCall_ok h3).1)
      (fun c hc => h c (List.mem_cons_of_mem _ hc))
    exact ⟨out, by simp only [Nodes.linkCallList, h3, h4]⟩

/-- **C59.** A file in which every call means a function with as many parameters, names are distinct
and the extra signatures fit is not refused. -/
theorem C59_complete {env : Env} {ns : Nodes} (hn : Named ns) (hd : FunctionsDistinct ns)
    (hp : ∀ f < ns.length, (ns.at f).kind = .fn → ParamsDistinct ns f ∧ ParamsFirst ns f ∧ ExtraFits ns f)
    (hc : ∀ c < ns.length, (ns.at c).kind = .call →
      ∃ m, CallMeans env ns c m ∧ ((ns.at c).alias = none → Gives ns (ns.at c).children (m.arity ns))) :
    ∃ out, ns.linkCalls env = .ok out := by
  simp only [gives_iff] at hc
  have h1 : ns.functions.findSome? ns.duplicateArg = none := by
    rw [List.findSome?_eq_none_iff]
    intro f hf
    obtain ⟨f1, f2⟩ := functions_mem.1 hf
    exact duplicateArg_none.2 (hp f f1 f2).1
  have h2 : ns.functions.findSome? ns.extra = none := by
    rw [List.findSome?_eq_none_iff]
    intro f hf
    obtain ⟨f1, f2⟩ := functions_mem.1 hf
    exact (C65_extra (hp f f1 f2).2.1).2 (hp f f1 f2).2.2
  cases hl : Mod.functionLookup (ns.functions.map fun f => (ns.at f).name.getD "") 0 Mod.Map.empty with
  | none =>
    rw [Mod.functionLookup_none] at hl
    rcases hl with ⟨n, -, h⟩ | h
    · cases h
    · exact absurd ((functions_nodup hn).2 hd) h
  | some look =>
    simp only [Nodes.linkCalls, h1, h2, hl]
    exact linkCallList_complete hn hd hl ns.calls ns (Like.refl _)
      (fun c h => hc c (calls_mem.1 h).1 (calls_mem.1 h).2)

/-! ## `in` expressions -/

namespace Spec

/-- The name after `in` is that of a function: of the file, of another module or of the host, or
through an alias. -/
inductive InMeans (env : Env) (ns : Nodes) (c : Nat) : Prop
  | declared {f : Nat} {n : String} : (ns.at c).alias = none → (ns.at c).name = some n → f < ns.length →
      (ns.at f).kind = .fn → (ns.at f).name = some n → InMeans env ns c
  | imported {n : String} {i : Nat} : (ns.at c).alias = none → (ns.at c).name = some n →
      env.prelude.functions n = some i → InMeans env ns c
  | aliased {al n : String} {i : Nat} {d : Mod.Dfn} : (ns.at c).alias = some al → (ns.at c).name = some n →
      env.aliases.get al n = some (.loaded i) → env.prelude.list[i]? = some d → InMeans env ns c

end Spec

theorem linkIn_spec {env : Env} {look : Mod.Map Nat} {ns : Nodes} {c : Nat} (hn : Named ns) (hd : FunctionsDistinct ns)
    (hl : Mod.functionLookup (ns.functions.map fun f => (ns.at f).name.getD "") 0 Mod.Map.empty = some look) :
    (∃ ns', ns.linkIn env look c = .ok ns') ↔ InMeans env ns c := by
  constructor
  · rintro ⟨ns', h⟩
    simp only [Nodes.linkIn] at h
    split at h
    · cases h
    · rename_i name hname
      split at h
      · rename_i al hal
        split at h
        · rename_i i hi
          split at h
          · rename_i d hd'
            exact .aliased hal hname hi hd'
          · cases h
        · cases h
      · rename_i hal
        split at h
        · rename_i i hi
          obtain ⟨f, -, h2, h3, h4⟩ := (lookup_spec hn hl name).1 i hi
          exact .declared hal hname h2 h3 h4
        · split at h
          · rename_i hp
            obtain ⟨i, hi⟩ := Option.isSome_iff_exists.1 hp
            exact .imported hal hname hi
          · cases h
  · intro h
    cases h with
    | declared h1 h2 h3 h4 h5 =>
      rename_i f n
      cases hlk : look n with
      | none => exact absurd h5 ((lookup_spec hn hl n).2 hlk f h3 h4)
      | some i => exact ⟨ns, by simp only [Nodes.linkIn, h2, h1, hlk]⟩
    | imported h1 h2 h3 =>
      rename_i n i
      cases hlk : look n with
      | none => exact ⟨ns, by simp only [Nodes.linkIn, h2, h1, hlk, h3, Option.isSome_some, if_true]⟩
      | some i => exact ⟨ns, by simp only [Nodes.linkIn, h2, h1, hlk]⟩
    | aliased h1 h2 h3 h4 =>
      rename_i al n i d
      exact ⟨ns.modify c fun n => { n with lts := d.lts }, by simp only [Nodes.linkIn, h2, h1, h3, h4]⟩

end Dyon.Check
