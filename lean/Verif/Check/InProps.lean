import Verif.Check.TypesDemo
import Verif.Eval.SenderProps
import Verif.Module.Lookup

/-!
# C66: `in` expressions

What a name after `in` means is `Spec.InMeans` (`Verif/Check/CallsProps.lean`).
-/

namespace Dyon.Check
open Spec

theorem linkIn_ok {env : Env} {look : Mod.Map Nat} {ns ns' : Nodes} {c : Nat}
    (h : ns.linkIn env look c = .ok ns') : Like ns ns' ∧ (∀ k, k ≠ c → ns'.at k = ns.at k) := by
  have key : ∀ g : Node → Node, (∀ n : Node, { g n with declaration := none, lts := [] } =
      { n with declaration := none, lts := [] }) → Like ns (ns.modify c g) ∧
      (∀ k, k ≠ c → Nodes.at (ns.modify c g) k = ns.at k) := by
    intro g hg
    refine ⟨⟨by simp, fun i => ?_⟩, fun k hk => ?_⟩
    · rw [at_modify']; split
      · exact hg _
      · rfl
    · rw [at_modify', if_neg (fun h => hk h.1)]
  simp only [Nodes.linkIn] at h
  repeat' split at h
  all_goals first
    | (cases h; exact key _ (fun _ => rfl))
    | (cases h; exact ⟨Like.refl _, fun _ _ => rfl⟩)
    | (cases h; done)

theorem named_like {a b : Nodes} (h : Like a b) (hn : Named a) : Named b := fun f hf hk => by
  rw [h.1] at hf; rw [h.kind] at hk; rw [h.name]; exact hn f hf hk

theorem distinct_like {a b : Nodes} (h : Like a b) (hd : FunctionsDistinct a) : FunctionsDistinct b :=
  fun f hf g hg hkf hkg he => by
    rw [h.1] at hf hg; rw [h.kind] at hkf hkg; rw [h.name, h.name] at he
    exact hd f hf g hg hkf hkg he

theorem inMeans_like {env : Env} {a b : Nodes} (h : Like a b) {c : Nat} (hm : InMeans env a c) : InMeans env b c := by
  cases hm with
  | declared h1 h2 h3 h4 h5 =>
    exact .declared (by rw [h.alias]; exact h1) (by rw [h.name]; exact h2) (by rw [h.1]; exact h3)
      (by rw [h.kind]; exact h4) (by rw [h.name]; exact h5)
  | imported h1 h2 h3 => exact .imported (by rw [h.alias]; exact h1) (by rw [h.name]; exact h2) h3
  | aliased h1 h2 h3 h4 => exact .aliased (by rw [h.alias]; exact h1) (by rw [h.name]; exact h2) h3 h4

theorem linkInList_spec {env : Env} {look : Mod.Map Nat} {ns0 : Nodes} (hn : Named ns0) (hd : FunctionsDistinct ns0)
    (hl : Mod.functionLookup (ns0.functions.map fun f => (ns0.at f).name.getD "") 0 Mod.Map.empty = some look) :
    ∀ (cs : List Nat) (ns : Nodes), Like ns0 ns →
      ((∃ out, ns.linkInList env look cs = .ok out) ↔ ∀ c ∈ cs, InMeans env ns0 c)
  | [], ns, _ => ⟨fun _ _ hc => (by cases hc), fun _ => ⟨ns, rfl⟩⟩
  | c :: cs, ns, hL => by
    have hfn : Mod.functionLookup (ns.functions.map fun f => (ns.at f).name.getD "") 0 Mod.Map.empty
        = some look := by
      simp only [hL.functions, hL.name]; exact hl
    have hs := linkIn_spec (env := env) (c := c) (named_like hL hn) (distinct_like hL hd) hfn
    simp only [Nodes.linkInList]
    constructor
    · rintro ⟨out, h⟩
      split at h
      · cases h
      · rename_i ns1 h1
        have ih := (linkInList_spec hn hd hl cs ns1 (hL.trans (linkIn_ok h1).1)).1 ⟨out, h⟩
        intro d hd'
        rcases List.mem_cons.1 hd' with rfl | hd'
        · exact inMeans_like hL.symm (hs.1 ⟨_, h1⟩)
        · exact ih d hd'
    · intro h
      obtain ⟨ns1, h1⟩ := hs.2 (inMeans_like hL (h c (List.mem_cons_self ..)))
      rw [h1]
      exact (linkInList_spec hn hd hl cs ns1 (hL.trans (linkIn_ok h1).1)).2
        fun d hd' => h d (List.mem_cons_of_mem _ hd')

theorem linkInList_ok {env : Env} {look : Mod.Map Nat} : ∀ {cs : List Nat} {ns out : Nodes},
    ns.linkInList env look cs = .ok out → Like ns out ∧ ∀ k, k ∉ cs → out.at k = ns.at k
  | [], ns, out, h => by cases h; exact ⟨Like.refl _, fun _ _ => rfl⟩
  | c :: cs, ns, out, h => by
    simp only [Nodes.linkInList] at h
    split at h
    · cases h
    · rename_i ns1 h1
      obtain ⟨a1, a2⟩ := linkIn_ok h1
      obtain ⟨b1, b2⟩ := linkInList_ok h
      refine ⟨a1.trans b1, fun k hk => ?_⟩
      rw [List.mem_cons, not_or] at hk
      rw [b2 k hk.2, a2 k hk.1]

theorem linkCalls_like {env : Env} {ns out : Nodes} (h : ns.linkCalls env = .ok out) (hn : Named ns) : Like ns out := by
  simp only [Nodes.linkCalls] at h
  split at h
  · cases h
  split at h
  · cases h
  split at h
  · cases h
  · rename_i look hl
    exact (linkCallList_spec hn hl ns.calls ns out (Like.refl _) (calls_nodup _)
      (fun c hc => (calls_mem.1 hc).1) h).1

theorem ins_mem {ns : Nodes} {c : Nat} : c ∈ ns.ins ↔ c < ns.length ∧ (ns.at c).kind = .in' := by
  simp [Nodes.ins]

/-- **C66.** A file whose functions and calls are accepted is accepted if and only if the name after
every `in` is that of a function: of the file, of an imported module or of the host. -/
theorem C66_accepted_iff {env : Env} {ns mid : Nodes} (hn : Named ns) (h : ns.linkCalls env = .ok mid) :
    (∃ out, ns.linkFns env = .ok out) ↔
      ∀ c < ns.length, (ns.at c).kind = .in' → InMeans env ns c := by
  have hL := linkCalls_like h hn
  have hd := (C59_distinct hn h).1
  simp only [Nodes.linkFns, h, Nodes.linkIns]
  have hlook : ∃ look, Mod.functionLookup (mid.functions.map fun f => (mid.at f).name.getD "") 0 Mod.Map.empty
      = some look := by
    simp only [hL.functions, hL.name]
    simp only [Nodes.linkCalls] at h
    split at h
    · cases h
    split at h
    · cases h
    split at h
    · cases h
    · rename_i look hl
      exact ⟨look, hl⟩
  obtain ⟨look, hl⟩ := hlook
  rw [hl]
  rw [linkInList_spec (named_like hL hn) (distinct_like hL hd) hl mid.ins mid (Like.refl _)]
  constructor
  · intro hh c hc hk
    exact inMeans_like hL.symm (hh c (ins_mem.2 ⟨by rw [hL.1]; exact hc, by rw [hL.kind]; exact hk⟩))
  · intro hh c hc
    obtain ⟨c1, c2⟩ := ins_mem.1 hc
    rw [hL.1] at c1; rw [hL.kind] at c2
    exact inMeans_like hL (hh c c1 c2)

/-- **C66.** Nothing but calls and `in` expressions is changed. -/
theorem C66_others {env : Env} {ns out : Nodes} (hn : Named ns) (h : ns.linkFns env = .ok out) {k : Nat}
    (h1 : (ns.at k).kind ≠ .call) (h2 : (ns.at k).kind ≠ .in') : out.at k = ns.at k := by
  simp only [Nodes.linkFns] at h
  split at h
  · cases h
  · rename_i mid hm
    have hL := linkCalls_like hm hn
    simp only [Nodes.linkIns] at h
    split at h
    · cases h
    · rw [(linkInList_ok h).2 k (fun hk => h2 (by rw [← hL.kind]; exact (ins_mem.1 hk).2)), C59_others hn hm h1]

section
variable [FloatOps] [VecMath]

/-- **C66**, false in general: `in` with a function of the host is accepted (`C66_host_accepted`), but
it is an error when it is executed, in every state: here `m` is the module with the functions of the
file, and none of its functions has the name. -/
theorem C66_host_fails (c : ECfg) (n : Nat) (m : Mod.Module) (a : Mod.Aliases) (rel : Nat) {s : Mod.Site}
    (hv : s.via = none) (hm : ∀ f ∈ m.functions, f.name ≠ s.name) (side : Side) (st : St) :
    eval c (n + 1) (.in_ (Mod.link m a rel s)) side st =
      .err (stackTrace st.calls ++ "\n" ++ "Expected loaded function") st := by
  have hf : ∀ i, Mod.link m a rel s ≠ .loaded i := by
    intro i
    simp only [Mod.link, hv, Mod.Module.find]
    rw [Mod.lastIdx_none.2 (fun f hf => by simpa using hm f hf)]
    cases m.externals.reverse.find? (fun e => e.name == s.name) with
    | none => simp
    | some e =>
      simp only [Mod.External.index]
      split
      · split <;> simp
      all_goals simp
  show inE c (Mod.link m a rel s) st = _
  generalize Mod.link m a rel s = f at hf
  cases f with
  | loaded i => exact absurd rfl (hf i)
  | _ => rfl

end

namespace Demo

/-- `in name`. -/
def inT (al : Option String) (name : String) : T :=
  nd .expr [.mk { kind := .in', «alias» := al, names := [name] } []]

/-- ```
fn g() { }
fn f() { a := in g; b := in print; c := in h::print }
``` -/
def inTrees : List T := [fnT "g" .void [nd .block []],
  fnT "f" .void [nd .block [inT none "g", inT none "print", inT (some "h") "print"]]]

/-- The nodes of the file. -/
def inProg : Nodes := linked (file inTrees)

theorem in_named : Named inProg := by
  intro f hf hk
  have : ∀ f ∈ List.range inProg.length, (inProg.at f).kind = .fn → (inProg.at f).name.isSome := by
    decide +kernel
  exact Option.isSome_iff_exists.1 (this f (List.mem_range.2 hf) hk)

theorem in_linked : inProg.linkCalls hostEnv = .ok (prepared inTrees) := by
  have h : (match inProg.linkCalls hostEnv with | .ok _ => true | .error _ => false) = true := by
    decide +kernel
  simp only [prepared]
  rw [show linked (file inTrees) = inProg from rfl]
  cases hx : inProg.linkCalls hostEnv with
  | ok ns => rfl
  | error e => rw [hx] at h; cases h

/-- The `in` expressions of a file. -/
example : ∀ c < inProg.length, (inProg.at c).kind = .in' → c = 5 ∨ c = 7 ∨ c = 9 := by decide +kernel

example : InMeans hostEnv inProg 5 :=
  .declared (f := 0) (n := "g") (by decide +kernel) (by decide +kernel) (by decide +kernel) (by decide +kernel)
    (by decide +kernel)

/-- **C66.** `in print` with a function of the host is accepted, with and without alias. -/
theorem C66_host_accepted : InMeans hostEnv inProg 7 ∧ InMeans hostEnv inProg 9 ∧
    ∃ out, inProg.linkFns hostEnv = .ok out := by
  have h : (match inProg.linkFns hostEnv with | .ok _ => true | .error _ => false) = true := by
    decide +kernel
  refine ⟨.imported (n := "print") (i := 0) (by decide +kernel) (by decide +kernel) rfl,
    .aliased (al := "h") (n := "print") (i := 0) (by decide +kernel) (by decide +kernel) rfl rfl, ?_⟩
  cases hx : inProg.linkFns hostEnv with
  | ok ns => exact ⟨_, rfl⟩
  | error e => rw [hx] at h; cases h

/-- `in none` is refused. -/
theorem in_unknown_refused : (match (linked (file [fnT "f" .void [nd .block [inT none "none"]]])).linkFns hostEnv with
    | .ok _ => false
    | .error e => e = .notFound 3) = true := by
  decide +kernel

example : inProg.linkCalls hostEnv = .ok (prepared inTrees) ∧
    ((∃ out, inProg.linkFns hostEnv = .ok out) ↔ ∀ c < inProg.length, (inProg.at c).kind = .in' → InMeans hostEnv inProg c) :=
  ⟨in_linked, C66_accepted_iff in_named in_linked⟩

example [FloatOps] [VecMath] (c : ECfg) (st : St) :
    eval c 1 (.in_ (Mod.link Mod.Demo.host (Mod.aliasesOfModule [] Mod.Demo.host) 0 (Mod.Demo.site none "g"))) .right st =
      .err (stackTrace st.calls ++ "\n" ++ "Expected loaded function") st :=
  C66_host_fails c 0 Mod.Demo.host _ 0 rfl (by decide) .right st

end Demo

end Dyon.Check
