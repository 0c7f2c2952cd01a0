import Verif.Check.TypesLemmas
import Verif.Check.Demo

/-!
# C60-C64: what the types of an accepted file satisfy
-/

namespace Dyon.Check

namespace Spec

/-- The arena is a tree: children know their parent and are stored after it. -/
def Tree (ns : Nodes) : Prop :=
  ∀ i, ∀ c ∈ (ns.at i).children, (ns.at c).parent = some i ∧ i < c ∧ c < ns.length

/-- The parameter number `j` of the function that is called by the node `c` has the type `P`. -/
inductive ParamType (env : Env) (ns : Nodes) (c j : Nat) : Ty → Prop
  /-- a function of the file -/
  | declared {f arg : Nat} {P : Ty} : (ns.at c).declaration = some f → (ns.at f).children[j]? = some arg →
      (ns.at arg).kind = .arg → (ns.at arg).ty = some P → ParamType env ns c j P
  /-- a function of another module or of the host, called by its name -/
  | prelude {n : String} {i : Nat} {d : Mod.Dfn} {P : Ty} : (ns.at c).declaration = none →
      (ns.at c).alias = none → (ns.at c).name = some n → env.prelude.functions n = some i →
      env.prelude.list[i]? = some d → d.tys[j]? = some P → ParamType env ns c j P
  /-- the same through an alias -/
  | aliased {al n : String} {i : Nat} {d : Mod.Dfn} {P : Ty} : (ns.at c).declaration = none →
      (ns.at c).alias = some al → (ns.at c).name = some n → env.aliases.get al n = some (.loaded i) →
      env.prelude.list[i]? = some d → d.tys[j]? = some P → ParamType env ns c j P

/-- The argument `a` of the call `c` is passed to the parameter number `j`. (A swizzle `xy v` is
passed to as many parameters as it has components.) -/
def PassedTo (ns : Nodes) (c a j : Nat) : Prop :=
  ∃ before after k, (ns.at c).children = before ++ a :: after ∧ a ∉ before ∧ k < ns.width a ∧
    j = (before.map ns.width).sum + k

/-- The node `r` is in the function `f` and not in a closure in it. -/
inductive Within (ns : Nodes) (f : Nat) : Nat → Prop
  | child {c : Nat} : c ∈ (ns.at f).children → Within ns f c
  | step {r c : Nat} : Within ns f r → (ns.at r).kind ≠ .closure → c ∈ (ns.at r).children → Within ns f c

/-- Kinds of nodes that are written around a single expression. -/
def Around : Kind → Prop
  | .ret | .val | .expr | .cond | .right | .elseIfCond | .grab | .callArg | .x | .y | .z | .w | .n => True
  | _ => False

/-- The node `i` has the type of the node `c`: `c` is the expression in it, the last statement of
the block, or the first branch of the `if`. -/
inductive TakesType (ns : Nodes) (i c : Nat) : Prop
  | around : Around (ns.at i).kind → (ns.at i).children = [c] → TakesType ns i c
  | block : (ns.at i).kind.isBlock = true → (ns.at i).children.getLast? = some c → TakesType ns i c
  | branch : (ns.at i).kind = .if' → ns.child i .trueBlock = some c → TakesType ns i c

end Spec

open Spec

/-! ## Arguments -/

theorem position_eq {ns : Nodes} {a : Nat} : ∀ {before after : List Nat}, a ∉ before →
    ns.position a (before ++ a :: after) = (before.map ns.width).sum
  | [], _, _ => by simp [Nodes.position]
  | b :: before, after, h => by
    simp only [List.mem_cons, not_or] at h
    simp only [List.cons_append, Nodes.position, Ne.symm h.1, if_false, List.map_cons, List.sum_cons,
      position_eq h.2]

theorem passed_positions {ns : Nodes} {c a ch j : Nat} (hch : (ns.at a).children = [ch])
    (h : PassedTo ns c a j) : j ∈ ns.positions c a ch := by
  obtain ⟨before, after, k, h1, h2, h3, rfl⟩ := h
  simp only [Nodes.positions, h1, position_eq h2]
  by_cases hk : (ns.at ch).kind = .swizzle
  · rw [if_pos hk]
    simp only [Nodes.width, Nodes.child, hch, List.find?_cons, hk, decide_true] at h3
    exact List.mem_map.2 ⟨k, List.mem_range.2 h3, rfl⟩
  · rw [if_neg hk]
    simp only [Nodes.width, Nodes.child, hch, List.find?_cons, hk, decide_false, List.find?_nil] at h3
    simp; omega

theorem compareAll_fits {env : Env} {ns : Nodes} {p : Nat} {t : Option Ty} : ∀ {js : List Nat},
    ns.compareAll env p t js = .fits → ∀ j ∈ js, ns.compareArg env p t j = .fits
  | [], _, j, hj => by cases hj
  | k :: js, h, j, hj => by
    simp only [Nodes.compareAll] at h
    split at h
    · rename_i hf
      rcases List.mem_cons.1 hj with rfl | hj
      · exact hf
      · exact compareAll_fits h j hj
    · rename_i hne; exact absurd h (fun h => hne h)

theorem compareArg_fits {env : Env} {ns0 ns : Nodes} {c j : Nat} {T P : Ty} (hsh : Shape ns0 ns)
    (hst : Stable ns0 ns) (hc : (ns0.at c).kind = .call) (h : ns.compareArg env c (some T) j = .fits)
    (hP : ParamType env ns0 c j P) : P.goesWith T = true := by
  have hk : (ns.at c).kind ≠ .callClosure := by rw [hsh.kind, hc]; decide
  simp only [Nodes.compareArg, if_neg hk] at h
  cases hP with
  | declared h1 h2 h3 h4 =>
    rw [hsh.declaration, h1] at h
    simp only [hsh.children, h2, hst _ _ (by rw [h3]; rfl) h4] at h
    split at h
    · assumption
    · cases h
  | prelude h1 h2 h3 h4 h5 h6 =>
    rw [hsh.declaration, h1] at h
    simp only [hsh.name, h3, Nodes.hostFn, hsh.alias, h2, h4, h5, h6] at h
    simp at h
    exact h
  | aliased h1 h2 h3 h4 h5 h6 =>
    rw [hsh.declaration, h1] at h
    simp only [hsh.name, h3, Nodes.hostFn, hsh.alias, h2, h4, h5, h6] at h
    simp at h
    exact h

theorem keeps_arg {env : Env} {ns : Nodes} (ht : Tree ns) {c a ch : Nat} (hc : (ns.at c).kind = .call)
    (ha : (ns.at a).kind = .callArg) (hca : a ∈ (ns.at c).children) (hch : (ns.at a).children = [ch])
    (hl : (ns.at ch).kind ≠ .left) :
    Keeps env ns (· = a) fun out _ => (out.at a).ty ≠ none ∧ ∃ T, (out.at ch).ty = some T ∧
      ∀ j P, PassedTo ns c a j → ParamType env ns c j P → P.goesWith ((ns.at a).innerType T) = true where
  range := by
    rintro i rfl
    exact (ht c i hca).2.2
  visit := by
    rintro out errs i v t hsh hst rfl hv ho
    refine Or.inr ?_
    simp only [Nodes.visit, hsh.kind, ha] at hv
    simp only [Nodes.visitCallArg, hsh.children, hch, hsh.parent, (ht c i hca).1] at hv
    have hlt := (ht c i hca).2.2
    have hne : ch ≠ i := by
      have := (ht i ch (by simp [hch])).2.1; omega
    split at hv
    · rename_i hf
      cases hv
      simp only [Out.ty.injEq] at ho
      obtain ⟨T, hT, -⟩ := Option.map_eq_some_iff.1 ho
      refine ⟨?_, T, ?_, ?_⟩
      · rw [at_setTy, if_pos ⟨rfl, by rw [hsh.1]; exact hlt⟩]; simp
      · rw [at_setTy, if_neg (fun h => hne h.1)]; exact hT
      · intro j P hj hP
        have hj' := compareAll_fits hf j (by rw [hsh.positions]; exact passed_positions hch hj)
        rw [hT] at hj'
        rw [← hsh.innerType]
        exact compareArg_fits hsh hst hc hj' hP
    · cases hv; cases ho
    · cases hv
  stop := by
    rintro out errs i v hsh hst rfl hv ho
    exfalso
    simp only [Nodes.visit, hsh.kind, ha] at hv
    simp only [Nodes.visitCallArg, hsh.children, hch, hsh.parent, (ht c i hca).1] at hv
    split at hv <;> cases hv <;> cases ho
  keep := by
    rintro s s' j i hsh hst rfl hij hs hst' ⟨h1, T, h2, h3⟩
    have ha' : (s'.nodes.at i).ty = (s.nodes.at i).ty := by
      rcases hs.ty i with h | h | h | h
      · exact h
      · rw [hsh.kind, ha] at h; cases h
      · rw [hsh.kind, ha] at h; rcases h.1 with h | h <;> cases h
      · exact absurd h.1 hij
    rcases hs.ty ch with h | h | h | h
    · exact Or.inl ⟨by rw [ha']; exact h1, T, by rw [h]; exact h2, h3⟩
    · rw [hsh.kind] at h; exact absurd h hl
    · rw [h2] at h; cases h.2
    · rcases h.2 with h4 | h4
      · rw [h2] at h4; cases h4
      · exact Or.inr (h4 i (by rw [hsh.parent]; exact (ht i ch (by simp [hch])).1) (by rw [ha']; exact h1) hij)

/-- **C60.** In an accepted file an argument of a call, if its type is known, has a type that goes
with the type of the parameter. -/
theorem C60_argument {env : Env} {fuel : Nat} {ns out : Nodes} (h : ns.typecheck env fuel = .accept out)
    (ht : Tree ns) {c a ch j : Nat} {P T : Ty} (hc : (ns.at c).kind = .call) (ha : (ns.at a).kind = .callArg)
    (hca : a ∈ (ns.at c).children) (hch : (ns.at a).children = [ch]) (hl : (ns.at ch).kind ≠ .left)
    (hj : PassedTo ns c a j) (hP : ParamType env ns c j P) (hT : (out.at ch).ty = some T) :
    P.goesWith ((ns.at a).innerType T) = true := by
  obtain ⟨hsh, hst, hI⟩ := accept_keeps h (keeps_arg (env := env) ht hc ha hca hch hl)
  rcases hI a rfl with ⟨-, T', h1, h2⟩ | ⟨errs, v, hv, h2, h3⟩
  · rw [hT] at h1; cases h1; exact h2 j P hj hP
  · exfalso
    simp only [Nodes.visit, hsh.kind, ha] at hv
    simp only [Nodes.visitCallArg, hsh.children, hch, hsh.parent, (ht c a hca).1, hT, Option.map_some] at hv
    split at hv
    · cases hv; exact h2 _ rfl
    · cases hv; exact h3 _ (List.mem_cons_self ..) rfl
    · cases hv

/-! ## The types of expressions -/

theorem wrap_visit {ns0 ns : Nodes} {i c : Nat} (hsh : Shape ns0 ns) (hch : (ns0.at i).children = [c])
    (hids : (ns0.at c).itemIds = false) (hr : (ns0.at c).kind ≠ .ret)
    {errs : List (Nat × TypeErr)} {v : Visit} (hv : ns.visitWrap errs i = .ok v) :
    v.nodes = ns ∧ v.out ≠ .stop ∧ (∀ t, v.out = .ty (some t) → (ns.at c).ty.map (ns0.at i).innerType = some t) ∧
      (∀ T, (ns.at c).ty = some T → (∀ t, v.out ≠ .ty (some t)) → ∃ e ∈ v.errs, e.1 = i) := by
  simp only [Nodes.visitWrap, hsh.children, hch, hsh.itemIds, hids, hsh.kind, hr, hsh.innerType] at hv
  simp only [Bool.false_eq_true, if_false] at hv
  split at hv
  · rename_i hn
    cases hv
    exact ⟨rfl, by simp, by simp, by simp [hn]⟩
  · rename_i t hn
    split at hv
    · cases hv
    · cases hv
      exact ⟨rfl, by simp, by simp [hn], fun T hT h => absurd rfl (h _)⟩

theorem number_visit {ns0 ns : Nodes} {i c : Nat} (hsh : Shape ns0 ns) (hch : (ns0.at i).children = [c])
    (hids : (ns0.at c).itemIds = false)
    {errs : List (Nat × TypeErr)} {v : Visit} (hv : ns.visitNumber errs i = .ok v) :
    v.nodes = ns ∧ v.out ≠ .stop ∧ (∀ t, v.out = .ty (some t) → (ns.at c).ty.map (ns0.at i).innerType = some t) ∧
      (∀ T, (ns.at c).ty = some T → (∀ t, v.out ≠ .ty (some t)) → ∃ e ∈ v.errs, e.1 = i) := by
  simp only [Nodes.visitNumber, hsh.children, hch, hsh.itemIds, hids, hsh.innerType] at hv
  simp only [Bool.false_eq_true, if_false] at hv
  split at hv
  · rename_i hn
    cases hv
    refine ⟨rfl, by simp, by simp, fun T hT => ?_⟩
    rw [hT] at hn; cases hn
  · rename_i t hn
    split at hv
    · cases hv
      exact ⟨rfl, by simp, by simp [hn], fun T hT h => absurd rfl (h _)⟩
    · cases hv

theorem callArg_visit {env : Env} {ns0 ns : Nodes} {i c : Nat} (hsh : Shape ns0 ns)
    (hch : (ns0.at i).children = [c])
    {errs : List (Nat × TypeErr)} {v : Visit} (hv : ns.visitCallArg env errs i = .ok v) :
    v.nodes = ns ∧ v.out ≠ .stop ∧ (∀ t, v.out = .ty (some t) → (ns.at c).ty.map (ns0.at i).innerType = some t) ∧
      (∀ T, (ns.at c).ty = some T → (∀ t, v.out ≠ .ty (some t)) → ∃ e ∈ v.errs, e.1 = i) := by
  simp only [Nodes.visitCallArg, hsh.children, hch, hsh.innerType] at hv
  have key : ∀ errs', v = { nodes := ns, errs := errs', out := .ty ((ns.at c).ty.map (ns0.at i).innerType) } →
      v.nodes = ns ∧ v.out ≠ .stop ∧ (∀ t, v.out = .ty (some t) → (ns.at c).ty.map (ns0.at i).innerType = some t) ∧
      (∀ T, (ns.at c).ty = some T → (∀ t, v.out ≠ .ty (some t)) → ∃ e ∈ v.errs, e.1 = i) := by
    rintro errs' rfl
    refine ⟨rfl, by simp, by simp, fun T hT h => ?_⟩
    rw [hT] at h
    exact absurd rfl (h _)
  split at hv
  · exact key _ (by injection hv with hv; exact hv.symm)
  · split at hv
    · exact key _ (by injection hv with hv; exact hv.symm)
    · cases hv
      exact ⟨rfl, by simp, by simp, fun _ _ _ => ⟨_, List.mem_cons_self .., rfl⟩⟩
    · cases hv

/-- The node `i` takes its type from the node `c`. -/
theorem takes_visit {env : Env} {ns0 ns : Nodes} {i c : Nat} (ht : TakesType ns0 i c) (hsh : Shape ns0 ns)
    (hids : (ns0.at c).itemIds = false) (hr : (ns0.at c).kind ≠ .ret ∨ (ns0.at i).kind.isBlock)
    {errs : List (Nat × TypeErr)} {v : Visit} (hv : ns.visit env errs i = .ok v) :
    v.nodes = ns ∧ v.out ≠ .stop ∧ (∀ t, v.out = .ty (some t) → (ns.at c).ty.map (ns0.at i).innerType = some t) ∧
      (∀ T, (ns.at c).ty = some T → (∀ t, v.out ≠ .ty (some t)) → ∃ e ∈ v.errs, e.1 = i) := by
  cases ht with
  | around hk hch =>
    have hr : (ns0.at c).kind ≠ .ret := by
      rcases hr with hr | hr
      · exact hr
      · revert hk hr
        cases (ns0.at i).kind <;> simp [Around, Kind.isBlock]
    revert hk hv
    cases hkind : (ns0.at i).kind <;> intro hv hk <;> first
      | exact hk.elim
      | (simp only [Nodes.visit, hsh.kind, hkind] at hv
         first
          | exact wrap_visit hsh hch hids hr hv
          | exact number_visit hsh hch hids hv
          | exact callArg_visit hsh hch hv)
  | block hk hch =>
    have key : v = ns.visitBlock errs i → v.nodes = ns ∧ v.out ≠ .stop ∧
        (∀ t, v.out = .ty (some t) → (ns.at c).ty.map (ns0.at i).innerType = some t) ∧
        (∀ T, (ns.at c).ty = some T → (∀ t, v.out ≠ .ty (some t)) → ∃ e ∈ v.errs, e.1 = i) := by
      rintro rfl
      simp only [Nodes.visitBlock, hsh.children, hch, hsh.itemIds, hids, hsh.innerType]
      simp only [Bool.false_eq_true, if_false]
      refine ⟨trivial, by simp, by simp, fun T hT h => ?_⟩
      rw [hT] at h
      exact absurd rfl (h _)
    revert hk hv
    cases hkind : (ns0.at i).kind <;> intro hv hk <;> first
      | (exact absurd hk (by decide))
      | (simp only [Nodes.visit, hsh.kind, hkind] at hv
         exact key (by injection hv with hv; exact hv.symm))
  | branch hk hch =>
    simp only [Nodes.visit, hsh.kind, hk, hsh.child, hch, hsh.innerType] at hv
    split at hv
    · rename_i hn
      cases hv
      exact ⟨rfl, by simp, by simp, by simp [hn]⟩
    · rename_i t hn
      cases hv
      exact ⟨rfl, by simp, by simp [hn], fun T hT h => absurd rfl (h _)⟩

theorem takes_mem {ns : Nodes} {i c : Nat} (h : TakesType ns i c) : c ∈ (ns.at i).children := by
  cases h with
  | around _ h => simp [h]
  | block _ h => exact List.mem_of_getLast? h
  | branch _ h => exact child_mem h

theorem takes_kind {ns : Nodes} {i c : Nat} (h : TakesType ns i c) :
    (ns.at i).kind ≠ .left ∧ (ns.at i).kind ≠ .fn ∧ (ns.at i).kind ≠ .closure := by
  cases h with
  | around hk _ => refine ⟨?_, ?_, ?_⟩ <;> (intro h; rw [h] at hk; exact hk)
  | block hk _ => refine ⟨?_, ?_, ?_⟩ <;> (intro h; rw [h] at hk; cases hk)
  | branch hk _ => rw [hk]; decide

theorem keeps_takes {env : Env} {ns : Nodes} (htree : Tree ns) {i c : Nat} (ht : TakesType ns i c)
    (hids : (ns.at c).itemIds = false) (hr : (ns.at c).kind ≠ .ret ∨ (ns.at i).kind.isBlock)
    (hl : (ns.at c).kind ≠ .left) :
    Keeps env ns (· = i) fun out _ => ∃ T, (out.at c).ty = some T ∧
      (out.at i).ty = some ((ns.at i).innerType T) where
  range := by
    rintro k rfl
    have := htree k c (takes_mem ht); omega
  visit := by
    rintro out errs k v t hsh hst rfl hv ho
    obtain ⟨h1, -, h2, -⟩ := takes_visit ht hsh hids hr hv
    have h3 := h2 t ho
    have h4 := htree k c (takes_mem ht)
    obtain ⟨T, hT, hTt⟩ := Option.map_eq_some_iff.1 h3
    refine Or.inr ⟨T, ?_, ?_⟩
    · rw [h1, at_setTy, if_neg (fun h => by omega)]; exact hT
    · rw [h1, at_setTy, if_pos ⟨rfl, by rw [hsh.1]; omega⟩, hTt]
  stop := by
    rintro out errs k v hsh hst rfl hv ho
    exact absurd ho (takes_visit ht hsh hids hr hv).2.1
  keep := by
    rintro s s' j k hsh hst rfl hij hs hst' ⟨T, h1, h2⟩
    have ha' : (s'.nodes.at k).ty = (s.nodes.at k).ty := by
      rcases hs.ty k with h | h | h | h
      · exact h
      · rw [hsh.kind] at h; exact absurd h (takes_kind ht).1
      · rw [hsh.kind] at h
        rcases h.1 with h | h
        · exact absurd h (takes_kind ht).2.1
        · exact absurd h (takes_kind ht).2.2
      · exact absurd h.1 hij
    rcases hs.ty c with h | h | h | h
    · exact Or.inl ⟨T, by rw [h]; exact h1, by rw [ha']; exact h2⟩
    · rw [hsh.kind] at h; exact absurd h hl
    · rw [h1] at h; cases h.2
    · rcases h.2 with h4 | h4
      · rw [h1] at h4; cases h4
      · exact Or.inr (h4 k (by rw [hsh.parent]; exact (htree k c (takes_mem ht)).1)
          (by rw [ha', h2]; simp) hij)

/-- **C64**, expressions. In an accepted file the type of an expression, of the last statement of
a block and of the first branch of an `if` is the type of the node around it (with `?`, of what is
in the option or result). -/
theorem C64_takes {env : Env} {fuel : Nat} {ns out : Nodes} (h : ns.typecheck env fuel = .accept out)
    (htree : Tree ns) {i c : Nat} {T : Ty} (ht : TakesType ns i c) (hids : (ns.at c).itemIds = false)
    (hr : (ns.at c).kind ≠ .ret ∨ (ns.at i).kind.isBlock) (hl : (ns.at c).kind ≠ .left)
    (hT : (out.at c).ty = some T) : (out.at i).ty = some ((ns.at i).innerType T) := by
  obtain ⟨hsh, hst, hI⟩ := accept_keeps h (keeps_takes (env := env) htree ht hids hr hl)
  rcases hI i rfl with ⟨T', h1, h2⟩ | ⟨errs, v, hv, h2, h3⟩
  · rw [hT] at h1; cases h1; exact h2
  · obtain ⟨e, he, hei⟩ := (takes_visit ht hsh hids hr hv).2.2.2 T hT h2
    exact absurd hei (h3 e he)

/-! ## Returns -/

theorem badReturn_child {ns : Nodes} (htree : Tree ns) {ty : Ty} {n c : Nat} (h : ns.badReturn ty n = none)
    (hc : c ∈ (ns.at n).children) :
    ns.badReturnAt ty c = none ∧ ((ns.at c).kind ≠ .closure → ns.badReturn ty c = none) := by
  rw [Nodes.badReturn.eq_def, List.findSome?_eq_none_iff] at h
  have h := h c hc
  split at h
  · cases h
  · rename_i hn
    refine ⟨hn, fun hk => ?_⟩
    rw [if_neg hk, if_pos (htree n c hc).2] at h
    exact h

theorem badReturn_none {ns : Nodes} (htree : Tree ns) {ty : Ty} {n : Nat} (h : ns.badReturn ty n = none)
    {r : Nat} (hr : Within ns n r) :
    ns.badReturnAt ty r = none ∧ ((ns.at r).kind ≠ .closure → ns.badReturn ty r = none) := by
  induction hr with
  | child hc => exact badReturn_child htree h hc
  | step _ hk hc ih => exact badReturn_child htree (ih.2 hk) hc

theorem within_trans {ns : Nodes} {n c r : Nat} (hc : c ∈ (ns.at n).children) (hk : (ns.at c).kind ≠ .closure)
    (h : Within ns c r) : Within ns n r := by
  induction h with
  | child h => exact .step (.child hc) hk h
  | step _ hk' h ih => exact .step ih hk' h

namespace Spec

/-- The node `r` is a statement that sets the result of the function: `return e`, `return`, or the
left side of `return = e`. -/
def Returns (ns : Nodes) (r : Nat) : Prop :=
  (ns.at r).kind = .ret ∨ (ns.at r).kind = .returnVoid ∨ ((ns.at r).kind = .item ∧
    (ns.at r).name = some "return" ∧ ∃ l a, (ns.at r).parent = some l ∧ (ns.at l).kind = .left ∧
      (ns.at l).parent = some a ∧ (ns.at a).kind = .assign)

end Spec

theorem isReturnItem_iff {ns : Nodes} {r : Nat} : ns.isReturnItem r = true ↔ (ns.at r).name = some "return" ∧
    ∃ l a, (ns.at r).parent = some l ∧ (ns.at l).kind = .left ∧ (ns.at l).parent = some a ∧
      (ns.at a).kind = .assign := by
  simp only [Nodes.isReturnItem, Bool.and_eq_true, decide_eq_true_eq]
  constructor
  · rintro ⟨h1, h2⟩
    split at h2
    · rename_i l hl
      simp only [Bool.and_eq_true, decide_eq_true_eq] at h2
      obtain ⟨h3, h4⟩ := h2
      split at h4
      · rename_i a ha
        exact ⟨h1, l, a, hl, h3, ha, by simpa using h4⟩
      · cases h4
    · cases h2
  · rintro ⟨h1, l, a, h2, h3, h4, h5⟩
    simp [h1, h2, h3, h4, h5]

theorem hasReturn_within {ns : Nodes} (m : Nat) : ∀ n, ns.length - n ≤ m → ns.hasReturn n = true →
    ∃ r, Within ns n r ∧ Returns ns r := by
  induction m with
  | zero =>
    intro n hn h
    rw [Nodes.hasReturn.eq_def, List.any_eq_true] at h
    obtain ⟨c, hc, h⟩ := h
    simp only [Bool.or_eq_true, Bool.and_eq_true, decide_eq_true_eq] at h
    rcases h with ((h | h) | ⟨h, h'⟩) | ⟨-, h⟩
    · exact ⟨c, .child hc, Or.inl h⟩
    · exact ⟨c, .child hc, Or.inr (Or.inl h)⟩
    · exact ⟨c, .child hc, Or.inr (Or.inr ⟨h, isReturnItem_iff.1 h'⟩)⟩
    · split at h
      · omega
      · cases h
  | succ m ih =>
    intro n hn h
    rw [Nodes.hasReturn.eq_def, List.any_eq_true] at h
    obtain ⟨c, hc, h⟩ := h
    simp only [Bool.or_eq_true, Bool.and_eq_true, decide_eq_true_eq] at h
    rcases h with ((h | h) | ⟨h, h'⟩) | ⟨hk, h⟩
    · exact ⟨c, .child hc, Or.inl h⟩
    · exact ⟨c, .child hc, Or.inr (Or.inl h)⟩
    · exact ⟨c, .child hc, Or.inr (Or.inr ⟨h, isReturnItem_iff.1 h'⟩)⟩
    · split at h
      · rename_i hlt
        obtain ⟨r, h1, h2⟩ := ih c (by omega) h
        exact ⟨r, within_trans hc (by simpa using hk) h1, h2⟩
      · cases h

theorem tree_shape {ns out : Nodes} (h : Shape ns out) (ht : Tree ns) : Tree out := by
  intro i c hc
  rw [h.children] at hc
  rw [h.parent, h.1]
  exact ht i c hc

theorem within_shape {ns out : Nodes} (h : Shape ns out) {n r : Nat} : Within out n r ↔ Within ns n r := by
  constructor
  · intro hw
    induction hw with
    | child hc => rw [h.children] at hc; exact .child hc
    | step _ hk hc ih => rw [h.children] at hc; rw [h.kind] at hk; exact .step ih hk hc
  · intro hw
    induction hw with
    | child hc => rw [← h.children] at hc; exact .child hc
    | step _ hk hc ih => rw [← h.children] at hc; rw [← h.kind] at hk; exact .step ih hk hc

theorem returns_shape {ns out : Nodes} (h : Shape ns out) {r : Nat} : Returns out r ↔ Returns ns r := by
  simp only [Returns, h.kind, h.name, h.parent]

theorem accept_fn {env : Env} {fuel : Nat} {ns out : Nodes} (h : ns.typecheck env fuel = .accept out)
    {f : Nat} (hf : f < ns.length) (hk : (ns.at f).kind = .fn) : out.finalFn f = none := by
  obtain ⟨-, h2⟩ := typecheck_accept h
  obtain ⟨hsh, -⟩ := accept_shape h
  have := h2 f (by rw [hsh.1]; exact hf)
  simpa only [Nodes.final, hsh.kind, hk] using this

/-- **C61.** In an accepted file every function has a type, the written one if there is one, and
what it returns goes with this type: the values of its `return` statements (not of those in closures
in it) and the body of `f(..) = e`. -/
theorem C61_return {env : Env} {fuel : Nat} {ns out : Nodes} (h : ns.typecheck env fuel = .accept out)
    (ht : Tree ns) {f : Nat} (hf : f < ns.length) (hk : (ns.at f).kind = .fn) :
    ∃ F, (out.at f).ty = some F ∧ (∀ P, (ns.at f).ty = some P → F = P) ∧
      (∀ b T, ns.child f .expr = some b → (out.at b).ty = some T → F.goesWith T = true) ∧
      ∀ r, Within ns f r → Returns ns r →
        ((ns.at r).kind = .returnVoid → F.goesWith .void = true) ∧
        (∀ T, (ns.at r).kind ≠ .returnVoid → (out.at r).ty = some T → F.goesWith T = true) := by
  have hfn := accept_fn h hf hk
  obtain ⟨hsh, hst⟩ := accept_shape h
  simp only [Nodes.finalFn] at hfn
  split at hfn
  · cases hfn
  · rename_i F hF
    refine ⟨F, hF, fun P hP => ?_, ?_, ?_⟩
    · have := hst f P (by rw [hk]; rfl) hP
      rw [hF] at this; cases this; rfl
    · intro b T hb hT
      by_contra hne
      simp only [Nodes.badBody, hsh.child, hb, hT] at hfn
      rw [if_pos (by simpa using hne)] at hfn
      cases hfn
    · intro r hw hr
      split at hfn
      · cases hfn
      · split at hfn
        · cases hfn
        · rename_i hbad
          have hbr := (badReturn_none (tree_shape hsh ht) hbad ((within_shape hsh).2 hw)).1
          simp only [Nodes.badReturnAt, hsh.kind] at hbr
          constructor
          · intro hv
            rw [hv] at hbr
            simp only [ite_eq_left_iff, Bool.not_eq_true] at hbr
            by_contra hne
            have := hbr (by simpa using hne)
            cases this
          · intro T hv hT
            rw [hT] at hbr
            rcases hr with hr | hr | ⟨hr, hi⟩
            · rw [hr] at hbr
              simp only [ite_eq_left_iff, Bool.not_eq_true] at hbr
              by_contra hne
              have := hbr (by simpa using hne)
              cases this
            · exact absurd hr hv
            · rw [hr] at hbr
              have hi' : out.isReturnItem r = true := by
                rw [isReturnItem_iff]
                simpa only [hsh.name, hsh.parent, hsh.kind] using hi
              simp only [hi', Bool.true_and] at hbr
              by_contra hne
              simp [hne] at hbr

/-- **C61**, no missing result (partial: not on every path). In an accepted file a function that is
declared to return something has a `return` in it, or is of the form `f(..) = e`. -/
theorem C61_some_return_partial {env : Env} {fuel : Nat} {ns out : Nodes}
    (h : ns.typecheck env fuel = .accept out) {f : Nat} (hf : f < ns.length) (hk : (ns.at f).kind = .fn) {P : Ty}
    (hP : (ns.at f).ty = some P) (hv : P ≠ .void) :
    (∃ b, ns.child f .expr = some b) ∨ ∃ r, Within ns f r ∧ Returns ns r := by
  have hfn := accept_fn h hf hk
  obtain ⟨hsh, hst⟩ := accept_shape h
  have hF := hst f P (by rw [hk]; rfl) hP
  simp only [Nodes.finalFn, hF] at hfn
  split at hfn
  · cases hfn
  · split at hfn
    · cases hfn
    · rw [hsh.child] at hfn
      cases hb : ns.child f .expr with
      | some b => exact Or.inl ⟨b, rfl⟩
      | none =>
        refine Or.inr ?_
        rw [hb] at hfn
        cases hr : out.hasReturn f with
        | false => simp [hr, hv] at hfn
        | true =>
          obtain ⟨r, h1, h2⟩ := hasReturn_within _ f (Nat.le_refl _) hr
          exact ⟨r, (within_shape hsh).1 h1, (returns_shape hsh).1 h2⟩

/-! ## Conditions, branches, unused results -/

/-- **C62.** In an accepted file the conditions of an `if`, where their types are known, go with
`bool` and the other branches go with the first. -/
theorem C62_if {env : Env} {fuel : Nat} {ns out : Nodes} (h : ns.typecheck env fuel = .accept out)
    {i c : Nat} {T : Ty} (hi : i < ns.length) (hk : (ns.at i).kind = .if') (hc : c ∈ (ns.at i).children)
    (hT : (out.at c).ty = some T) :
    (ns.child i .cond = some c → Ty.bool.goesWith T = true) ∧
    (∀ I, (out.at i).ty = some I →
      ((ns.at c).kind = .elseIfCond → Ty.bool.goesWith T = true) ∧
      ((ns.at c).kind = .elseIfBlock → T.goesWith I = true) ∧
      (ns.child i .elseBlock = some c → T.goesWith I = true)) := by
  obtain ⟨-, h2⟩ := typecheck_accept h
  obtain ⟨hsh, -⟩ := accept_shape h
  have hfi := h2 i (by rw [hsh.1]; exact hi)
  simp only [Nodes.final, hsh.kind, hk, Nodes.finalIf, hsh.child, hsh.children] at hfi
  split at hfi
  · cases hfi
  · rename_i hcond
    refine ⟨fun hcc => ?_, fun I hI => ?_⟩
    · simp only [hcc, hT] at hcond
      by_contra hne
      simp [hne] at hcond
    · rw [hI] at hfi
      simp only at hfi
      split at hfi
      · cases hfi
      · rename_i helse
        rw [List.findSome?_eq_none_iff] at helse
        have he := helse c hc
        refine ⟨fun hkc => ?_, fun hkc => ?_, fun hkc => ?_⟩
        · simp only [hkc, hT] at he
          by_contra hne
          simp [hne] at he
        · simp only [hkc, hT] at he
          by_contra hne
          simp [hne] at he
        · simp only [hkc, hT] at hfi
          by_contra hne
          simp [hne] at hfi

/-- **C63.** In an accepted file the result of a statement that is not the last one of a block, or
of any statement of a function without result, is used: the statement returns, or its type is `void`
or not known. -/
theorem C63_unused {env : Env} {fuel : Nat} {ns out : Nodes} (h : ns.typecheck env fuel = .accept out)
    {b s : Nat} {T : Ty} (hb : b < ns.length) (hk : (ns.at b).kind = .block)
    (hs : s ∈ (ns.at b).children.dropLast ∨ (s ∈ (ns.at b).children ∧ ∃ f, (ns.at b).parent = some f ∧
      (ns.at f).kind = .fn ∧ (ns.at f).ty = some .void))
    (hr : (ns.at s).kind ≠ .ret) (hT : (out.at s).ty = some T) : T = .void ∨ T = .unreachable := by
  obtain ⟨-, h2⟩ := typecheck_accept h
  obtain ⟨hsh, hst⟩ := accept_shape h
  have hfb := h2 b (by rw [hsh.1]; exact hb)
  simp only [Nodes.final, hsh.kind, hk, Nodes.finalBlock, hsh.parent, hsh.children,
    List.findSome?_eq_none_iff] at hfb
  have key : ∀ l : List Nat, (∀ x ∈ l, (if (ns.at x).kind = .ret then none else match (out.at x).ty with
      | some t => if t ≠ .void ∧ t ≠ .unreachable then some (TypeErr.mismatch 1100 x) else none
      | none => none) = none) → s ∈ l → T = .void ∨ T = .unreachable := by
    intro l hl hs
    have := hl s hs
    simp only [if_neg hr, hT] at this
    by_contra hne
    simp only [not_or] at hne
    simp [hne.1, hne.2] at this
  rcases hs with hs | ⟨hs, f, hp, hf, hv⟩
  · refine key _ hfb ?_
    split
    · split
      · rename_i p hp hpk
        split
        · exact (List.dropLast_sublist _).subset hs
        · rename_i hn
          exfalso
          have hlt : p < ns.length := by
            by_contra hge
            have : ns.at p = default := by
              simp only [Nodes.at, List.getD_eq_getElem?_getD, List.getElem?_eq_none (by omega : ns.length ≤ p)]
              rfl
            rw [this] at hpk; cases hpk
          have := accept_fn h hlt hpk
          simp only [Nodes.finalFn, hn] at this
          cases this
        · exact hs
      · exact hs
    · exact hs
  · refine key _ hfb ?_
    simp only [hp, hf, if_true, hst f _ (by rw [hf]; rfl) hv]
    exact hs

/-! ## Variables and calls -/

/-- A rule that reads only types that are given in the file: the type is the one of the rule. -/
theorem keeps_const {env : Env} {ns : Nodes} {i : Nat} (hi : i < ns.length) {t : Ty}
    (hk : (ns.at i).kind ≠ .left ∧ (ns.at i).kind ≠ .fn ∧ (ns.at i).kind ≠ .closure)
    (hv : ∀ out errs v, Shape ns out → Stable ns out → out.visit env errs i = .ok v →
      v.out = .ty (some t) ∧ (v.nodes.at i).kind = (ns.at i).kind) :
    Keeps env ns (· = i) fun out _ => (out.at i).ty = some t where
  range := by rintro k rfl; exact hi
  visit := by
    rintro out errs k v t' hsh hst rfl hvis ho
    have h1 := (hv out errs v hsh hst hvis).1
    rw [ho] at h1
    cases h1
    refine Or.inr ?_
    rw [at_setTy, if_pos ⟨rfl, by rw [(visit_visited hvis).aside.1.1, hsh.1]; exact hi⟩]
  stop := by
    rintro out errs k v hsh hst rfl hvis ho
    rw [(hv out errs v hsh hst hvis).1] at ho; cases ho
  keep := by
    rintro s s' j k hsh hst rfl hij hs hst' h
    rcases hs.ty k with h1 | h1 | h1 | h1
    · exact Or.inl (by rw [h1]; exact h)
    · rw [hsh.kind] at h1; exact absurd h1 hk.1
    · rw [hsh.kind] at h1
      rcases h1.1 with h1 | h1
      · exact absurd h1 hk.2.1
      · exact absurd h1 hk.2.2
    · exact absurd h1.1 hij

theorem accept_const {env : Env} {fuel : Nat} {ns out : Nodes} (h : ns.typecheck env fuel = .accept out)
    {i : Nat} (hi : i < ns.length) {t : Ty}
    (hk : (ns.at i).kind ≠ .left ∧ (ns.at i).kind ≠ .fn ∧ (ns.at i).kind ≠ .closure)
    (hv : ∀ out errs v, Shape ns out → Stable ns out → out.visit env errs i = .ok v →
      v.out = .ty (some t) ∧ (v.nodes.at i).kind = (ns.at i).kind) : (out.at i).ty = some t := by
  obtain ⟨hsh, hst, hI⟩ := accept_keeps h (keeps_const (env := env) hi hk hv)
  rcases hI i rfl with h1 | ⟨errs, v, h1, h2, -⟩
  · exact h1
  · exact absurd (hv out errs v hsh hst h1).1 (h2 t)

/-- **C64**, parameters. In an accepted file a parameter that is used without properties has its
declared type, with `?` the type of what is in it. -/
theorem C64_parameter {env : Env} {fuel : Nat} {ns out : Nodes} (h : ns.typecheck env fuel = .accept out)
    {u d : Nat} {P : Ty} (hu : u < ns.length) (hk : (ns.at u).kind = .item) (hc : (ns.at u).children = [])
    (hd : (ns.at u).declaration = some d) (hdk : (ns.at d).kind = .arg) (hP : (ns.at d).ty = some P) :
    (out.at u).ty = some ((ns.at u).innerType P) := by
  refine accept_const h hu (by rw [hk]; decide) ?_
  intro out' errs v hsh hst hv
  have hids : (out'.at u).itemIds = false := by rw [hsh.itemIds]; simp [Node.itemIds, hc]
  simp only [Nodes.visit, hsh.kind, hk] at hv
  simp only [Nodes.visitItem, hids, hsh.declaration, hd, hsh.kind, hdk, hst d P (by rw [hdk]; rfl) hP,
    hsh.innerType, Kind.counts] at hv
  simp at hv
  subst hv
  exact ⟨rfl, by simp only [hsh.kind]⟩

/-- **C64**, loop variables. In an accepted file the variable of a counting loop is a number. -/
theorem C64_counter {env : Env} {fuel : Nat} {ns out : Nodes} (h : ns.typecheck env fuel = .accept out)
    {u d : Nat} (hu : u < ns.length) (hk : (ns.at u).kind = .item) (hc : (ns.at u).children = [])
    (hd : (ns.at u).declaration = some d)
    (hdk : (ns.at d).kind ∈ [Kind.forN, .sum, .min, .max, .any, .all, .sift, .linkFor, .vec4UnLoop]) :
    (out.at u).ty = some .f64 := by
  refine accept_const h hu (by rw [hk]; decide) ?_
  intro out' errs v hsh hst hv
  have hids : (out'.at u).itemIds = false := by rw [hsh.itemIds]; simp [Node.itemIds, hc]
  have hcnt : (ns.at d).kind.counts = true := by
    simp only [List.mem_cons, List.not_mem_nil, or_false] at hdk
    rcases hdk with h | h | h | h | h | h | h | h | h <;> rw [h] <;> rfl
  simp only [Nodes.visit, hsh.kind, hk] at hv
  simp only [Nodes.visitItem, hids, hsh.declaration, hd, hsh.kind, hcnt] at hv
  simp only [Bool.false_eq_true, if_false, if_true] at hv
  split at hv
  · cases hv
  · cases hv
    exact ⟨rfl, by simp only [hsh.kind]⟩

/-- **C64**, calls. In an accepted file the call of a function of another module or of the host
that has no extra signatures has the type that the function returns. -/
theorem C64_host {env : Env} {fuel : Nat} {ns out : Nodes} (h : ns.typecheck env fuel = .accept out)
    {c i : Nat} {n : String} {d : Mod.Dfn} (hc : c < ns.length) (hk : (ns.at c).kind = .call)
    (hd : (ns.at c).declaration = none) (hn : (ns.at c).name = some n)
    (hi : ((ns.at c).alias = none ∧ env.prelude.functions n = some i) ∨
      ∃ a, (ns.at c).alias = some a ∧ env.aliases.get a n = some (.loaded i))
    (hl : env.prelude.list[i]? = some d) (he : d.ext = []) : (out.at c).ty = some d.ret := by
  refine accept_const h hc (by rw [hk]; decide) ?_
  intro out' errs v hsh hst hv
  have hf : out'.hostFn env c = some i := by
    rw [hsh.hostFn]
    simp only [Nodes.hostFn, hn]
    rcases hi with ⟨h1, h2⟩ | ⟨a, h1, h2⟩
    · simp [h1, h2]
    · simp [h1, h2]
  simp only [Nodes.visit, hsh.kind, hk] at hv
  simp only [Nodes.visitCall, hsh.declaration, hd, hsh.name, hn, hf, hl, Nodes.visitHost, he] at hv
  simp at hv
  subst hv
  exact ⟨rfl, by simp only [hsh.kind]⟩

/-- **C64**, calls. In an accepted file the call of a function of the file that is declared with the
type `P` and has no extra signatures has the type `P`. -/
theorem C64_call {env : Env} {fuel : Nat} {ns out : Nodes} (h : ns.typecheck env fuel = .accept out)
    {c f : Nat} {P : Ty} (hc : c < ns.length) (hk : (ns.at c).kind = .call) (hcn : (ns.at c).ty = none)
    (hd : (ns.at c).declaration = some f) (hf : (ns.at f).kind = .fn) (hP : (ns.at f).ty = some P)
    (he : ∀ k ∈ (ns.at f).children, (ns.at k).kind ≠ .ty) : (out.at c).ty = some P := by
  have hvis : ∀ out' errs v, Shape ns out' → Stable ns out' → out'.visit env errs c = .ok v →
      v = { nodes := out', errs, out := .ty (if (out'.at c).ty = none then some P else none) } := by
    intro out' errs v hsh hst hv
    have hnil : ((ns.at f).children.filter fun k => decide ((out'.at k).kind = .ty)) = [] := by
      rw [List.filter_eq_nil_iff]
      intro k hk
      simpa [hsh.kind] using he k hk
    simp only [Nodes.visit, hsh.kind, hk] at hv
    simp only [Nodes.visitCall, hsh.declaration, hd, hsh.children, hnil, Nodes.refineDecl,
      hst f P (by rw [hf]; rfl) hP] at hv
    simp at hv
    exact hv.symm
  have hK : Keeps env ns (· = c) fun out _ => (out.at c).ty ≠ none := by
    refine ⟨by rintro k rfl; exact hc, ?_, ?_, ?_⟩
    · rintro out' errs k v t hsh hst rfl hv ho
      have := hvis out' errs v hsh hst hv
      subst this
      refine Or.inr ?_
      rw [at_setTy, if_pos ⟨rfl, by rw [hsh.1]; exact hc⟩]
      simp
    · rintro out' errs k v hsh hst rfl hv ho
      have := hvis out' errs v hsh hst hv
      subst this
      cases ho
    · rintro s s' j k hsh hst rfl hij hs hst' h
      rcases hs.ty k with h1 | h1 | h1 | h1
      · exact Or.inl (by rw [h1]; exact h)
      · rw [hsh.kind, hk] at h1; cases h1
      · exact absurd h1.2 h
      · exact absurd h1.1 hij
  have hInv : (out.at c).ty = none ∨ (out.at c).ty = some P := by
    refine accept_inv (Inv := fun out => (out.at c).ty = none ∨ (out.at c).ty = some P) h ?_ (Or.inl hcn)
    intro s s' j hsh hst hs hI
    rcases (step_stepped hs).ty c with h1 | h1 | h1 | h1
    · rw [h1]; exact hI
    · rw [hsh.kind, hk] at h1; cases h1
    · rw [hsh.kind, hk] at h1; rcases h1.1 with h1 | h1 <;> cases h1
    · obtain ⟨rfl, -⟩ := h1
      simp only [step] at hs
      split at hs
      · cases hs
      · rename_i v hv
        have := hvis s.nodes s.errs v hsh hst hv
        subst this
        simp only at hs
        split at hs
        · cases hs; exact hI
        · cases hs; exact hI
        · cases hs; exact hI
        · rename_i t ht
          cases hs
          simp only [Out.ty.injEq] at ht
          split at ht
          · cases ht
            refine Or.inr ?_
            simp only [at_setTy]
            rw [if_pos ⟨trivial, by rw [hsh.1]; exact hc⟩]
          · cases ht
  rcases hInv with h1 | h1
  · exfalso
    obtain ⟨hsh, hst, hI⟩ := accept_keeps h hK
    rcases hI c rfl with h2 | ⟨errs, v, h2, h3, -⟩
    · exact h2 h1
    · have := hvis out errs v hsh hst h2
      subst this
      exact h3 P (by simp [h1])
  · exact h1

end Dyon.Check
