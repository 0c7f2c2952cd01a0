import Verif.Module.Lookup

/-! # Imports keep what functions call (C33); failed loads (C54) -/

namespace Dyon.Mod

/-! ## Specification -/

namespace Spec

/-- What a function executes: its declaration and, for every call in it, what that call
executes, down to some depth. -/
inductive Tree where
  /-- a loaded function and its calls: alias, name and what is executed -/
  | fn (ns : List String) (name file : String) (args : List Param) (ret : Ty)
    (calls : List (Option String × String × Tree))
  /-- an external function, or nothing -/
  | external (ix : FnIndex)
  /-- no such function -/
  | missing
  /-- depth reached -/
  | cut

/-- What function number `i` of a module executes, down to depth `n`. -/
def executes : Nat → Module → Nat → Tree
  | 0, _, _ => .cut
  | n + 1, m, i => match m.functions[i]? with
    | none => .missing
    | some f => .fn f.ns f.name f.file f.args f.ret (f.calls.map fun s => (s.via, s.name,
        match s.index with
        | .loaded r => executes n m (r + i).toNat
        | ix => .external ix))

end Spec

open Spec

/-! ## Histories -/

/-- What a host can do with its modules. -/
inductive Op where
  | new
  | add (k : Nat) (name : String) (f : FnExt) (p : Dfn)
  | load (k : Nat) (uses : List UseImport) (fs : List Function) (check : Option (List (String × Ty)))
  | import (k o : Nat)
  | importExternals (k o : Nat)
  | importTransitive (k o : Nat)
  | makeTransitive (k : Nat)

/-- One operation on the modules of a host. -/
def step (ms : List Module) : Op → List Module
  | .new => ms ++ [Module.empty]
  | .add k name f p => ms.modify k fun m => m.add name f p
  | .load k uses fs check => ms.modify k fun m => (m.load uses fs check).1
  | .import k o => match ms[o]? with
    | some other => ms.modify k fun m => m.import other
    | none => ms
  | .importExternals k o => match ms[o]? with
    | some other => ms.modify k fun m => m.importExternals other
    | none => ms
  | .importTransitive k o => match ms[o]? with
    | some other => ms.modify k fun m => m.importTransitive other
    | none => ms
  | .makeTransitive k => ms.modify k Module.makeTransitive

/-- The functions of a loaded file are not linked yet, and the checker refines the
return types of functions of the file only (lifetime/mod.rs:1146-1152). -/
def Op.Ok : Op → Prop
  | .load _ _ fs check => (∀ f ∈ fs, f.lookedUp = false) ∧
      ∀ rets, check = some rets → ∀ r ∈ rets, r.1 ∈ fs.map (·.name)
  | _ => True

/-! ## Linked modules -/

/-- Every call in the functions below `b` leads to a function below `b`. -/
def Closed (m : Module) (b : Nat) : Prop :=
  ∀ (i : Nat) f, i < b → m.functions[i]? = some f → ∀ s ∈ f.calls, ∀ r, s.index = .loaded r →
    0 ≤ r + i ∧ r + i < b

structure Linked (m : Module) : Prop where
  up : ∀ f ∈ m.functions, f.lookedUp = true
  all : Closed m m.functions.length
  len : m.transitive ≤ m.functions.length
  prefix_ : Closed m m.transitive

theorem executes_embed {m M : Module} {off b : Nat} (hc : Closed m b)
    (h : ∀ i < b, M.functions[off + i]? = m.functions[i]?) :
    ∀ n i, i < b → executes n M (off + i) = executes n m i := by
  intro n
  induction n with
  | zero => intro i _; rfl
  | succ n ih =>
    intro i hi
    unfold executes
    rw [h i hi]
    cases hf : m.functions[i]? with
    | none => rfl
    | some f =>
      simp only
      congr 1
      apply List.map_congr_left
      intro s hs
      cases hx : s.index with
      | loaded r =>
        obtain ⟨h1, h2⟩ := hc i f hi hf s hs r hx
        have : (r + ((off + i : Nat) : Int)).toNat = off + (r + (i : Int)).toNat := by omega
        simp only [this]
        rw [ih _ (by omega)]
      | _ => rfl

theorem Linked.empty : Linked Module.empty :=
  ⟨by simp [Module.empty], by intro i f h; simp [Module.empty] at h, by simp [Module.empty],
   by intro i f h; simp [Module.empty] at h⟩

theorem Closed.of_eq {m M : Module} {b : Nat} (hc : Closed m b)
    (h : ∀ i < b, M.functions[i]? = m.functions[i]?) : Closed M b :=
  fun i f hi hf => hc i f hi ((h i hi) ▸ hf)

theorem Closed.append {m M : Module} {a b : Nat} (h1 : Closed M a)
    (h2 : Closed m b) (h : ∀ i < b, M.functions[a + i]? = m.functions[i]?) : Closed M (a + b) := by
  intro i f hi hf s hs r hr
  by_cases ha : i < a
  · have := h1 i f ha hf s hs r hr
    omega
  · obtain ⟨j, rfl⟩ : ∃ j, i = a + j := ⟨i - a, by omega⟩
    have hj : j < b := by omega
    have := h2 j f hj ((h j hj) ▸ hf) s hs r hr
    push_cast
    push_cast at this
    omega

/-- Putting functions of a linked module behind those of another. -/
theorem append_facts {m o M : Module} {b : Nat} (hm : Linked m) (hb : b ≤ o.functions.length) (ho : Closed o b)
    (hM : M.functions = m.functions ++ o.functions.take b) :
    (∀ i < m.functions.length, M.functions[i]? = m.functions[i]?) ∧
    (∀ i < b, M.functions[m.functions.length + i]? = o.functions[i]?) ∧
    Closed M M.functions.length ∧ Closed M m.transitive := by
  have h1 : ∀ i < m.functions.length, M.functions[i]? = m.functions[i]? := by
    intro i hi; rw [hM, List.getElem?_append_left hi]
  have h2 : ∀ i < b, M.functions[m.functions.length + i]? = o.functions[i]? := by
    intro i hi
    rw [hM, List.getElem?_append_right (by omega)]
    simp [List.getElem?_take, hi]
  refine ⟨h1, h2, ?_, hm.prefix_.of_eq fun i hi => h1 i (by have := hm.len; omega)⟩
  have : M.functions.length = m.functions.length + b := by
    rw [hM, List.length_append, List.length_take, Nat.min_eq_left hb]
  rw [this]
  exact (hm.all.of_eq h1).append ho h2

theorem Linked.import {m o : Module} (hm : Linked m) (ho : Linked o) : Linked (m.import o) := by
  obtain ⟨h1, h2, h3, h4⟩ := append_facts (M := m.import o) hm (Nat.le_refl _) ho.all (by simp [Module.import])
  refine ⟨?_, h3, ?_, h4⟩
  · intro f hf
    rcases List.mem_append.1 (show f ∈ m.functions ++ o.functions from hf) with hf | hf
    · exact hm.up f hf
    · exact ho.up f hf
  · have := hm.len
    simp [Module.import]; omega

theorem Linked.importTransitive {m o : Module} (hm : Linked m) (ho : Linked o) : Linked (m.importTransitive o) := by
  obtain ⟨h1, h2, h3, h4⟩ := append_facts (M := m.importTransitive o) hm ho.len ho.prefix_ rfl
  refine ⟨?_, h3, Nat.le_refl _, h3⟩
  intro f hf
  rcases List.mem_append.1 (show f ∈ m.functions ++ o.functions.take o.transitive from hf) with hf | hf
  · exact hm.up f hf
  · exact ho.up f (List.mem_of_mem_take hf)

theorem Linked.externals {m : Module} (hm : Linked m) (es : List External) :
    Linked { m with externals := es } := ⟨hm.up, hm.all, hm.len, hm.prefix_⟩

theorem Linked.makeTransitive {m : Module} (hm : Linked m) : Linked m.makeTransitive :=
  ⟨hm.up, hm.all, Nat.le_refl _, hm.all⟩

theorem link_closed {m : Module} {uses : List UseImport} {m0 : Module} (hm : m0.functions.length ≤ m.functions.length)
    {index : Nat} {s : Site} {r : Int}
    (h : link m (aliasesOfModule uses m0) index s = .loaded r) : 0 ≤ r + index ∧ r + index < m.functions.length := by
  unfold link at h
  cases hv : s.via with
  | some al =>
    rw [hv] at h
    simp only at h
    cases hg : (aliasesOfModule uses m0).get al s.name with
    | none => rw [hg] at h; cases h
    | some v =>
      rw [hg] at h
      have := valid_uses uses m0 al s.name v hg
      cases v with
      | loaded i =>
        simp only [FnIndex.loaded.injEq] at h
        have : i < m0.functions.length := this
        omega
      | external i =>
        simp only at h
        cases he : m.externals[i]? with
        | none => rw [he] at h; cases h
        | some e =>
          rw [he] at h
          simp only [External.aliasIndex] at h
          cases hf : e.f <;> rw [hf] at h <;> cases h
  | none =>
    rw [hv] at h
    simp only [Module.find] at h
    cases hi : lastIdx (fun f => f.name == s.name) m.functions with
    | some i =>
      rw [hi] at h
      simp only [FnIndex.loaded.injEq] at h
      obtain ⟨f, hf, _⟩ := lastIdx_some hi
      have := (List.getElem?_eq_some_iff.1 hf).1
      omega
    | none =>
      rw [hi] at h
      simp only at h
      cases he : m.externals.reverse.find? (fun e => e.name == s.name) with
      | none => rw [he] at h; cases h
      | some e =>
        rw [he] at h
        simp only [External.index] at h
        cases hf : e.f with
        | ret f =>
          rw [hf] at h
          simp only at h
          by_cases hl : e.p.lazy.isEmpty
          · rw [if_pos hl] at h; cases h
          · rw [if_neg hl] at h; cases h
        | _ => rw [hf] at h; cases h

theorem convert_old {m : Module} {uses : List UseImport} {fs : List Function} (hm : Linked m) {i : Nat}
    (hi : i < m.functions.length) : (m.convert uses fs).functions[i]? = m.functions[i]? := by
  rw [convert_get, List.getElem?_append_left hi, List.getElem?_eq_getElem hi, Option.map_some]
  have := hm.up _ (List.getElem_mem hi)
  simp [linkFunction, this]

theorem Linked.convert {m : Module} {uses : List UseImport} {fs : List Function} (hm : Linked m)
    (hfs : ∀ f ∈ fs, f.lookedUp = false) : Linked (m.convert uses fs) := by
  have hlen : (m.convert uses fs).functions.length = m.functions.length + fs.length := by
    simp [Module.convert]
  refine ⟨?_, ?_, ?_, ?_⟩
  · intro f hf
    obtain ⟨i, hi⟩ := List.mem_iff_getElem?.1 hf
    rw [convert_get] at hi
    cases hg : (m.functions ++ fs)[i]? with
    | none => rw [hg] at hi; cases hi
    | some g =>
      rw [hg, Option.map_some, Option.some.injEq] at hi
      rw [← hi]
      unfold linkFunction
      by_cases h : g.lookedUp
      · rw [if_pos h]; exact h
      · rw [if_neg h]
  · intro i f hi hf s hs r hr
    by_cases hold : i < m.functions.length
    · rw [convert_old hm hold] at hf
      have := hm.all i f hold hf s hs r hr
      omega
    · rw [convert_get] at hf
      cases hg : (m.functions ++ fs)[i]? with
      | none => rw [hg] at hf; cases hf
      | some g =>
        rw [hg, Option.map_some, Option.some.injEq] at hf
        rw [List.getElem?_append_right (by omega)] at hg
        have hu := hfs g (List.mem_of_getElem? hg)
        rw [← hf] at hs
        simp only [linkFunction, hu, Bool.false_eq_true, if_false, List.mem_map] at hs
        obtain ⟨s0, _, rfl⟩ := hs
        have := link_closed (m0 := m) (m := { m with functions := m.functions ++ fs }) (by simp) hr
        simpa [hlen] using this
  · have := hm.len
    show m.transitive ≤ _
    omega
  · exact hm.prefix_.of_eq fun i hi => convert_old hm (by have := hm.len; omega)

/-- A refined return type changes the return type of one function, and this is one of
the last `n` functions if the name is among theirs. -/
theorem refineRet_spec {m : Module} {r : String × Ty} :
    (refineRet m r = m ∨ ∃ i, lastIdx (fun f => f.name == r.1) m.functions = some i ∧
      refineRet m r = { m with functions := m.functions.modify i fun f => { f with ret := r.2 } }) := by
  unfold refineRet
  cases h : m.find r.1 0 with
  | loaded k =>
    refine Or.inr ?_
    unfold Module.find at h
    cases hi : lastIdx (fun f => f.name == r.1) m.functions with
    | some i =>
      rw [hi] at h
      simp only [FnIndex.loaded.injEq] at h
      have : k.toNat = i := by omega
      exact ⟨i, rfl, by simp only [this]⟩
    | none =>
      rw [hi] at h
      simp only at h
      cases he : m.externals.reverse.find? (fun e => e.name == r.1) with
      | none => rw [he] at h; cases h
      | some e =>
        rw [he] at h
        simp only [External.index] at h
        cases hf : e.f with
        | ret f =>
          rw [hf] at h
          simp only at h
          by_cases hl : e.p.lazy.isEmpty
          · rw [if_pos hl] at h; cases h
          · rw [if_neg hl] at h; cases h
        | _ => rw [hf] at h; cases h
  | _ => exact Or.inl rfl

/-- What refining keeps: the number of functions, everything except return types, and
the functions below `b`. -/
structure Refines (m M : Module) (b : Nat) : Prop where
  transitive : M.transitive = m.transitive
  length : M.functions.length = m.functions.length
  names : M.functions.map (·.name) = m.functions.map (·.name)
  old : ∀ i < b, M.functions[i]? = m.functions[i]?
  up : (∀ f ∈ m.functions, f.lookedUp = true) → ∀ f ∈ M.functions, f.lookedUp = true
  calls : ∀ (i : Nat) g, M.functions[i]? = some g → ∃ f, m.functions[i]? = some f ∧ g.calls = f.calls

theorem Refines.refl (m : Module) (b : Nat) : Refines m m b :=
  ⟨rfl, rfl, rfl, fun _ _ => rfl, fun h => h, fun _ g hg => ⟨g, hg, rfl⟩⟩

theorem Refines.trans {m M N : Module} {b : Nat} (h : Refines m M b) (g : Refines M N b) : Refines m N b :=
  ⟨g.transitive.trans h.transitive, g.length.trans h.length, g.names.trans h.names,
   fun i hi => (g.old i hi).trans (h.old i hi), fun hu => g.up (h.up hu), fun i x hx => by
    obtain ⟨f, hf, h1⟩ := g.calls i x hx
    obtain ⟨f', hf', h2⟩ := h.calls i f hf
    exact ⟨f', hf', h1.trans h2⟩⟩

theorem refineRet_refines {m : Module} {r : String × Ty} {b : Nat}
    (hn : r.1 ∈ (m.functions.drop b).map (·.name)) : Refines m (refineRet m r) b := by
  rcases refineRet_spec (m := m) (r := r) with h | ⟨i, hi, h⟩
  · rw [h]; exact .refl m b
  · rw [h]
    have hib : b ≤ i := by
      by_cases hb : b ≤ m.functions.length
      · have hsplit : m.functions = m.functions.take b ++ m.functions.drop b := (List.take_append_drop ..).symm
        rw [hsplit, lastIdx_append] at hi
        cases hd : lastIdx (fun f => f.name == r.1) (m.functions.drop b) with
        | some j =>
          rw [hd] at hi
          simp only [List.length_take, Nat.min_eq_left hb, Option.some.injEq] at hi
          omega
        | none =>
          obtain ⟨f, hf, he⟩ := List.mem_map.1 hn
          have := lastIdx_none.1 hd f hf
          simp [he] at this
      · rw [List.drop_eq_nil_of_le (by omega)] at hn
        simp at hn
    refine ⟨rfl, by simp, ?_, ?_, ?_, ?_⟩
    · apply List.ext_getElem?
      intro k
      simp only [List.getElem?_map, List.getElem?_modify]
      by_cases hk : i = k <;> cases m.functions[k]? <;> simp [hk]
    · intro k hk
      simp only [List.getElem?_modify]
      have : ¬ i = k := by omega
      simp [this]
    · intro hu f hf
      obtain ⟨k, hk⟩ := List.mem_iff_getElem?.1 hf
      simp only [List.getElem?_modify] at hk
      cases hg : m.functions[k]? with
      | none => rw [hg] at hk; cases hk
      | some g =>
        rw [hg] at hk
        have := hu g (List.mem_of_getElem? hg)
        by_cases hki : i = k
        · simp only [hki, if_true, Functor.map, Option.map_some, Option.some.injEq] at hk
          rw [← hk]; exact this
        · simp only [hki, if_false, Functor.map, Option.map_some, Option.some.injEq] at hk
          rw [← hk]; exact this
    · intro k g hk
      simp only [List.getElem?_modify] at hk
      cases hg : m.functions[k]? with
      | none => rw [hg] at hk; cases hk
      | some f =>
        rw [hg] at hk
        refine ⟨f, rfl, ?_⟩
        by_cases hki : i = k
        · simp only [hki, if_true, Functor.map, Option.map_some, Option.some.injEq] at hk
          rw [← hk]
        · simp only [hki, if_false, Functor.map, Option.map_some, Option.some.injEq] at hk
          rw [← hk]

theorem refineRets_refines {b : Nat} (rets : List (String × Ty)) : ∀ {m : Module},
    (∀ r ∈ rets, r.1 ∈ (m.functions.drop b).map (·.name)) → Refines m (rets.foldl refineRet m) b := by
  induction rets with
  | nil => exact fun _ => .refl _ b
  | cons r rets ih =>
    intro m h
    have h1 := refineRet_refines (h r (by simp))
    refine h1.trans (ih fun q hq => ?_)
    rw [List.map_drop, h1.names, ← List.map_drop]
    exact h q (List.mem_cons_of_mem _ hq)

theorem load_refines {m : Module} {uses : List UseImport} {fs : List Function} {check : Option (List (String × Ty))}
    (hc : ∀ rets, check = some rets → ∀ r ∈ rets, r.1 ∈ fs.map (·.name)) :
    Refines (m.convert uses fs) (m.load uses fs check).1 m.functions.length := by
  unfold Module.load
  cases check with
  | none => exact .refl _ _
  | some rets =>
    refine refineRets_refines rets fun r hr => ?_
    have : ((m.convert uses fs).functions.drop m.functions.length).map (·.name) = fs.map (·.name) := by
      apply List.ext_getElem?
      intro k
      rw [List.getElem?_map, List.getElem?_drop, convert_get, List.getElem?_append_right (by omega)]
      simp only [Nat.add_sub_cancel_left, List.getElem?_map]
      cases fs[k]? with
      | none => rfl
      | some f => simp only [Option.map_some]; rw [← (sameDecl_link _ _ _ f).2.1]
    rw [this]
    exact hc rets rfl r hr

theorem Linked.refines {m M : Module} {b : Nat} (hm : Linked m) (h : Refines m M b) : Linked M := by
  have cl : ∀ b, Closed m b → Closed M b := by
    intro b hb i g hi hg s hs r hr
    obtain ⟨f, hf, he⟩ := h.calls i g hg
    exact hb i f hi hf s (he ▸ hs) r hr
  exact ⟨h.up hm.up, h.length ▸ cl _ hm.all, by rw [h.transitive, h.length]; exact hm.len,
    h.transitive ▸ cl _ hm.prefix_⟩

theorem Linked.load {m : Module} {uses : List UseImport} {fs : List Function} {check : Option (List (String × Ty))}
    (hm : Linked m) (hok : Op.Ok (.load 0 uses fs check)) : Linked (m.load uses fs check).1 :=
  (hm.convert hok.1).refines (load_refines hok.2)

/-! ## The theorems -/

/-- The modules of a host after a history. -/
def run (ms : List Module) (ops : List Op) : List Module := ops.foldl step ms

/-- Modules that a host can build from nothing. -/
def Reachable (ms : List Module) : Prop := ∃ ops : List Op, (∀ o ∈ ops, o.Ok) ∧ run [] ops = ms

theorem modify_cases {ms : List Module} {k j : Nat} {g : Module → Module} {m : Module}
    (h : (ms.modify k g)[j]? = some m) : ∃ m0, ms[j]? = some m0 ∧ (m = m0 ∨ (j = k ∧ m = g m0)) := by
  rw [List.getElem?_modify] at h
  cases hm : ms[j]? with
  | none => rw [hm] at h; cases h
  | some m0 =>
    rw [hm] at h
    refine ⟨m0, rfl, ?_⟩
    by_cases hk : k = j
    · simp only [hk, if_true, Functor.map, Option.map_some, Option.some.injEq] at h
      exact Or.inr ⟨hk.symm, h.symm⟩
    · simp only [hk, if_false, Functor.map, Option.map_some, Option.some.injEq] at h
      exact Or.inl h.symm

theorem linked_modify {ms : List Module} {k : Nat} {g : Module → Module} (hms : ∀ m ∈ ms, Linked m)
    (hg : ∀ m, Linked m → Linked (g m)) : ∀ m ∈ ms.modify k g, Linked m := by
  intro m hm
  obtain ⟨j, hj⟩ := List.mem_iff_getElem?.1 hm
  obtain ⟨m0, h0, rfl | ⟨_, rfl⟩⟩ := modify_cases hj
  · exact hms _ (List.mem_of_getElem? h0)
  · exact hg _ (hms _ (List.mem_of_getElem? h0))

theorem linked_step {ms : List Module} {o : Op} (ho : o.Ok) (hms : ∀ m ∈ ms, Linked m) :
    ∀ m ∈ step ms o, Linked m := by
  cases o with
  | new =>
    intro m hm
    rcases List.mem_append.1 (show m ∈ ms ++ [Module.empty] from hm) with hm | hm
    · exact hms m hm
    · rw [List.mem_singleton.1 hm]; exact .empty
  | add k name f p => exact linked_modify hms fun m hm => hm.externals _
  | load k uses fs check => exact linked_modify hms fun m hm => hm.load ho
  | makeTransitive k => exact linked_modify hms fun m hm => hm.makeTransitive
  | «import» k o =>
    simp only [step]
    cases h : ms[o]? with
    | none => exact hms
    | some other => exact linked_modify hms fun m hm => hm.import (hms _ (List.mem_of_getElem? h))
  | importExternals k o =>
    simp only [step]
    cases h : ms[o]? with
    | none => exact hms
    | some other => exact linked_modify hms fun m hm => hm.externals _
  | importTransitive k o =>
    simp only [step]
    cases h : ms[o]? with
    | none => exact hms
    | some other => exact linked_modify hms fun m hm => hm.importTransitive (hms _ (List.mem_of_getElem? h))

theorem linked_reachable {ms : List Module} (h : Reachable ms) : ∀ m ∈ ms, Linked m := by
  obtain ⟨ops, hops, rfl⟩ := h
  have : ∀ (ops : List Op) ms, (∀ o ∈ ops, o.Ok) → (∀ m ∈ ms, Linked m) → ∀ m ∈ run ms ops, Linked m := by
    intro ops
    induction ops with
    | nil => exact fun _ _ h => h
    | cons o ops ih =>
      exact fun ms ho hms => ih _ (fun q hq => ho q (List.mem_cons_of_mem _ hq)) (linked_step (ho o (by simp)) hms)
  exact this ops [] hops (by simp)

theorem Reachable.run {ms : List Module} (h : Reachable ms) {ops : List Op} (hops : ∀ o ∈ ops, o.Ok) :
    Reachable (run ms ops) := by
  obtain ⟨ops', h', rfl⟩ := h
  refine ⟨ops' ++ ops, ?_, by simp [Mod.run]⟩
  intro o ho
  rcases List.mem_append.1 ho with ho | ho
  · exact h' o ho
  · exact hops o ho

/-- The functions a module has stay where they are. -/
def Keeps (m M : Module) : Prop := ∀ i < m.functions.length, M.functions[i]? = m.functions[i]?

theorem Keeps.executes {m M : Module} (h : Keeps m M) (hm : Linked m) (n i : Nat) (hi : i < m.functions.length) :
    executes n M i = executes n m i := by
  have := executes_embed (off := 0) (M := M) hm.all (by simpa [Keeps] using h) n i hi
  simpa using this

theorem keeps_step {ms : List Module} {o : Op} (ho : o.Ok) (hms : ∀ m ∈ ms, Linked m) {k : Nat} {m : Module}
    (hk : ms[k]? = some m) : ∃ M, (step ms o)[k]? = some M ∧ Keeps m M := by
  have modi : ∀ j (g : Module → Module), (∀ m, Linked m → Keeps m (g m)) →
      ∃ M, (ms.modify j g)[k]? = some M ∧ Keeps m M := by
    intro j g hg
    rw [List.getElem?_modify, hk]
    by_cases hj : j = k
    · refine ⟨g m, by simp [hj, Functor.map], hg m (hms _ (List.mem_of_getElem? hk))⟩
    · exact ⟨m, by simp [hj, Functor.map], fun _ _ => rfl⟩
  have app : ∀ (m : Module) l (M : Module), M.functions = m.functions ++ l → Keeps m M := by
    intro m l M h i hi
    rw [h, List.getElem?_append_left hi]
  cases o with
  | new =>
    refine ⟨m, ?_, fun _ _ => rfl⟩
    show (ms ++ [Module.empty])[k]? = some m
    rw [List.getElem?_append_left (List.getElem?_eq_some_iff.1 hk).1, hk]
  | add j name f p => exact modi j _ fun m _ i _ => rfl
  | load j uses fs check =>
    refine modi j _ fun m hm i hi => ?_
    rw [(load_refines ho.2).old i hi, convert_old hm hi]
  | makeTransitive j => exact modi j _ fun m _ i _ => rfl
  | «import» j o =>
    simp only [step]
    cases h : ms[o]? with
    | none => exact ⟨m, hk, fun _ _ => rfl⟩
    | some other => exact modi j _ fun m _ => app m other.functions _ rfl
  | importExternals j o =>
    simp only [step]
    cases h : ms[o]? with
    | none => exact ⟨m, hk, fun _ _ => rfl⟩
    | some other => exact modi j _ fun m _ i _ => rfl
  | importTransitive j o =>
    simp only [step]
    cases h : ms[o]? with
    | none => exact ⟨m, hk, fun _ _ => rfl⟩
    | some other => exact modi j _ fun m _ => app m (other.functions.take other.transitive) _ rfl

/-- **C33**, functions stay linked: whatever is done with modules later (loads, failed
loads, imports of every kind, new host functions), a function that is in a module stays
there and executes what it executed before, to every depth of calls. -/
theorem C33_stable {ms : List Module} (h : Reachable ms) {ops : List Op} (hops : ∀ o ∈ ops, o.Ok)
    {k : Nat} {m : Module} (hk : ms[k]? = some m) :
    ∃ M, (run ms ops)[k]? = some M ∧ m.functions.length ≤ M.functions.length ∧
      ∀ n i, i < m.functions.length → executes n M i = executes n m i := by
  have hms := linked_reachable h
  clear h
  have key : ∃ M, (run ms ops)[k]? = some M ∧ Keeps m M := by
    induction ops generalizing ms m with
    | nil => exact ⟨m, hk, fun _ _ => rfl⟩
    | cons o ops ih =>
      obtain ⟨M, hM, h1⟩ := keeps_step (hops o (by simp)) hms hk
      obtain ⟨N, hN, h2⟩ := ih (fun q hq => hops q (List.mem_cons_of_mem _ hq)) hM
        (linked_step (hops o (by simp)) hms)
      refine ⟨N, hN, fun i hi => ?_⟩
      have hlt : i < M.functions.length := by
        have := h1 i hi
        rw [List.getElem?_eq_getElem hi] at this
        exact (List.getElem?_eq_some_iff.1 this).1
      rw [h2 i hlt, h1 i hi]
  obtain ⟨M, hM, hkeep⟩ := key
  refine ⟨M, hM, ?_, fun n i hi => hkeep.executes (hms _ (List.mem_of_getElem? hk)) n i hi⟩
  by_contra hlt
  have := hkeep M.functions.length (by omega)
  rw [List.getElem?_eq_none (Nat.le_refl _), List.getElem?_eq_getElem (by omega)] at this
  cases this

/-- **C33**, imports: the functions of an imported module are put behind those of the
importing module, in order, and each executes there what it executes in its own
module, to every depth of calls. -/
theorem C33_import {ms : List Module} (h : Reachable ms) {k o : Nat} {m other : Module}
    (hk : ms[k]? = some m) (ho : ms[o]? = some other) :
    ∃ M, (step ms (.import k o))[k]? = some M ∧ M.functions.length = m.functions.length + other.functions.length ∧
      ∀ n i, i < other.functions.length → executes n M (m.functions.length + i) = executes n other i := by
  have hm := linked_reachable h m (List.mem_of_getElem? hk)
  have hoth := linked_reachable h other (List.mem_of_getElem? ho)
  refine ⟨m.import other, ?_, by simp [Module.import], ?_⟩
  · simp [step, ho, List.getElem?_modify, hk, Functor.map]
  · obtain ⟨_, h2, _, _⟩ := append_facts (M := m.import other) hm (Nat.le_refl _) hoth.all (by simp [Module.import])
    exact executes_embed hoth.all h2

/-- **C33**, transitive imports: the same for the transitive functions of a module. -/
theorem C33_importTransitive {ms : List Module} (h : Reachable ms) {k o : Nat} {m other : Module}
    (hk : ms[k]? = some m) (ho : ms[o]? = some other) :
    ∃ M, (step ms (.importTransitive k o))[k]? = some M ∧
      M.functions.length = m.functions.length + other.transitive ∧
      ∀ n i, i < other.transitive → executes n M (m.functions.length + i) = executes n other i := by
  have hm := linked_reachable h m (List.mem_of_getElem? hk)
  have hoth := linked_reachable h other (List.mem_of_getElem? ho)
  refine ⟨m.importTransitive other, ?_, ?_, ?_⟩
  · simp [step, ho, List.getElem?_modify, hk, Functor.map]
  · have := hoth.len
    simp only [Module.importTransitive, List.length_append, List.length_take]
    omega
  · obtain ⟨_, h2, _, _⟩ := append_facts (M := m.importTransitive other) hm hoth.len hoth.prefix_ rfl
    exact executes_embed hoth.prefix_ h2

/-- The host functions with a name and a namespace. -/
def Spec.hostNamed (es : List External) (ns : List String) (name : String) : List External :=
  es.filter fun e => e.ns = ns ∧ e.name = name

theorem addExternal_named (es : List External) (e : External) (ns : List String) (name : String) :
    Spec.hostNamed (addExternal es e) ns name =
      if Spec.hostNamed es ns name = [] then Spec.hostNamed [e] ns name else Spec.hostNamed es ns name := by
  have hany : (es.any fun a => a.name == e.name && decide (a.ns = e.ns)) = true ↔ Spec.hostNamed es e.ns e.name ≠ [] := by
    simp only [List.any_eq_true, Spec.hostNamed, ne_eq, List.filter_eq_nil_iff, not_forall]
    constructor
    · rintro ⟨x, hx, h⟩; exact ⟨x, hx, by simp_all⟩
    · rintro ⟨x, hx, h⟩; exact ⟨x, hx, by simp_all⟩
  have happ : Spec.hostNamed (es ++ [e]) ns name = Spec.hostNamed es ns name ++ Spec.hostNamed [e] ns name :=
    List.filter_append ..
  have hone : Spec.hostNamed [e] ns name = if e.ns = ns ∧ e.name = name then [e] else [] := by
    simp only [Spec.hostNamed, List.filter_cons, List.filter_nil, decide_eq_true_eq]
  unfold addExternal
  by_cases hq : e.ns = ns ∧ e.name = name
  · obtain ⟨rfl, rfl⟩ := hq
    by_cases he : Spec.hostNamed es e.ns e.name = []
    · rw [if_neg (fun h => hany.1 h he), if_pos he, happ, he, List.nil_append]
    · rw [if_pos (hany.2 he), if_neg he]
  · have hone' : Spec.hostNamed [e] ns name = [] := by rw [hone, if_neg hq]
    rw [hone'] at happ ⊢
    split
    · split
      · rename_i h; exact h
      · rfl
    · rw [happ, List.append_nil]
      split
      · rename_i h; exact h
      · rfl

/-- **C33**, host functions: after an import the host functions of the importing module are as before,
and with each name and namespace that it did not have there is the first one of the imported module. -/
theorem C33_import_host (m o : Module) : m.externals <+: (m.import o).externals ∧ ∀ ns name,
    Spec.hostNamed (m.import o).externals ns name =
      if Spec.hostNamed m.externals ns name = [] then (Spec.hostNamed o.externals ns name).take 1
      else Spec.hostNamed m.externals ns name := by
  have key : ∀ (os es : List External), es <+: os.foldl addExternal es ∧ ∀ ns name,
      Spec.hostNamed (os.foldl addExternal es) ns name =
        if Spec.hostNamed es ns name = [] then (Spec.hostNamed os ns name).take 1 else Spec.hostNamed es ns name := by
    intro os
    induction os with
    | nil =>
      intro es
      refine ⟨List.prefix_refl _, fun ns name => ?_⟩
      split
      · rename_i h; exact h
      · rfl
    | cons a os ih =>
      intro es
      obtain ⟨h1, h2⟩ := ih (addExternal es a)
      refine ⟨List.IsPrefix.trans ?_ h1, fun ns name => ?_⟩
      · unfold addExternal
        split
        · exact List.prefix_refl _
        · exact List.prefix_append ..
      · rw [List.foldl_cons, h2, addExternal_named]
        have hc : Spec.hostNamed (a :: os) ns name = Spec.hostNamed [a] ns name ++ Spec.hostNamed os ns name :=
          List.filter_append [a] os
        by_cases he : Spec.hostNamed es ns name = []
        · simp only [he, if_true]
          rw [hc]
          by_cases ha : Spec.hostNamed [a] ns name = []
          · rw [if_pos ha, ha, List.nil_append]
          · rw [if_neg ha]
            have : Spec.hostNamed [a] ns name = [a] := by
              simp only [Spec.hostNamed, List.filter_cons, List.filter_nil] at ha ⊢
              split
              · rfl
              · rename_i h; exact absurd (by rw [if_neg h]) ha
            rw [this]; rfl
        · simp only [if_neg he]
  exact key o.externals m.externals

/-- Two host functions of the same name in different namespaces. -/
example : (Demo.host.import ⟨[], 0, [⟨["b"], "h", .ret 7, Demo.dfn 1⟩, ⟨[], "h", .ret 8, Demo.dfn 1⟩], []⟩).externals.map
    (fun e => (e.ns, e.name)) = [(["lib"], "f(mut)"), (["lib"], "g"), ([], "h"), (["b"], "h")] := rfl

/-- **C33**, no call leads nowhere: every linked call in a module executes a function
of the module. -/
theorem C33_calls {ms : List Module} (h : Reachable ms) {m : Module} (hm : m ∈ ms) {i : Nat} {f : Function}
    (hf : m.functions[i]? = some f) {s : Site} (hs : s ∈ f.calls) {r : Int} (hr : s.index = .loaded r) :
    ∃ g, callee m i r = some g := by
  have hi := (List.getElem?_eq_some_iff.1 hf).1
  obtain ⟨h1, h2⟩ := (linked_reachable h m hm).all i f hi hf s hs r hr
  exact ⟨_, List.getElem?_eq_getElem (by omega)⟩

/-! ## A concrete history, and `go` -/

namespace Demo

/-- Two libraries with functions of the same name, and a program that imports both. -/
def history : List Op :=
  [.new, .load 0 [] [fn [] "f" "a.dyon" 0 [site none "h"], fn [] "h" "a.dyon" 0 []] (some [("f", .f64)]),
   .new, .load 1 [] [fn [] "h" "b.dyon" 0 []] none, .makeTransitive 1,
   .new, .importTransitive 2 1, .import 2 0, .import 2 1,
   .load 2 [] [fn [] "main" "c.dyon" 0 [site none "f", site none "h"]] (some [])]

end Demo

example : ∀ o ∈ Demo.history, o.Ok := by simp [Demo.history, Op.Ok, Demo.fn]

example : ((run [] Demo.history)[2]?.map fun m => m.functions.map (·.file)) =
    some ["b.dyon", "a.dyon", "a.dyon", "b.dyon", "c.dyon"] := rfl

/-- `f` calls the `h` of its own library, the program calls the `h` imported last. -/
example : ((run [] Demo.history)[2]?.map fun m => executes 3 m 4) =
    some (.fn [] "main" "c.dyon" [] .any
      [(none, "f", .fn [] "f" "a.dyon" [] .f64 [(none, "h", .fn [] "h" "a.dyon" [] .any [])]),
       (none, "h", .fn [] "h" "b.dyon" [] .any [])]) := rfl

/-- **Finding (C33).** `go` is not linked: it looks the function up by name in the module
that is running. A function of an imported library that starts a thread `go h(..)` with
the `h` of its library starts another function when the program imports a library with
an `h` later. -/
theorem C33_go : ∃ ms m other, Reachable ms ∧ ms[0]? = some other ∧ ms[2]? = some m ∧
    (other.functions[1]?.map (·.file)) = some "a.dyon" ∧ goIndex other 0 (Demo.site none "h") = .loaded 1 ∧
    (m.functions[1]?.map (·.name)) = some "f" ∧ goIndex m 1 (Demo.site none "h") = .loaded 2 ∧
    (m.functions[3]?.map (·.file)) = some "b.dyon" :=
  ⟨run [] Demo.history, _, _, ⟨Demo.history, by simp [Demo.history, Op.Ok, Demo.fn], rfl⟩, rfl, rfl, rfl, rfl, rfl,
    rfl, rfl⟩

/-! ## Failed loads -/

/-- **C54**, finding: a file that the checker refuses is in the module nevertheless:
`load_str` returns an error, but the functions of the file have been added and linked,
and a host that continues can call them. -/
theorem C54_refused_file_is_loaded (m : Module) (uses : List UseImport) (fs : List Function) :
    (m.load uses fs none).2 = false ∧ (m.load uses fs none).1 = (m.convert uses fs) ∧
    (m.load uses fs none).1.functions.length = m.functions.length + fs.length := by
  simp [Module.load, Module.convert]

/-- **C54**, partial: what was in the module before a failed load is still there and
executes the same. -/
theorem C54_failed_load_partial {ms : List Module} (h : Reachable ms) {k : Nat} {m : Module} (hk : ms[k]? = some m)
    (uses : List UseImport) (fs : List Function) (hfs : ∀ f ∈ fs, f.lookedUp = false) :
    (m.load uses fs none).1.externals = m.externals ∧
    ∀ n i, i < m.functions.length → executes n (m.load uses fs none).1 i = executes n m i := by
  refine ⟨by simp [Module.load, Module.convert], fun n i hi => ?_⟩
  obtain ⟨M, hM, _, hx⟩ := C33_stable h (ops := [.load k uses fs none])
    (by intro o ho; rw [List.mem_singleton.1 ho]; exact ⟨hfs, by simp⟩) hk
  have : M = (m.load uses fs none).1 := by
    simp [run, step, List.getElem?_modify, hk, Functor.map] at hM
    exact hM.symm
  rw [← this]
  exact hx n i hi

example : ((Demo.host.load [] Demo.file none).1.find "main" 0) = .loaded 1 := rfl

end Dyon.Mod
