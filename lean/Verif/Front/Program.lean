import Verif.Front.PlainRun
import Verif.Front.LoadProps
import Verif.Eval.ResolveProps

/-!
# Programs

A program as modules that a host makes from texts (`Front/Load.lean`), what its called names stand for
(specification), and the lemmas that tie it to the functions that run.
-/

namespace Dyon.Plain

open Front (Src FnSrc BodySrc ModSrc Entry Target LMod)
open Front.Spec (fnName)

/-- What a call calls, in a module with the functions `es`; `va` and `ra` are the numbers of arguments of the
functions of the host. -/
def calledAs (va ra : Nat → Nat) (es : List Entry) : Target → Called
  | .nothing => .nothing
  | .own j => match es[j]? with
    | some e => .own e.fn.args.length (Front.Spec.returns e.fn.body)
    | none => .nothing
  | .host x _ => match x.f with
    | .void f => .host (va f) false
    | .ret f => .host (ra f) true
    | .binop _ | .unop _ => .op

/-- The functions of the host that were put into a module or into one that it imports. -/
def added : ModSrc → List Mod.External
  | .host ext => ext
  | .add m ext => added m ++ ext
  | .load m _ _ | .marked m => added m
  | .imports m o | .importsTr m o => added m ++ added o

/-! ## Lemmas -/

theorem joinHosts_mem {x : Mod.External} : ∀ {es os}, x ∈ Front.Spec.joinHosts es os → x ∈ es ∨ x ∈ os
  | es, [], h => .inl h
  | es, o :: os, h => by
    rw [Front.Spec.joinHosts] at h
    split at h
    · exact (joinHosts_mem h).imp id (List.mem_cons_of_mem _)
    · rcases joinHosts_mem h with h | h
      · rcases List.mem_append.1 h with h | h
        · exact .inl h
        · rw [List.mem_singleton.1 h]; exact .inr List.mem_cons_self
      · exact .inr (List.mem_cons_of_mem _ h)

theorem hosts_added (s : ModSrc) : ∀ x ∈ s.hosts, x ∈ added s := by
  induction s with
  | host ext => exact fun x h => h
  | add m ext ih =>
    intro x h
    rcases List.mem_append.1 h with h | h
    · exact List.mem_append_left _ (ih x h)
    · exact List.mem_append_right _ h
  | load m name f ih => exact ih
  | imports m o ihm iho =>
    intro x h
    rcases joinHosts_mem h with h | h
    · exact List.mem_append_left _ (ihm x h)
    · exact List.mem_append_right _ (iho x h)
  | importsTr m o ihm iho => exact fun x h => List.mem_append_left _ (ihm x h)
  | marked m ih => exact ih

theorem fileEntries_host {es hosts name f} {e : Entry} (he : e ∈ Front.fileEntries es hosts name f) {al n x b}
    (h : e.calls al n = .host x b) : x ∈ hosts := by
  obtain ⟨g, -, rfl⟩ := List.mem_map.1 he
  cases al with
  | some al =>
    simp only [Front.Spec.importedTarget] at h
    split at h
    · cases h
    · split at h
      · rename_i hx
        cases h
        exact List.mem_of_getElem? hx
      · cases h
    · cases h
  | none =>
    simp only [Front.Spec.plainTarget] at h
    split at h
    · cases h
    · split at h
      · rename_i hx
        cases h
        exact List.mem_reverse.1 (List.mem_of_find?_eq_some hx)
      · cases h

theorem behind_host {n} {e : Entry} {al name x b} (h : (Front.Spec.behind n e).calls al name = .host x b) :
    e.calls al name = .host x b := by
  simp only [Front.Spec.behind] at h
  cases hc : e.calls al name with
  | own k => rw [hc] at h; cases h
  | nothing => rw [hc] at h; cases h
  | host _ _ => rw [hc] at h; exact h

theorem calls_added (s : ModSrc) : ∀ e ∈ s.entries, ∀ al n x b, e.calls al n = .host x b → x ∈ added s := by
  unfold ModSrc.entries
  induction s with
  | host ext => intro e he; cases he
  | add m ext ih => exact fun e he al n x b h => List.mem_append_left _ (ih e he al n x b h)
  | load m name f ih =>
    intro e he al n x b h
    rcases List.mem_append.1 he with he | he
    · exact ih e he al n x b h
    · exact hosts_added m x (fileEntries_host he h)
  | imports m o ihm iho =>
    intro e he al n x b h
    rcases List.mem_append.1 he with he | he
    · exact List.mem_append_left _ (ihm e he al n x b h)
    · obtain ⟨e, he', rfl⟩ := List.mem_map.1 he
      exact List.mem_append_right _ (iho e he' al n x b (behind_host h))
  | importsTr m o ihm iho =>
    intro e he al n x b h
    rcases List.mem_append.1 he with he | he
    · exact List.mem_append_left _ (ihm e he al n x b h)
    · obtain ⟨e, he', rfl⟩ := List.mem_map.1 he
      exact List.mem_append_right _ (iho e (List.mem_of_mem_take he') al n x b (behind_host h))
  | marked m ih => exact ih

section
variable [FloatOps] [Data.Lex] {file : String}

/-- What a converted function has of the text. -/
theorem fn_parts {f : FnSrc} {g : Func} (h : Front.Spec.fn file f = some g) :
    g.name = fnName f ∧ g.args = f.args.map (·.name) ∧ g.currents = f.currents.map (·.name) ∧
    g.returns = Front.Spec.returns f.body ∧ Front.Spec.body file f.body = some g.body ∧
    ∃ conds, (f.args.mapM fun a => a.lazy.mapM (Front.Spec.lazy file)) = some conds ∧
      g.lazyInv = Front.Spec.upToLast conds := by
  simp only [Front.Spec.fn, Option.bind_eq_bind, Option.bind_eq_some_iff, Option.some.injEq] at h
  obtain ⟨conds, h1, b, h2, rfl⟩ := h
  exact ⟨rfl, rfl, rfl, rfl, h2, conds, h1, rfl⟩

theorem mapM_get {α β} {g : α → Option β} {xs : List α} {ys : List β} (h : xs.mapM g = some ys) (i : Nat) :
    (xs[i]?.map g) = ys[i]?.map some := by
  induction xs generalizing ys i with
  | nil => simp at h; subst h; simp
  | cons x xs ih =>
    simp only [List.mapM_cons, Option.bind_eq_bind, Option.bind_eq_some_iff, Option.pure_def, Option.some.injEq] at h
    obtain ⟨y, hy, ys, hys, rfl⟩ := h
    cases i with
    | zero => simp [hy]
    | succ i => simpa using ih hys i

end

section
variable [FloatOps] [Data.Lex] {src : Nat → ModSrc} {mods : Nat → LMod} {base : ECfg}
variable {va ra : Nat → Nat}

/-- The functions that run. -/
theorem modules_get (hc : ∀ m, (src m).build = .ok (mods m)) {m i : Nat} {fn : Func}
    (h : ((base.withModules mods).modules m)[i]? = some fn) :
    ∃ e g, (src m).entries[i]? = some e ∧ Front.Spec.fn e.file e.fn = some g ∧
      fn = g.looked fun name => (e.target name).index i := by
  obtain ⟨hL, -⟩ := Front.build_ok (hc m)
  simp only [ECfg.withModules, List.getElem?_map] at h
  obtain ⟨l, hl, rfl⟩ := Option.map_eq_some_iff.1 h
  have hi : i < (src m).entries.length := by rw [← hL.length]; exact (List.getElem?_eq_some_iff.1 hl).1
  obtain ⟨l', g, h1, -, h3, h4⟩ := hL.fn i _ (List.getElem?_eq_getElem hi)
  rw [hl] at h1
  cases h1
  exact ⟨_, g, List.getElem?_eq_getElem hi, h3, h4⟩

theorem modules_has (hc : ∀ m, (src m).build = .ok (mods m)) {m i : Nat} {e : Entry} (he : (src m).entries[i]? = some e) :
    ∃ g, Front.Spec.fn e.file e.fn = some g ∧
      ((base.withModules mods).modules m)[i]? = some (g.looked fun name => (e.target name).index i) := by
  obtain ⟨hL, -⟩ := Front.build_ok (hc m)
  obtain ⟨l, g, h1, -, h3, h4⟩ := hL.fn i _ he
  exact ⟨g, h3, by simp [ECfg.withModules, h1, h4]⟩

theorem known (hc : ∀ m, (src m).build = .ok (mods m)) (hx : ∀ m, ∀ x ∈ added (src m), ∀ l ∈ x.p.lazy.tail, l = [])
    {m i : Nat} {e : Entry} (he : (src m).entries[i]? = some e) :
    Known (fun name => (e.target name).index i) (ctxAt (base.withModules mods) va ra m i)
      (arAt (base.withModules mods) m i) (fun name => calledAs va ra (src m).entries (e.target name)) := by
  have hm := List.mem_of_getElem? he
  constructor
  · intro name
    cases ht : e.target name with
    | nothing => rfl
    | own j =>
      have hj := (Front.closed (src m)).1 e hm _ _ j ht
      have hci : callIndex ((j : Int) - i) i = some j := by simp [callIndex]
      obtain ⟨g, hg, hget⟩ := modules_has (base := base) hc (List.getElem?_eq_getElem hj)
      obtain ⟨_, p2, _, p4, _⟩ := fn_parts hg
      simp only [calledAs, List.getElem?_eq_getElem hj, Target.index, calledOf, arAt, ctxAt, hci, hget, Func.looked, p2, p4,
        List.length_map]
    | host x b =>
      cases b <;> simp only [calledAs, Target.index, Mod.External.index, Mod.External.aliasIndex] <;>
      cases x.f <;> try rfl
      simp only
      split <;> rfl
  · intro name f inv h
    cases ht : e.target name with
    | nothing => simp [ht, Target.index] at h
    | own j => simp [ht, Target.index] at h
    | host x b =>
      have hxm := hx m x (calls_added _ e hm _ _ x b ht)
      cases b
      · simp only [ht, Target.index, Mod.External.index] at h
        split at h
        · split at h
          · cases h
          · cases h; exact hxm
        · cases h
        · cases h
        · cases h
      · simp only [ht, Target.index, Mod.External.aliasIndex] at h
        split at h <;> cases h

end

end Dyon.Plain
