import Verif.Front.Load

/-!
# What the names called in files stand for (C76)
-/

namespace Dyon.Front

/-- Functions that call only each other and functions of the host. -/
def Closed (es : List Entry) : Prop := ∀ e ∈ es, ∀ al n j, e.calls al n = .own j → j < es.length

theorem oneOf_lt {hosts fns : Mod.Spec.Names} {ns ph pl i} (h : Mod.Spec.oneOf hosts fns ns ph pl = some (.loaded i)) :
    i < fns.length := by
  unfold Mod.Spec.oneOf at h
  split at h
  · cases h
  · obtain ⟨k, hk, h⟩ := Option.map_eq_some_iff.1 h
    cases h
    exact (List.findIdx?_eq_some_iff_getElem.1 hk).1

theorem imported_lt {hosts fns : Mod.Spec.Names} {uses al n i}
    (h : Mod.Spec.imported hosts fns uses al n = some (.loaded i)) : i < fns.length := by
  unfold Mod.Spec.imported at h
  rcases Option.or_eq_some_iff.1 h with h | ⟨-, h⟩ <;>
  · obtain ⟨x, -, hx⟩ := List.exists_of_findSome?_eq_some h
    exact oneOf_lt hx

theorem lastIdx_lt {α} {p : α → Bool} {l : List α} {i} (h : lastIdx p l = some i) : i < l.length := by
  rw [← lastIdx_eq] at h
  obtain ⟨x, hx, -⟩ := Mod.lastIdx_some h
  exact (List.getElem?_eq_some_iff.1 hx).1

theorem Closed.file {es : List Entry} (h : Closed es) (hosts name f) : Closed (es ++ fileEntries es hosts name f) := by
  intro e he al n j hj
  rcases List.mem_append.1 he with he | he
  · have := h e he al n j hj
    rw [List.length_append]; omega
  · obtain ⟨g, -, rfl⟩ := List.mem_map.1 he
    cases al with
    | some al =>
      simp only [Spec.importedTarget] at hj
      split at hj
      · rename_i hx
        cases hj
        have := imported_lt hx
        rw [List.length_map] at this
        rw [List.length_append]; omega
      · split at hj <;> cases hj
      · cases hj
    | none =>
      simp only [Spec.plainTarget] at hj
      split at hj
      · rename_i hx
        cases hj
        have := lastIdx_lt hx
        simpa [fileEntries] using this
      · split at hj <;> cases hj

theorem Closed.append {es os : List Entry} (h : Closed es) (ho : Closed os) :
    Closed (es ++ os.map (Spec.behind es.length)) := by
  intro e he al n j hj
  rw [List.length_append, List.length_map]
  rcases List.mem_append.1 he with he | he
  · have := h e he al n j hj
    omega
  · obtain ⟨e, he', rfl⟩ := List.mem_map.1 he
    simp only [Spec.behind] at hj
    cases hc : e.calls al n with
    | own k =>
      rw [hc] at hj
      cases hj
      have := ho e he' al n k hc
      omega
    | nothing => rw [hc] at hj; cases hj
    | host _ _ => rw [hc] at hj; cases hj

/-- Functions of a module call only functions that are there, also when only the functions that are taken over with
`import_tr_prelude` are there. -/
theorem closed (s : ModSrc) : Closed s.entries ∧ Closed (s.entries.take s.parts.2) ∧ s.parts.2 ≤ s.entries.length := by
  unfold ModSrc.entries
  induction s with
  | host ext => exact ⟨(fun e he => nomatch he), (fun e he => nomatch he), Nat.zero_le _⟩
  | add m ext ih => exact ih
  | load m name f ih =>
    obtain ⟨h1, h2, h3⟩ := ih
    refine ⟨h1.file _ _ _, ?_, ?_⟩
    · simp only [ModSrc.parts]
      rw [List.take_append_of_le_length h3]
      exact h2
    · simp only [ModSrc.parts, List.length_append]; omega
  | imports m o ihm iho =>
    obtain ⟨h1, h2, h3⟩ := ihm
    refine ⟨h1.append iho.1, ?_, ?_⟩
    · simp only [ModSrc.parts]
      rw [List.take_append_of_le_length h3]
      exact h2
    · simp only [ModSrc.parts, List.length_append]; omega
  | importsTr m o ihm iho =>
    have := ihm.1.append iho.2.1
    simp only [ModSrc.parts, List.take_length]
    exact ⟨this, this, Nat.le_refl _⟩
  | marked m ih =>
    simp only [ModSrc.parts, List.take_length]
    exact ⟨ih.1, ih.1, Nat.le_refl _⟩

theorem entries_files (s : ModSrc) : ∀ e ∈ s.entries, ∃ f ∈ s.files, e.fn ∈ f.fns := by
  unfold ModSrc.entries
  induction s with
  | host ext => intro e he; cases he
  | add m ext ih => exact ih
  | load m name f ih =>
    intro e he
    rcases List.mem_append.1 he with he | he
    · obtain ⟨f, h1, h2⟩ := ih e he
      exact ⟨f, List.mem_append_left _ h1, h2⟩
    · obtain ⟨g, hg, rfl⟩ := List.mem_map.1 he
      exact ⟨f, List.mem_append_right _ (List.mem_singleton.2 rfl), hg⟩
  | imports m o ihm iho =>
    intro e he
    rcases List.mem_append.1 he with he | he
    · obtain ⟨f, h1, h2⟩ := ihm e he
      exact ⟨f, List.mem_append_left _ h1, h2⟩
    · obtain ⟨e, he', rfl⟩ := List.mem_map.1 he
      obtain ⟨f, h1, h2⟩ := iho e he'
      exact ⟨f, List.mem_append_right _ h1, h2⟩
  | importsTr m o ihm iho =>
    intro e he
    rcases List.mem_append.1 he with he | he
    · obtain ⟨f, h1, h2⟩ := ihm e he
      exact ⟨f, List.mem_append_left _ h1, h2⟩
    · obtain ⟨e, he', rfl⟩ := List.mem_map.1 he
      obtain ⟨f, h1, h2⟩ := iho e (List.mem_of_mem_take he')
      exact ⟨f, List.mem_append_right _ h1, h2⟩
  | marked m ih => exact ih

section
variable [FloatOps] [Data.Lex]

/-- **C76.** In a module that was made from files, functions of the host and imports of other modules, the functions are
those of the texts, in the namespaces of their files, and every called name is linked to what it stands for: when function
`i` runs and calls `name`, and `name` stands for the function at place `j`, then the called function is the one at place
`j`, and there is one. -/
theorem C76_linked {s : ModSrc} {L : LMod} (h : s.build = .ok L) :
    L.ext = s.hosts ∧ L.fns.length = s.entries.length ∧
    ∀ (i : Nat) (e : Entry), s.entries[i]? = some e → ∃ l g find, L.fns[i]? = some l ∧ l.ns = e.ns ∧
      Spec.fn e.file e.fn = some g ∧ l.fn = g.looked find ∧
      ∀ name, match e.target name with
        | .nothing => find name = .none
        | .own j => (∃ r, find name = .loaded r ∧ callIndex r i = some j) ∧ j < L.fns.length
        | .host x true => find name = x.aliasIndex
        | .host x false => find name = x.index := by
  obtain ⟨h1, h2, h3⟩ := build_ok h
  refine ⟨h2, h1.length, fun i e he => ?_⟩
  obtain ⟨l, g, g1, g2, g3, g4⟩ := h1.fn i e he
  refine ⟨l, g, _, g1, g2, g3, g4, fun name => ?_⟩
  cases ht : e.target name with
  | nothing => rfl
  | own j =>
    refine ⟨⟨_, rfl, by simp [callIndex]⟩, ?_⟩
    rw [h1.length]
    exact (closed s).1 e (List.mem_of_getElem? he) _ _ j ht
  | host x b => cases b <;> rfl

/-- **C76.** A call that is written `al::n` or `n` is linked by its alias and its name; names have no colon. -/
theorem C76_written (e : Entry) {al : Option String} {n : String} (ha : ∀ a, al = some a → ∀ c ∈ a.toList, c ≠ ':')
    (hn : al = none → ∀ c ∈ n.toList, c ≠ ':') : e.target (Spec.inside al n) = e.calls al n := by
  cases al with
  | some a =>
    have := siteOf_alias (n := n) (ha a rfl)
    rw [show Spec.inside (some a) n = aliased (some a) n from rfl, Entry.target, this]
  | none =>
    have := siteOf_plain (hn rfl)
    rw [show Spec.inside none n = aliased none n from rfl, Entry.target, this]

/-- **C76.** Loading a file changes nothing about the functions that are there: what they call stays what it was, also if
the file has functions of the same names. -/
theorem C76_load_keeps {s : ModSrc} {name f L L'} (h : s.build = .ok L) (h' : (ModSrc.load s name f).build = .ok L') :
    ∃ new, L'.fns = L.fns ++ new ∧ new.length = f.fns.length ∧ L'.ext = L.ext := by
  rw [ModSrc.build, h] at h'
  change (toFile name f.tree >>= _) = _ at h'
  rw [C76_file] at h'
  cases hg : f.fns.mapM (Spec.fn name) with
  | none => rw [hg] at h'; cases h'
  | some gs =>
    rw [hg] at h'
    cases h'
    exact ⟨_, rfl, by simp [mapM_len hg], rfl⟩

/-- **C76.** A file can be loaded if and only if all its functions convert. -/
theorem C76_loads {s : ModSrc} {name f L} (h : s.build = .ok L) :
    (∃ L', (ModSrc.load s name f).build = .ok L') ↔ ∀ g ∈ f.fns, ∃ x, Spec.fn name g = some x := by
  rw [ModSrc.build, h]
  change (∃ L', (toFile name f.tree >>= _) = _) ↔ _
  rw [C76_file]
  constructor
  · rintro ⟨L', h'⟩ g hg
    cases hm : f.fns.mapM (Spec.fn name) with
    | none => rw [hm] at h'; cases h'
    | some gs =>
      obtain ⟨i, hi⟩ := List.getElem?_of_mem hg
      have := mapM_get' hm i
      rw [hi] at this
      obtain ⟨x, -, hx⟩ := Option.map_eq_some_iff.1 this.symm
      exact ⟨x, hx.symm⟩
  · intro hall
    obtain ⟨gs, hm⟩ : ∃ gs, f.fns.mapM (Spec.fn name) = some gs := by
      generalize f.fns = fs at hall
      induction fs with
      | nil => exact ⟨[], rfl⟩
      | cons g fs ih =>
        obtain ⟨x, hx⟩ := hall g (by simp)
        obtain ⟨gs, hgs⟩ := ih fun g hg => hall g (by simp [hg])
        exact ⟨x :: gs, by simp [hx, hgs]⟩
    rw [hm]
    exact ⟨_, rfl⟩

end

/-- **Finding (C68).** `go al::f(x)` is converted like `go f(x)`: the alias is lost, and the thread runs what `f` stands for
without it. -/
theorem C68_go_alias [FloatOps] [Data.Lex] (file al n : String) (args : List Src) :
    toExpr file (Src.go (.plain (some al) n args)).tree = toExpr file (Src.go (.plain none n args)).tree := by
  rw [C68_expression, C68_expression]
  simp only [Spec.expr, Spec.callee, Spec.bare]
  cases Spec.exprs file args <;> rfl

/-! ## Findings and examples -/

namespace LoadDemo

open Mod (External UseImport)

/-- A function of the host. -/
def ext (ns : List String) (name : String) (f : Nat) (lazy : List (List Lazy) := []) : External :=
  ⟨ns, name, .ret f, ⟨[], [], .any, [], lazy⟩⟩

/-- `fn name() -> { return x }` -/
def fn (name : String) : FnSrc := { name := name, body := .returns none [.ret (.num (F64.ofNat 1))] [] }

/-- **Finding (C76).** `use a::{} as x`, which lists nothing, imports everything: it is the same as `use a as x`. -/
theorem C76_empty_list (hosts fns : Mod.Spec.Names) (ns : List String) (x : String) :
    readUse [] [] none (useTree ⟨ns, [], x⟩) = .ok ⟨ns, [], x⟩ ∧
    ∀ n, Mod.Spec.imported hosts fns [⟨ns, [], x⟩] x n = Mod.Spec.oneOf hosts fns ns (· = n) (· = n) := by
  refine ⟨?_, fun n => ?_⟩
  · rw [useTree, List.append_assoc, readUse_names, readUse_fns]
    rfl
  · simp [Mod.Spec.imported, Mod.Spec.listed, Mod.Spec.globs]

/-- Two files of the namespace `a` with a function `f` each; the host has an `h` with the same name as one of the files. -/
def twice : ModSrc :=
  .load (.load (.host [ext ["a"] "h" 7]) "1.dyon" ⟨some ["a"], none, [fn "f", fn "h"]⟩) "2.dyon" ⟨some ["a"], none, [fn "f"]⟩

/-- `use a as x` -/
def user : FileSrc := ⟨none, some [⟨["a"], [], "x"⟩], [fn "main"]⟩

/-- **Finding (C76).** Of two functions with the same name, `x::f` stands for the first and `f` for the last; of a function of
the host and a function of a file, `x::h` stands for the one of the host and `h` for the one of the file. -/
theorem C76_first_last : (((ModSrc.load twice "3.dyon" user).entries[3]?).map fun e =>
      (e.calls (some "x") "f", e.calls none "f", e.calls (some "x") "h", e.calls none "h")) =
    some (.own 0, .own 2, .host (ext ["a"] "h" 7) true, .own 1) := by
  simp only [ModSrc.entries, ModSrc.parts, twice, user, fileEntries, ModSrc.hosts, List.nil_append, List.map_cons,
    List.map_nil, List.cons_append, Option.getD_some, Option.getD_none]
  have h1 : Spec.fnName (fn "f") = "f" := rfl
  have h2 : Spec.fnName (fn "h") = "h" := rfl
  have h3 : Spec.fnName (fn "main") = "main" := rfl
  simp only [h1, h2, h3]
  simp [Spec.importedTarget, Spec.plainTarget, Mod.Spec.imported, Mod.Spec.listed, Mod.Spec.globs, Mod.Spec.oneOf,
    Mod.Spec.first, ext, lastIdx, List.findIdx?_cons]

/-- **Finding (C76).** A function of the host that need not get all its arguments gets them all when it is called through an
alias. -/
theorem C76_alias_all_arguments (i : Nat) (f : Nat) (lazy : List (List Lazy)) (h : lazy ≠ []) :
    (Target.host (ext ["a"] "and" f lazy) true).index i = .ret f ∧
    (Target.host (ext ["a"] "and" f lazy) false).index i = .lazy f lazy := by
  simp [Target.index, Mod.External.aliasIndex, Mod.External.index, ext, h]

/-- The hypotheses of `C76_linked` are met by the module of `C76_first_last`. -/
example [FloatOps] [Data.Lex] : ∃ L, (ModSrc.load twice "3.dyon" user).build = .ok L := ⟨_, rfl⟩

/-- The hypotheses of `C76_load_keeps` and `C76_loads` are met. -/
example [FloatOps] [Data.Lex] : ∃ L, twice.build = .ok L := ⟨_, rfl⟩

/-- The hypotheses of `C76_written` are met. -/
example : (∀ c ∈ "x".toList, c ≠ ':') ∧ ∀ c ∈ "f(mut)".toList, c ≠ ':' := by decide +kernel

end LoadDemo

end Dyon.Front
