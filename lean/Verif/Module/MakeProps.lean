import Verif.Module.Make

/-!
# C75: modules made by a program
-/

namespace Dyon.Mod

open Spec

/-! ## Specification -/

namespace Spec

/-- A value is `w`, or refers to a variable that holds `w`. -/
def Holds (st : Stack) (v w : Val) : Prop := v = w ∨ ∃ i, v = .ref i ∧ st[i]? = some w

/-- The values are the given modules. -/
inductive AreModules (obj : Nat → Option Module) (st : Stack) : List Val → List Module → Prop
  | nil : AreModules obj st [] []
  | cons {v vs o m ms} : Holds st v (.rustObject o) → obj o = some m → AreModules obj st vs ms →
      AreModules obj st (v :: vs) (m :: ms)

/-- The flags are not given, or are given as booleans.  By default the transitive functions of the
running module are used, and the new module has no others. -/
inductive Flags (st : Stack) : Option (Val × Val) → Bool → Bool → Prop
  | default : Flags st none false true
  | given {v w tr usetr s s'} : Holds st v (.bool tr s) → Holds st w (.bool usetr s') →
      Flags st (some (v, w)) tr usetr

/-- The functions that a new module starts with. -/
def inherited (running : Module) (usetr : Bool) : Nat := if usetr then running.transitive else 0

/-- The number of functions in modules. -/
def count (ms : List Module) : Nat := (ms.map fun m => m.functions.length).sum

/-- A module made by the module `running` with the imports `imps` and the functions `fs` of a file:
it has the transitive functions of the running module, all functions of the imports, and those of
the file, in this order; the ones that are taken over execute what they executed before. -/
structure MadeOf (running : Module) (imps : List Module) (fs : List Function) (tr usetr : Bool) (M : Module) : Prop where
  names : M.functions.map (·.name) = (running.functions.take (inherited running usetr)).map (·.name) ++
    imps.flatMap (fun m => m.functions.map (·.name)) ++ fs.map (·.name)
  kept : ∀ n i, i < inherited running usetr → executes n M i = executes n running i
  imports : ∀ pre imp post, imps = pre ++ imp :: post → ∀ n i, i < imp.functions.length →
    executes n M (inherited running usetr + count pre + i) = executes n imp i
  transitive : M.transitive = if tr then M.functions.length else inherited running usetr
  host : running.externals <+: M.externals
  hostImports : ∀ ns name, hostNamed running.externals ns name = [] →
    ∀ imp ∈ imps, hostNamed imp.externals ns name ≠ [] → hostNamed M.externals ns name ≠ []

/-- A file whose functions have not been linked, and of which the checker refines only its own
functions (lifetime/mod.rs:1146-1152). -/
def FileOk (f : File) : Prop :=
  (∀ g ∈ f.fs, g.lookedUp = false) ∧ ∀ rets, f.check = .ok rets → ∀ r ∈ rets, r.1 ∈ f.fs.map (·.name)

end Spec

/-! ## Lemmas -/

theorem getVal_holds {st : Stack} {v w : Val} (hw : ∀ i, w ≠ .ref i) (h : Holds st v w) : getVal st v = .ok w := by
  rcases h with rfl | ⟨i, rfl, hi⟩
  · cases v <;> first | exact absurd rfl (hw _) | rfl
  · rw [getVal, Pop.get, hi]

theorem importAll_modules {obj : Nat → Option Module} {trace : String} {st : Stack} {whole : Val} {vs : List Val}
    {ms : List Module} (h : AreModules obj st vs ms) (m : Module) :
    importAll obj trace st whole m vs = .ok (ms.foldl Module.import m) := by
  induction h generalizing m with
  | nil => rfl
  | @cons v vs o i ms hv ho _ ih =>
    rw [importAll, getVal_holds (by intro i; simp) hv]
    simp only [Pop.bind, ho]
    rw [ih]; rfl

theorem importArg_modules {obj : Nat → Option Module} {trace : String} {st : Stack} {v : Val} {vs : List Val}
    {ms : List Module} (hv : Holds st v (.array vs)) (h : AreModules obj st vs ms) (m : Module) :
    importArg obj trace st m v = .ok (ms.foldl Module.import m) := by
  rw [importArg, getVal_holds (by intro i; simp) hv]
  exact importAll_modules h m

theorem textArg_str {trace : String} {st : Stack} {v : Val} {s : String} (hv : Holds st v (.str s)) :
    textArg trace st v = .ok s := by
  rw [textArg, getVal_holds (by intro i; simp) hv]; rfl

theorem flagArgs_flags {st : Stack} {fl : Option (Val × Val)} {tr usetr : Bool} (h : Flags st fl tr usetr) :
    flagArgs st fl = .ok (tr, usetr) := by
  cases h with
  | default => rfl
  | given hv hw =>
    rw [flagArgs, flagArg, getVal_holds (by intro i; simp) hw]
    simp only [Pop.bind]
    rw [flagArg, getVal_holds (by intro i; simp) hv]
    rfl

theorem foldl_import_functions (ms : List Module) (m : Module) :
    (ms.foldl Module.import m).functions = m.functions ++ ms.flatMap (·.functions) := by
  induction ms generalizing m with
  | nil => simp
  | cons a ms ih => rw [List.foldl_cons, ih]; simp [Module.import]

theorem foldl_import_transitive (ms : List Module) (m : Module) :
    (ms.foldl Module.import m).transitive = m.transitive := by
  induction ms generalizing m with
  | nil => rfl
  | cons a ms ih => rw [List.foldl_cons, ih]; rfl

theorem foldl_import_linked (ms : List Module) (m : Module) (hm : Linked m) (h : ∀ a ∈ ms, Linked a) :
    Linked (ms.foldl Module.import m) := by
  induction ms generalizing m with
  | nil => exact hm
  | cons a ms ih =>
    exact ih _ (hm.import (h a (by simp))) fun b hb => h b (List.mem_cons_of_mem _ hb)

theorem foldl_import_host (ms : List Module) (m : Module) : m.externals <+: (ms.foldl Module.import m).externals ∧
    ∀ ns name, hostNamed m.externals ns name = [] → ∀ imp ∈ ms, hostNamed imp.externals ns name ≠ [] →
      hostNamed (ms.foldl Module.import m).externals ns name ≠ [] := by
  induction ms generalizing m with
  | nil => exact ⟨List.prefix_refl _, by simp⟩
  | cons a ms ih =>
    obtain ⟨h1, h2⟩ := C33_import_host m a
    obtain ⟨h3, h4⟩ := ih (m.import a)
    refine ⟨h1.trans h3, fun ns name hn imp hi hne => ?_⟩
    rw [List.foldl_cons]
    by_cases ha : hostNamed (m.import a).externals ns name = []
    · rcases List.mem_cons.1 hi with rfl | hi
      · rw [h2, if_pos hn] at ha
        cases hx : hostNamed imp.externals ns name with
        | nil => exact absurd hx hne
        | cons y ys => rw [hx] at ha; simp at ha
      · exact h4 ns name ha imp hi hne
    · obtain ⟨r, hr⟩ := h3
      rw [← hr]
      intro hc
      exact ha (List.append_eq_nil_iff.1 ((List.filter_append _ _).symm.trans hc)).1

theorem newModule_functions (running : Module) (usetr : Bool) :
    (newModule running usetr).functions = running.functions.take (inherited running usetr) := by
  cases usetr <;> simp [newModule, inherited, Module.importTransitive, Module.importExternals, Module.empty]

theorem newModule_linked {running : Module} (h : Linked running) (usetr : Bool) : Linked (newModule running usetr) := by
  cases usetr
  · exact Linked.empty.externals _
  · exact (Linked.empty.externals _).importTransitive h

theorem newModule_transitive {running : Module} (h : Linked running) (usetr : Bool) :
    (newModule running usetr).transitive = inherited running usetr := by
  have := h.len
  cases usetr <;> simp [newModule, inherited, Module.importTransitive, Module.importExternals, Module.empty]
  omega

theorem newModule_externals (running : Module) (usetr : Bool) :
    (newModule running usetr).externals = running.externals := by
  cases usetr <;> simp [newModule, Module.importTransitive, Module.importExternals, Module.empty]

theorem refineRets_externals (rets : List (String × Ty)) (m : Module) :
    (rets.foldl refineRet m).externals = m.externals := by
  induction rets generalizing m with
  | nil => rfl
  | cons r rets ih =>
    rw [List.foldl_cons, ih]
    unfold refineRet
    split <;> rfl

theorem load_names {m : Module} {uses : List UseImport} {fs : List Function} {rets : List (String × Ty)}
    (hc : ∀ r ∈ rets, r.1 ∈ fs.map (·.name)) :
    (m.load uses fs (some rets)).1.functions.map (·.name) = m.functions.map (·.name) ++ fs.map (·.name) := by
  have hr := load_refines (m := m) (uses := uses) (fs := fs) (check := some rets)
    (by intro r h; cases h; exact hc)
  rw [hr.names, ← List.map_append]
  apply List.ext_getElem?
  intro k
  rw [List.getElem?_map, convert_get, List.getElem?_map]
  cases (m.functions ++ fs)[k]? with
  | none => rfl
  | some f => simp only [Option.map_some]; rw [← (sameDecl_link _ _ _ f).2.1]

theorem finish_ok {tr : Bool} {f : File} {rets : List (String × Ty)} (m : Module) (hc : f.check = .ok rets)
    (hi : f.ignored = none) : finish tr (.ok f) m =
      .ok (if tr then (m.load f.uses f.fs (some rets)).1.makeTransitive else (m.load f.uses f.fs (some rets)).1) := by
  simp only [finish, loadFile, hc, hi]

theorem flatMap_get {ms pre post : List Module} {a : Module} (h : ms = pre ++ a :: post) {i : Nat}
    (hi : i < a.functions.length) (l : List Function) :
    (l ++ ms.flatMap (·.functions))[l.length + count pre + i]? = a.functions[i]? := by
  subst h
  have hp : (pre.flatMap (·.functions)).length = count pre := by
    simp [count, List.length_flatMap]
  rw [List.getElem?_append_right (by omega)]
  have : l.length + count pre + i - l.length = (pre.flatMap (·.functions)).length + i := by omega
  rw [this, List.flatMap_append, List.getElem?_append_right (by omega), Nat.add_sub_cancel_left, List.flatMap_cons,
    List.getElem?_append_left hi]

/-- The module made from a file that can be loaded. -/
theorem madeOf {running : Module} {imps : List Module} {f : File} {rets : List (String × Ty)} {tr usetr : Bool}
    (hr : Linked running) (hi : ∀ m ∈ imps, Linked m) (hf : FileOk f) (hc : f.check = .ok rets)
    (hg : f.ignored = none) :
    ∃ M, finish tr (.ok f) (imps.foldl Module.import (newModule running usetr)) = .ok M ∧
      MadeOf running imps f.fs tr usetr M := by
  set m0 := imps.foldl Module.import (newModule running usetr) with hm0
  have hl0 : Linked m0 := foldl_import_linked imps _ (newModule_linked hr usetr) hi
  have hfun : m0.functions = running.functions.take (inherited running usetr) ++ imps.flatMap (·.functions) := by
    rw [hm0, foldl_import_functions, newModule_functions]
  have hinh : inherited running usetr ≤ running.functions.length := by
    have := hr.len
    cases usetr <;> simp [inherited, this]
  have hlen : (running.functions.take (inherited running usetr)).length = inherited running usetr := by
    rw [List.length_take, Nat.min_eq_left hinh]
  have hok : Op.Ok (.load 0 f.uses f.fs (some rets)) := ⟨hf.1, by intro r h; cases h; exact hf.2 rets hc⟩
  have hrf := load_refines (m := m0) (uses := f.uses) (fs := f.fs) hok.2
  -- the module after loading
  set M := (m0.load f.uses f.fs (some rets)).1 with hM
  have hold : ∀ i < m0.functions.length, M.functions[i]? = m0.functions[i]? := fun i h => by
    rw [hrf.old i h, convert_old hl0 h]
  have hext : M.externals = m0.externals := by
    rw [hM]; simp only [Module.load, refineRets_externals]; rfl
  have htr : M.transitive = inherited running usetr := by
    rw [hrf.transitive]
    show m0.transitive = _
    rw [hm0, foldl_import_transitive, newModule_transitive hr]
  have main : ∀ N : Module, N.functions = M.functions → N.externals = M.externals →
      N.transitive = (if tr then M.functions.length else M.transitive) → MadeOf running imps f.fs tr usetr N := by
    intro N h1 h2 h3
    refine ⟨?_, ?_, ?_, ?_, ?_, ?_⟩
    · rw [h1, hM, load_names (hf.2 rets hc), hfun, List.map_append, List.map_flatMap]
    · intro n i hlt
      have hpre : Closed running (inherited running usetr) := by
        cases usetr
        · intro i f h; simp [inherited] at h
        · exact hr.prefix_
      have := executes_embed (off := 0) (M := N) hpre (fun i h => by
        have hb : i < m0.functions.length := by rw [hfun, List.length_append, hlen]; omega
        rw [Nat.zero_add, h1, hold i hb, hfun, List.getElem?_append_left (by omega), List.getElem?_take, if_pos h]) n i hlt
      simpa using this
    · intro pre imp post he n i hlt
      refine executes_embed (hi imp (by rw [he]; simp)).all (fun i h => ?_) n i hlt
      have hget := flatMap_get he h (running.functions.take (inherited running usetr))
      rw [hlen, ← hfun] at hget
      rw [h1, hold _ ?_, hget]
      have : i < imp.functions.length := h
      rw [List.getElem?_eq_getElem this] at hget
      exact (List.getElem?_eq_some_iff.1 hget).1
    · rw [h3, h1, htr]
    · rw [h2, hext, hm0, ← newModule_externals running usetr]
      exact (foldl_import_host imps _).1
    · intro ns name hn imp him hne
      rw [h2, hext, hm0]
      refine (foldl_import_host imps _).2 ns name ?_ imp him hne
      rw [newModule_externals]; exact hn
  rw [finish_ok _ hc hg]
  refine ⟨_, rfl, main _ ?_ ?_ ?_⟩
  · cases tr <;> rfl
  · cases tr <;> rfl
  · cases tr <;> rfl

/-! ## Properties -/

variable {obj : Nat → Option Module} {trace : String} {st : Stack} {running : Module}

/-- **C75.** `module(name, text, imports, ..)` gives a module with the transitive functions of the running
module, the functions of the imports and those of the text, if the text can be loaded. -/
theorem C75_module {hist : List Module} (hh : Reachable hist) (hr : running ∈ hist)
    {file : String → String → Module → Except String File} {vn vt vi : Val} {fl : Option (Val × Val)} {name text : String}
    {items : List Val} {imps : List Module} {tr usetr : Bool} {f : File} {rets : List (String × Ty)}
    (hn : Holds st vn (.str name)) (ht : Holds st vt (.str text)) (hi : Holds st vi (.array items))
    (hm : AreModules obj st items imps) (hl : ∀ m ∈ imps, m ∈ hist) (hfl : Flags st fl tr usetr)
    (hf : file name text (imps.foldl Module.import (newModule running usetr)) = .ok f) (hok : FileOk f)
    (hc : f.check = .ok rets) (hg : f.ignored = none) :
    ∃ M, moduleFn file obj trace st running vn vt vi fl = .ok (.ok M) ∧ MadeOf running imps f.fs tr usetr M := by
  obtain ⟨M, h1, h2⟩ := madeOf (tr := tr) (usetr := usetr) (linked_reachable hh _ hr)
    (fun m h => linked_reachable hh m (hl m h)) hok hc hg
  refine ⟨M, ?_, h2⟩
  rw [moduleFn, flagArgs_flags hfl]
  simp only [Pop.bind]
  rw [textArg_str ht]
  simp only
  rw [textArg_str hn]
  simp only
  rw [importArg_modules hi hm]
  simp only
  rw [hf, h1]

/-- **C75.** The same for `load(path, imports, ..)`. -/
theorem C75_load {hist : List Module} (hh : Reachable hist) (hr : running ∈ hist)
    {file : String → Module → Except String File} {vp vi : Val} {fl : Option (Val × Val)} {path : String}
    {items : List Val} {imps : List Module} {tr usetr : Bool} {f : File} {rets : List (String × Ty)}
    (hp : Holds st vp (.str path)) (hi : Holds st vi (.array items))
    (hm : AreModules obj st items imps) (hl : ∀ m ∈ imps, m ∈ hist) (hfl : Flags st fl tr usetr)
    (hf : file path (imps.foldl Module.import (newModule running usetr)) = .ok f) (hok : FileOk f)
    (hc : f.check = .ok rets) (hg : f.ignored = none) :
    ∃ M, loadFn file obj trace st running vp vi fl = .ok (.ok M) ∧ MadeOf running imps f.fs tr usetr M := by
  obtain ⟨M, h1, h2⟩ := madeOf (tr := tr) (usetr := usetr) (linked_reachable hh _ hr)
    (fun m h => linked_reachable hh m (hl m h)) hok hc hg
  refine ⟨M, ?_, h2⟩
  rw [loadFn, flagArgs_flags hfl]
  simp only [Pop.bind]
  rw [importArg_modules hi hm]
  simp only
  rw [textArg_str hp]
  simp only
  rw [hf, h1]

theorem modify_last (ms : List Module) (m : Module) (g : Module → Module) :
    (ms ++ [m]).modify ms.length g = ms ++ [g m] := by
  apply List.ext_getElem?
  intro k
  rw [List.getElem?_modify]
  by_cases h : ms.length = k
  · subst h; simp
  · simp only [h, if_false]
    by_cases hk : k < ms.length
    · rw [List.getElem?_append_left hk, List.getElem?_append_left hk]; simp
    · have h1 : ¬ k < (ms ++ [m]).length := by simp; omega
      have h2 : ¬ k < (ms ++ [g m]).length := by simp; omega
      simp [List.getElem?_eq_none (Nat.le_of_not_lt h1), List.getElem?_eq_none (Nat.le_of_not_lt h2)]

/-- **C75.** A module made by a program is one that a host could have made, so what holds of those (C32,
C33, C50, C54) holds of it, and it can be imported and make modules in turn. -/
theorem C75_like_host {hist : List Module} (hh : Reachable hist) (hr : running ∈ hist) {imps : List Module}
    (hl : ∀ m ∈ imps, m ∈ hist) {tr usetr : Bool} {f : File} {rets : List (String × Ty)} {M : Module}
    (hok : FileOk f) (hc : f.check = .ok rets) (hg : f.ignored = none)
    (hM : finish tr (.ok f) (imps.foldl Module.import (newModule running usetr)) = .ok M) :
    Reachable (hist ++ [M]) := by
  obtain ⟨r, hr⟩ := List.mem_iff_getElem?.1 hr
  have hget : ∀ {j : Nat} {a : Module} (m : Module), hist[j]? = some a → (hist ++ [m])[j]? = some a := by
    intro j a m h
    rw [List.getElem?_append_left (List.getElem?_eq_some_iff.1 h).1, h]
  -- the empty module with the functions of the running one
  have h1 : Reachable (hist ++ [newModule running usetr]) := by
    have := hh.run (ops := [.new, .importExternals hist.length r] ++ if usetr then [.importTransitive hist.length r] else [])
      (by intro o ho; cases usetr <;> simp at ho <;> rcases ho with rfl | rfl | rfl <;> trivial)
    have e : run hist ([.new, .importExternals hist.length r] ++ if usetr then [.importTransitive hist.length r] else []) =
        hist ++ [newModule running usetr] := by
      cases usetr
      · simp only [run, List.foldl_cons, List.foldl_nil, step, List.append_nil, if_false, hget _ hr, modify_last,
          Bool.false_eq_true]
        rfl
      · simp only [run, List.cons_append, List.nil_append, List.foldl_cons, List.foldl_nil, step, if_true, hget _ hr,
          modify_last]
        rfl
    rwa [e] at this
  have h2 : ∀ (ms : List Module) (m : Module), (∀ a ∈ ms, a ∈ hist) → Reachable (hist ++ [m]) →
      Reachable (hist ++ [ms.foldl Module.import m]) := by
    intro ms
    induction ms with
    | nil => intro m _ h; exact h
    | cons a ms ih =>
      intro m hms h
      obtain ⟨j, hj⟩ := List.mem_iff_getElem?.1 (hms a (by simp))
      have := h.run (ops := [.import hist.length j]) (by intro o ho; rw [List.mem_singleton.1 ho]; trivial)
      have e : run (hist ++ [m]) [.import hist.length j] = hist ++ [m.import a] := by
        simp only [run, List.foldl_cons, List.foldl_nil, step, hget _ hj, modify_last]
      rw [e] at this
      exact ih _ (fun b hb => hms b (List.mem_cons_of_mem _ hb)) this
  have h3 := h2 imps _ hl h1
  have h4 := h3.run (ops := [.load hist.length f.uses f.fs (some rets)] ++ if tr then [.makeTransitive hist.length] else [])
    (by
      intro o ho
      rcases List.mem_append.1 ho with ho | ho
      · rw [List.mem_singleton.1 ho]
        exact ⟨hok.1, by intro x hx; cases hx; exact hok.2 rets hc⟩
      · cases tr <;> simp at ho; subst ho; trivial)
  rw [finish_ok _ hc hg] at hM
  have e : run (hist ++ [imps.foldl Module.import (newModule running usetr)])
      ([.load hist.length f.uses f.fs (some rets)] ++ if tr then [.makeTransitive hist.length] else []) = hist ++ [M] := by
    cases tr
    · simp only [if_false, Bool.false_eq_true] at hM
      cases hM
      simp only [run, List.append_nil, List.foldl_cons, List.foldl_nil, step, modify_last, if_false, Bool.false_eq_true]
    · simp only [if_true] at hM
      cases hM
      simp only [run, List.cons_append, List.nil_append, List.foldl_cons, List.foldl_nil, step, modify_last, if_true]
  rwa [e] at h4

/-- **C75.** A text that cannot be loaded, because of the grammar, the checker or the conversion, gives an
error value with the reason: the program goes on. -/
theorem C75_refused {file : String → String → Module → Except String File} {vn vt vi : Val} {fl : Option (Val × Val)}
    {name text e : String} {items : List Val} {imps : List Module} {tr usetr : Bool}
    (hn : Holds st vn (.str name)) (ht : Holds st vt (.str text)) (hi : Holds st vi (.array items))
    (hm : AreModules obj st items imps) (hfl : Flags st fl tr usetr)
    (hf : file name text (imps.foldl Module.import (newModule running usetr)) = .error e ∨
      ∃ f, file name text (imps.foldl Module.import (newModule running usetr)) = .ok f ∧
        (f.check = .error e ∨ (∃ rets, f.check = .ok rets) ∧ f.ignored = some e)) :
    moduleFn file obj trace st running vn vt vi fl = .ok (.error ("When attempting to load module:\n" ++ e)) := by
  rw [moduleFn, flagArgs_flags hfl]
  simp only [Pop.bind]
  rw [textArg_str ht]
  simp only
  rw [textArg_str hn]
  simp only
  rw [importArg_modules hi hm]
  simp only
  rcases hf with hf | ⟨f, hf, hc | ⟨⟨rets, hc⟩, hg⟩⟩
  · rw [hf]; rfl
  · rw [hf]; simp only [finish, loadFile, hc]
  · rw [hf]; simp only [finish, loadFile, hc, hg]

/-- **C75.** An import that is no module is an error that names the kind of value; an object of the host that
is no module is an error that names the array. -/
theorem C75_bad_import {m : Module} {vi x : Val} {items rest : List Val} {imps : List Module} {v : Val}
    (hi : Holds st vi (.array (items ++ v :: rest))) (hm : AreModules obj st items imps) (hv : Holds st v x)
    (hx : ∀ i, x ≠ .ref i) :
    ((∀ o, x ≠ .rustObject o) → importArg obj trace st m vi =
      .err (trace ++ "\nExpected `[Module]`, found `" ++ x.typeofVar ++ "`")) ∧
    (∀ o, x = .rustObject o → obj o = none → importArg obj trace st m vi =
      .err (trace ++ "\nExpected `[Module]`, found `array`")) := by
  have key : ∀ whole, importAll obj trace st whole m (items ++ v :: rest) =
      importAll obj trace st whole (imps.foldl Module.import m) (v :: rest) := by
    intro whole
    clear hi
    induction hm generalizing m with
    | nil => rfl
    | @cons w ws o i ms hw ho _ ih =>
      rw [List.cons_append, importAll, getVal_holds (by intro i; simp) hw]
      simp only [Pop.bind, ho]
      rw [ih]; rfl
  rw [importArg, getVal_holds (by intro i; simp) hi]
  simp only [Pop.bind]
  rw [key, importAll, getVal_holds hx hv]
  simp only [Pop.bind]
  refine ⟨fun h => ?_, fun o ho hn => ?_⟩
  · cases x <;> first | exact absurd rfl (h _) | simp [expectedMsg, String.append_assoc]
  · subst ho
    simp only [hn, expectedMsg, String.append_assoc]
    rfl

/-- Finding: a flag that is not a boolean does not give an error but crashes the program. -/
theorem C75_flag_crash {file : String → String → Module → Except String File} {vn vt vi vtr vuse x : Val}
    (hx : Holds st vuse x) (hr : ∀ i, x ≠ .ref i) (hb : ∀ b s, x ≠ .bool b s) :
    moduleFn file obj trace st running vn vt vi (some (vtr, vuse)) = .panic := by
  have : flagArgs st (some (vtr, vuse)) = .panic := by
    rw [flagArgs, flagArg, getVal_holds hr hx]
    cases x <;> first | exact absurd rfl (hb _ _) | rfl
  rw [moduleFn, this]; rfl

/-! ## Cases -/

namespace Demo

/-- The modules of `history`: a library, and one whose functions are transitive. -/
def library : Module := ((run [] history)[0]?).getD .empty
def runner : Module := ((run [] history)[1]?).getD .empty

/-- A text with a function `main` that calls `f` and `h`. -/
def text : File := ⟨[], [fn [] "main" "d.dyon" 0 [site none "f", site none "h"]], .ok [], none⟩

/-- `module(name: "d.dyon", in_string: .., imports: [library])`; the array is in a variable. -/
def made : Pop (Except String Module) :=
  moduleFn (fun _ _ _ => .ok text) (fun o => if o = 5 then some library else none) "" [.array [.rustObject 5]] runner
    (.str "d.dyon") (.str "..") (.ref 0) none

example : Reachable (run [] history) ∧ library ∈ run [] history ∧ runner ∈ run [] history ∧ FileOk text :=
  ⟨⟨history, by simp [history, Op.Ok, fn], rfl⟩, List.mem_of_getElem? (i := 0) rfl, List.mem_of_getElem? (i := 1) rfl,
    by simp [FileOk, text, fn]⟩

example : Holds [.array [.rustObject 5]] (.ref 0) (.array [.rustObject 5]) ∧
    AreModules (fun o => if o = 5 then some library else none) [.array [.rustObject 5]] [.rustObject 5] [library] :=
  ⟨.inr ⟨0, rfl, rfl⟩, .cons (.inl rfl) rfl .nil⟩

example : (match made with | .ok (.ok M) => M.functions.map (·.file) | _ => []) =
    ["b.dyon", "a.dyon", "a.dyon", "d.dyon"] := rfl

end Demo

end Dyon.Mod
