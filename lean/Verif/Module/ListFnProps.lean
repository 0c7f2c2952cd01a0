import Verif.Module.ListFn
import Verif.Module.LoadFnProps

/-!
# C50: the functions of a module in a value
-/

namespace Dyon.Mod

open Spec

/-! ## Specification -/

namespace Spec

/-- The listing of a module: the entries of all its functions, each once, in the order of the names. -/
def Lists (m : Module) (v : Val) : Prop :=
  ∃ vs es, v = .array vs ∧ List.Forall₂ IsEntry es (all m) ∧ vs.Perm es ∧ vs.Pairwise fun a b => entryName a ≤ entryName b

/-- The number of functions with this name. -/
def countNamed (name : String) (fs : List Function) : Nat := (fs.map (·.name)).count name

end Spec

variable {obj : Nat → Option Module} {trace : String} {st : Stack}

/-- **C50.** `functions(m)` gives the listing of the module in `m`, as `functions()` does in that module. -/
theorem C50_of_module {v : Val} {o : Nat} {m : Module} (hv : Holds st v (.rustObject o)) (ho : obj o = some m)
    (hd : Describable m) : ∃ r, functionsOf obj trace st v = .ok r ∧ functionsFn m = .ok r ∧ Lists m r := by
  obtain ⟨vs, es, h1, h2, h3, h4, -⟩ := C50_listing hd
  refine ⟨.array vs, ?_, ?_, vs, es, rfl, h2, h3, h4⟩
  · rw [functionsOf, getVal_holds (by intro i; simp) hv]
    simp only [Pop.bind, ho, listed, h1]
  · rw [functionsFn, listed, h1]

/-- **C50.** Another argument than a module is an error of the program. -/
theorem C50_argument {v x : Val} (hv : Holds st v x) (hr : ∀ i, x ≠ .ref i) (hm : ∀ o, x = .rustObject o → obj o = none) :
    functionsOf obj trace st v = .err (trace ++ "\nExpected `Module`, found `" ++ x.typeofVar ++ "`") := by
  rw [functionsOf, getVal_holds hr hv]
  cases x <;> simp [Pop.bind, expectedMsg, String.append_assoc]
  rw [hm _ rfl]

/-- **C50.** A module made by a program with `load` or `module` (C75, C91) lists as many functions with a name, that no host function has,
as the transitive functions of the running module, the imports and the text have together. -/
theorem C50_made {running M : Module} {imps : List Module} {fs : List Function} {tr usetr : Bool}
    (hM : MadeOf running imps fs tr usetr M) (hd : Describable M) {v : Val} {o : Nat} (hv : Holds st v (.rustObject o))
    (ho : obj o = some M) {name : String} (hn : ∀ e ∈ M.externals, e.name ≠ name) :
    ∃ vs, functionsOf obj trace st v = .ok (.array vs) ∧ (vs.filter fun v => entryName v == name).length =
      countNamed name (running.functions.take (inherited running usetr)) +
        (imps.map fun m => countNamed name m.functions).sum + countNamed name fs := by
  obtain ⟨vs, es, h1, -⟩ := C50_listing hd
  refine ⟨vs, ?_, ?_⟩
  · rw [functionsOf, getVal_holds (by intro i; simp) hv]
    simp only [Pop.bind, ho, listed, h1]
  · have he : M.externals.filter (fun e => e.name == name) = [] := by
      rw [List.filter_eq_nil_iff]; intro e he; simpa using hn e he
    have hc : ∀ fs : List Function, (fs.filter fun f => f.name == name).length = countNamed name fs := fun fs => by
      rw [countNamed, List.count, List.countP_map, List.countP_eq_length_filter]; rfl
    rw [C50_names hd h1, he, hc, countNamed, hM.names, List.count_append, List.count_append, List.count_flatMap]
    simp only [List.length_nil, Nat.zero_add]
    rfl

/-- The hypotheses are met: a module in a Rust object, and a number. -/
example : ∃ r, functionsOf (fun o => if o = 3 then some (Demo.host.convert Demo.uses Demo.file) else none) "" []
    (.rustObject 3) = .ok r ∧ Lists (Demo.host.convert Demo.uses Demo.file) r :=
  let ⟨r, h1, _, h2⟩ := C50_of_module (st := []) (trace := "") (v := .rustObject 3) (o := 3) (.inl rfl) (if_pos rfl) Demo.describable
  ⟨r, h1, h2⟩

example : functionsOf (fun _ => none) "" [] (.str "a") = .err ("" ++ "\nExpected `Module`, found `" ++ "string" ++ "`") :=
  C50_argument (x := .str "a") (.inl rfl) (by intro i; simp) (by intro o h; cases h)

/-- A module made by a program. -/
theorem Demo.made_describable : ∃ M, Demo.made = .ok (.ok M) ∧ MadeOf Demo.runner [Demo.library] Demo.text.fs false true M ∧
    Describable M ∧ M.externals = [] := by
  obtain ⟨M, h1, h2⟩ := C75_module (hist := run [] Demo.history) (running := Demo.runner) (tr := false) (usetr := true)
    (obj := fun o => if o = 5 then some Demo.library else none)
    (trace := "") (st := [.array [.rustObject 5]]) ⟨Demo.history, by simp [Demo.history, Op.Ok, Demo.fn], rfl⟩ (List.mem_of_getElem? (i := 1) rfl)
    (file := fun _ _ _ => .ok Demo.text) (vn := .str "d.dyon") (vt := .str "..") (vi := .ref 0) (fl := none)
    (.inl rfl) (.inl rfl) (.inr ⟨0, rfl, rfl⟩) (imps := [Demo.library]) (.cons (.inl rfl) rfl .nil)
    (by intro m hm; rw [List.mem_singleton.1 hm]; exact List.mem_of_getElem? (i := 0) rfl) .default rfl
    (by simp [FileOk, Demo.text, Demo.fn]) rfl rfl
  refine ⟨M, h1, h2, ?_⟩
  have hM : M = (match Demo.made with | .ok (.ok M) => M | _ => .empty) := by rw [Demo.made, h1]
  have e1 : M.externals = [] := by rw [hM]; rfl
  have e2 : M.functions.map (fun f => (f.args.map (·.ty), f.ret)) = [([], .any), ([], .f64), ([], .any), ([], .any)] := by rw [hM]; rfl
  refine ⟨⟨by rw [e1]; simp, fun f hf => ?_⟩, e1⟩
  have hm : (f.args.map (·.ty), f.ret) ∈ M.functions.map fun f => (f.args.map (·.ty), f.ret) :=
    List.mem_map_of_mem (f := fun f : Function => (f.args.map (·.ty), f.ret)) hf
  rw [e2] at hm
  simp only [List.mem_cons, Prod.mk.injEq, List.map_eq_nil_iff, List.not_mem_nil, or_false] at hm
  rcases hm with h | h | h | h <;> rw [h.1, h.2] <;> refine ⟨by simp, ?_⟩ <;> first | exact .any | exact .f64

/-- Two functions `h` are listed, the transitive one and the one of the library. -/
example : ∃ M, Demo.made = .ok (.ok M) ∧ ∃ vs, functionsOf (fun o => if o = 6 then some M else none) "" [] (.rustObject 6) = .ok (.array vs) ∧
    (vs.filter fun v => entryName v == "h").length = 2 := by
  obtain ⟨M, h1, h2, h3, h4⟩ := Demo.made_describable
  obtain ⟨vs, h5, h6⟩ := C50_made (obj := fun o => if o = 6 then some M else none) (trace := "") (st := []) h2 h3 (.inl rfl)
    (if_pos rfl) (name := "h") (by rw [h4]; simp)
  exact ⟨M, h1, vs, h5, h6⟩

end Dyon.Mod
