import Verif.Front.Head
import Verif.Front.Link
import Verif.Eval.Eval

/-!
# Loading files into modules

A module as the host builds it: functions of the host, files loaded one after the other, imports of
other modules.  `load_str` of `src/lib.rs` for a file that is accepted, `convert` of `src/ast/mod.rs`
with the lookup of the called names, `import`, `import_tr_prelude` and `make_transitive` of
`src/module.rs`.  The lookup itself is `Mod.link` of `Module/Model.lean`; here it is tied to the
functions that run (`Eval/Ast.lean`).
-/

namespace Dyon.Front

/-- A function in a module, `struct Function`, ast/mod.rs:365-393: its namespace and the rest. -/
structure Loaded where
  ns : List String
  fn : Func

/-- `struct Module`, module.rs:5-11.  Simplified: `register_namespace` is gone, every function of the host
comes with its namespace. -/
structure LMod where
  fns : List Loaded
  ext : List Mod.External
  transitive : Nat

/-- What the lookup of names reads of a module. -/
def LMod.view (m : LMod) : Mod.Module where
  functions := m.fns.map fun l => ⟨l.ns, l.fn.name, l.fn.file, [], .any, [], true⟩
  transitive := m.transitive
  externals := m.ext
  registerNs := []

/-- `alias` and `name` of a call that is written `alias::name` (`aliased` in `Front/Convert.lean`). -/
def cutAlias : List Char → Option (List Char × List Char)
  | [] => none
  | c :: r =>
    if c = ':' ∧ r.head? = some ':' then some ([], r.tail)
    else (cutAlias r).map fun x => (c :: x.1, x.2)

/-- The alias and the name of `struct CallInfo`, ast/mod.rs:2578-2585. -/
def siteOf (name : String) : Mod.Site :=
  match cutAlias name.toList with
  | some (a, n) => ⟨some (String.ofList a), String.ofList n, .none⟩
  | none => ⟨none, name, .none⟩

/-- What `Call::get_locals` finds, ast/mod.rs:2850-2874, in function `rel` of the module `m`. -/
def LMod.look (m : LMod) (a : Mod.Aliases) (rel : Nat) (name : String) : FnIndex :=
  Mod.link m.view a rel (siteOf name)

/-- `convert`, ast/mod.rs:20-61, with a converted file: the imports are read before the functions are
added, and the names are looked up when all functions are there.  Functions that were there before are looked
up already and stay as they are (`looked_up`, ast/mod.rs:521). -/
def LMod.register (m : LMod) (f : Converted) : LMod :=
  let a := Mod.aliasesOfModule f.uses m.view
  let new := f.fns.map fun g => (⟨f.ns, g⟩ : Loaded)
  let m' : LMod := { m with fns := m.fns ++ new }
  { m with fns := m.fns ++ new.mapIdx fun k l => { l with fn := l.fn.looked (m'.look a (m.fns.length + k)) } }

/-- `Module::import`, module.rs:52-67. -/
def LMod.import (m o : LMod) : LMod :=
  { m with ext := o.ext.foldl Mod.addExternal m.ext, fns := m.fns ++ o.fns }

/-- `Module::import_tr_prelude`, module.rs:38-44. -/
def LMod.importTransitive (m o : LMod) : LMod :=
  { m with
    fns := m.fns ++ o.fns.take o.transitive
    transitive := (m.fns ++ o.fns.take o.transitive).length }

/-- `Module::make_transitive`, module.rs:47-49. -/
def LMod.makeTransitive (m : LMod) : LMod := { m with transitive := m.fns.length }

/-! ## How a module comes about -/

/-- What a host does to make a module. -/
inductive ModSrc where
  /-- `Module::empty()` and functions of the host with `add` -/
  | host (ext : List Mod.External)
  /-- more functions of the host -/
  | add (m : ModSrc) (ext : List Mod.External)
  /-- `load_str(name, text, &mut m)` -/
  | load (m : ModSrc) (name : String) (f : FileSrc)
  /-- `m.import(&o)` -/
  | imports (m o : ModSrc)
  /-- `m.import_tr_prelude(&o)` -/
  | importsTr (m o : ModSrc)
  /-- `m.make_transitive()` -/
  | marked (m : ModSrc)

section
variable [FloatOps] [Data.Lex]

/-- The module that comes out, if all files convert. -/
def ModSrc.build : ModSrc → Cv LMod
  | .host ext => .ok ⟨[], ext, 0⟩
  | .add m ext => do
    let m ← m.build
    .ok { m with ext := m.ext ++ ext }
  | .load m name f => do
    let m ← m.build
    .ok (m.register (← toFile name f.tree))
  | .imports m o => do .ok ((← m.build).import (← o.build))
  | .importsTr m o => do .ok ((← m.build).importTransitive (← o.build))
  | .marked m => do .ok (← m.build).makeTransitive

end

/-- A program with these modules: `base` says what the functions of the host do. -/
def _root_.Dyon.ECfg.withModules (base : ECfg) (mods : Nat → LMod) : ECfg :=
  { base with
    modules := fun m => (mods m).fns.map (·.fn)
    extNames := fun m => (mods m).ext.map fun e => (e.name, e.index) }

/-! ## What is meant -/

/-- What a called name stands for. -/
inductive Target where
  | nothing
  /-- the function at this place in the module -/
  | own (i : Nat)
  /-- a function of the host; called through an alias, it gets all its arguments -/
  | host (e : Mod.External) (aliased : Bool)

/-- A function of a module: where it is from, and what the names called in it stand for. -/
structure Entry where
  ns : List String
  file : String
  fn : FnSrc
  calls : Option String → String → Target

namespace Spec

/-- The name under which a function is found. -/
def fnName (f : FnSrc) : String := nameWith f.name (f.args.map (·.mutable))

/-- What `n` stands for without an alias: the last function of that name in the module, with the functions of the
file, or else the last function of the host of that name. -/
def plainTarget (names : List String) (hosts : List Mod.External) (n : String) : Target :=
  match lastIdx (· = n) names with
  | some i => .own i
  | none => match hosts.reverse.find? fun e => e.name = n with
    | some e => .host e false
    | none => .nothing

/-- What `al::n` stands for: what the imports of the file say about the module as it was when the file was
loaded. -/
def importedTarget (fns : Mod.Spec.Names) (hosts : List Mod.External) (uses : List Mod.UseImport) (al n : String) :
    Target :=
  match Mod.Spec.imported (hosts.map fun e => (e.ns, e.name)) fns uses al n with
  | some (.loaded i) => .own i
  | some (.external i) => match hosts[i]? with
    | some e => .host e true
    | none => .nothing
  | none => .nothing

/-- The functions of the host, where those of `os` that are there already are left out. -/
def joinHosts : List Mod.External → List Mod.External → List Mod.External
  | es, [] => es
  | es, o :: os => if ∃ e ∈ es, e.name = o.name ∧ e.ns = o.ns then joinHosts es os else joinHosts (es ++ [o]) os

/-- What a name stands for when `n` functions are put in front of the module. -/
def shift (n : Nat) : Target → Target
  | .own i => .own (i + n)
  | t => t

/-- A function behind `n` others. -/
def behind (n : Nat) (e : Entry) : Entry := { e with calls := fun al name => shift n (e.calls al name) }

end Spec

/-- The functions of the host in a module. -/
def ModSrc.hosts : ModSrc → List Mod.External
  | .host ext => ext
  | .add m ext => m.hosts ++ ext
  | .load m _ _ => m.hosts
  | .imports m o => Spec.joinHosts m.hosts o.hosts
  | .importsTr m _ => m.hosts
  | .marked m => m.hosts

/-- The functions of a file that is loaded into a module with the functions `es` and `hosts`. -/
def fileEntries (es : List Entry) (hosts : List Mod.External) (name : String) (f : FileSrc) : List Entry :=
  f.fns.map fun g => ⟨f.ns.getD [], name, g, fun al n => match al with
    | some al => Spec.importedTarget (es.map fun e => (e.ns, Spec.fnName e.fn)) hosts (f.uses.getD []) al n
    | none => Spec.plainTarget (es.map (Spec.fnName ·.fn) ++ f.fns.map Spec.fnName) hosts n⟩

/-- The functions of a module, and how many of them another module takes over with `import_tr_prelude`. -/
def ModSrc.parts : ModSrc → List Entry × Nat
  | .host _ => ([], 0)
  | .add m _ => m.parts
  | .load m name f => (m.parts.1 ++ fileEntries m.parts.1 m.hosts name f, m.parts.2)
  | .imports m o => (m.parts.1 ++ o.parts.1.map (Spec.behind m.parts.1.length), m.parts.2)
  | .importsTr m o =>
    let es := m.parts.1 ++ (o.parts.1.take o.parts.2).map (Spec.behind m.parts.1.length)
    (es, es.length)
  | .marked m => (m.parts.1, m.parts.1.length)

/-- The functions of a module. -/
def ModSrc.entries (m : ModSrc) : List Entry := m.parts.1

/-- The files that were loaded. -/
def ModSrc.files : ModSrc → List FileSrc
  | .host _ => []
  | .add m _ | .marked m => m.files
  | .load m _ f => m.files ++ [f]
  | .imports m o | .importsTr m o => m.files ++ o.files

/-- How a call in function `i` is linked: functions of the module relative to `i`. -/
def Target.index (i : Nat) : Target → FnIndex
  | .nothing => .none
  | .own j => .loaded ((j : Int) - i)
  | .host e true => e.aliasIndex
  | .host e false => e.index

/-- What a name as it is written stands for. -/
def Entry.target (e : Entry) (name : String) : Target := e.calls (siteOf name).via (siteOf name).name

/-! ## Lemmas -/

theorem cutAlias_alias {a n : List Char} (h : ∀ c ∈ a, c ≠ ':') : cutAlias (a ++ ':' :: ':' :: n) = some (a, n) := by
  induction a with
  | nil => simp [cutAlias]
  | cons c a ih =>
    have hc : c ≠ ':' := h c (by simp)
    rw [List.cons_append, cutAlias, if_neg (fun x => hc x.1), ih fun d hd => h d (by simp [hd])]
    rfl

theorem cutAlias_none {n : List Char} (h : ∀ c ∈ n, c ≠ ':') : cutAlias n = none := by
  induction n with
  | nil => rfl
  | cons c n ih =>
    have hc : c ≠ ':' := h c (by simp)
    rw [cutAlias, if_neg (fun x => hc x.1), ih fun d hd => h d (by simp [hd])]
    rfl

/-- The alias and the name are found again; no name in the text has a colon (`_seps` in assets/syntax.txt). -/
theorem siteOf_alias {a n : String} (h : ∀ c ∈ a.toList, c ≠ ':') : siteOf (aliased (some a) n) = ⟨some a, n, .none⟩ := by
  have : (a ++ "::" ++ n).toList = a.toList ++ ':' :: ':' :: n.toList := by simp
  simp only [siteOf, aliased, this, cutAlias_alias h, String.ofList_toList]

theorem siteOf_plain {n : String} (h : ∀ c ∈ n.toList, c ≠ ':') : siteOf (aliased none n) = ⟨none, n, .none⟩ := by
  simp only [siteOf, aliased, cutAlias_none h]

theorem lastIdx_eq {α} (p : α → Bool) (l : List α) : Mod.lastIdx p l = lastIdx p l := by
  induction l with
  | nil => rfl
  | cons x l ih =>
    have := Mod.lastIdx_append p [x] l
    rw [List.singleton_append, ih] at this
    rw [this, lastIdx]
    cases lastIdx p l with
    | some i => simp [Nat.add_comm]
    | none =>
      have := Mod.lastIdx_snoc p [] x
      simpa [Mod.lastIdx_nil] using this

theorem lastIdx_map' {α β} (g : α → β) (p : β → Bool) (xs : List α) :
    lastIdx p (xs.map g) = lastIdx (fun x => p (g x)) xs := by
  induction xs with
  | nil => rfl
  | cons x xs ih => simp only [List.map_cons, lastIdx, ih]

theorem joinHosts_eq (es os : List Mod.External) : os.foldl Mod.addExternal es = Spec.joinHosts es os := by
  induction os generalizing es with
  | nil => rfl
  | cons o os ih =>
    rw [List.foldl_cons, ih, Mod.addExternal, Spec.joinHosts]
    by_cases h : ∃ e ∈ es, e.name = o.name ∧ e.ns = o.ns
    · rw [if_pos (by simpa using h), if_pos h]
    · rw [if_neg (by simpa using h), if_neg h]

section
variable [FloatOps] [Data.Lex]

/-- The functions of a module are those of the specification, with the called names linked to what they stand for. -/
structure IsLinked (L : LMod) (es : List Entry) : Prop where
  length : L.fns.length = es.length
  fn : ∀ (i : Nat) (e : Entry), es[i]? = some e → ∃ l g, L.fns[i]? = some l ∧ l.ns = e.ns ∧ Spec.fn e.file e.fn = some g ∧
    l.fn = g.looked fun name => (e.target name).index i

theorem fn_name {file f g} (h : Spec.fn file f = some g) : g.name = Spec.fnName f := by
  simp only [Spec.fn, Option.bind_eq_bind, Option.bind_eq_some_iff, Option.some.injEq] at h
  obtain ⟨conds, h1, b, h2, rfl⟩ := h
  rfl

theorem IsLinked.names {L es} (h : IsLinked L es) : (L.fns.map fun l => (l.ns, l.fn.name)) =
    es.map fun e => (e.ns, Spec.fnName e.fn) := by
  apply List.ext_getElem?
  intro i
  simp only [List.getElem?_map]
  cases he : es[i]? with
  | none =>
    have : L.fns[i]? = none := by
      rw [List.getElem?_eq_none_iff] at he ⊢
      rw [h.length]; exact he
    simp [this]
  | some e =>
    obtain ⟨l, g, h1, h2, h3, h4⟩ := h.fn i e he
    simp [h1, h2, h4, Func.looked, fn_name h3]

theorem mapM_get' {α β} {g : α → Option β} {xs : List α} {ys : List β} (h : xs.mapM g = some ys) (i : Nat) :
    (xs[i]?.map g) = ys[i]?.map some := by
  induction xs generalizing ys i with
  | nil => simp at h; subst h; simp
  | cons x xs ih =>
    simp only [List.mapM_cons, Option.bind_eq_bind, Option.bind_eq_some_iff, Option.pure_def, Option.some.injEq] at h
    obtain ⟨y, hy, ys, hys, rfl⟩ := h
    cases i with
    | zero => simp [hy]
    | succ i => simpa using ih hys i

theorem mapM_len {α β} {g : α → Option β} {xs : List α} {ys : List β} (h : xs.mapM g = some ys) :
    ys.length = xs.length := by
  induction xs generalizing ys with
  | nil => simp at h; subst h; rfl
  | cons x xs ih =>
    simp only [List.mapM_cons, Option.bind_eq_bind, Option.bind_eq_some_iff, Option.pure_def, Option.some.injEq] at h
    obtain ⟨y, hy, ys, hys, rfl⟩ := h
    simp [ih hys]

theorem mapM_names {file} {fs : List FnSrc} {gs : List Func} (h : fs.mapM (Spec.fn file) = some gs) :
    gs.map (·.name) = fs.map Spec.fnName := by
  induction fs generalizing gs with
  | nil => simp at h; subst h; rfl
  | cons x xs ih =>
    simp only [List.mapM_cons, Option.bind_eq_bind, Option.bind_eq_some_iff, Option.pure_def, Option.some.injEq] at h
    obtain ⟨y, hy, ys, hys, rfl⟩ := h
    simp [ih hys, fn_name hy]

/-- What the lookup of the loader finds. -/
theorem look_eq {L : LMod} {es : List Entry} (hL : IsLinked L es) {name} {f : FileSrc} {gs : List Func}
    (hg : f.fns.mapM (Spec.fn name) = some gs) (rel : Nat) (n : String) {e : Entry}
    (he : e ∈ fileEntries es L.ext name f) :
    ({ L with fns := L.fns ++ gs.map fun g => (⟨f.ns.getD [], g⟩ : Loaded) } : LMod).look
      (Mod.aliasesOfModule (f.uses.getD []) L.view) rel n = (e.target n).index rel := by
  obtain ⟨g, -, rfl⟩ := List.mem_map.1 he
  have hn := hL.names
  unfold LMod.look Entry.target
  generalize siteOf n = s
  obtain ⟨via, n, ix⟩ := s
  cases via with
  | some al =>
    simp only [Mod.link, Mod.C76_imported, Spec.importedTarget]
    have h1 : L.view.hostSpec = L.ext.map fun e => (e.ns, e.name) := rfl
    have h2 : L.view.spec = es.map fun e => (e.ns, Spec.fnName e.fn) := by
      rw [← hn]
      simp only [Mod.Module.spec, LMod.view, List.map_map, Function.comp_def]
    rw [h1, h2]
    cases Mod.Spec.imported (L.ext.map fun e => (e.ns, e.name)) (es.map fun e => (e.ns, Spec.fnName e.fn))
        (f.uses.getD []) al n with
    | none => rfl
    | some x => cases x with
      | loaded i => rfl
      | external i =>
        simp only [LMod.view]
        cases L.ext[i]? <;> rfl
  | none =>
    simp only [Mod.link, Mod.Module.find, Spec.plainTarget, lastIdx_eq]
    have h1 : (es.map fun x => Spec.fnName x.fn) = L.fns.map (·.fn.name) := by
      have := congrArg (List.map Prod.snd) hn
      simpa [List.map_map, Function.comp_def] using this.symm
    have h2 : lastIdx (fun f : Mod.Function => f.name == n)
        ({ L with fns := L.fns ++ gs.map fun g => (⟨f.ns.getD [], g⟩ : Loaded) } : LMod).view.functions =
        lastIdx (fun x => decide (x = n)) (es.map (fun x => Spec.fnName x.fn) ++ f.fns.map Spec.fnName) := by
      rw [h1, ← mapM_names hg]
      have := lastIdx_map' (fun f : Mod.Function => f.name) (fun x => decide (x = n))
        ({ L with fns := L.fns ++ gs.map fun g => (⟨f.ns.getD [], g⟩ : Loaded) } : LMod).view.functions
      simp only [LMod.view, List.map_append, List.map_map, Function.comp_def] at this ⊢
      rw [this]
      congr 1
    rw [h2]
    cases lastIdx (fun x => decide (x = n)) (es.map (fun x => Spec.fnName x.fn) ++ f.fns.map Spec.fnName) with
    | some i => rfl
    | none =>
      simp only [LMod.view]
      have : (fun e : Mod.External => e.name == n) = fun e => decide (e.name = n) := by
        funext e; rfl
      rw [this]
      cases L.ext.reverse.find? fun e => decide (e.name = n) <;> rfl

theorem IsLinked.load {L : LMod} {es : List Entry} (hL : IsLinked L es) {name} {f : FileSrc} {gs : List Func}
    (hg : f.fns.mapM (Spec.fn name) = some gs) :
    IsLinked (L.register ⟨f.ns.getD [], f.uses.getD [], gs⟩) (es ++ fileEntries es L.ext name f) := by
  constructor
  · simp [LMod.register, fileEntries, hL.length, mapM_len hg]
  · intro i e he
    simp only [LMod.register]
    by_cases hi : i < es.length
    · rw [List.getElem?_append_left hi] at he
      rw [List.getElem?_append_left (by rw [hL.length]; exact hi)]
      exact hL.fn i e he
    · have hi : es.length ≤ i := by omega
      rw [List.getElem?_append_right hi] at he
      have he' := List.mem_of_getElem? he
      rw [List.getElem?_append_right (by rw [hL.length]; exact hi), hL.length]
      simp only [fileEntries, List.getElem?_map] at he
      obtain ⟨fn, hfn, rfl⟩ := Option.map_eq_some_iff.1 he
      have hm := mapM_get' hg (i - es.length)
      rw [hfn] at hm
      obtain ⟨g, hgi, hg2⟩ := Option.map_eq_some_iff.1 hm.symm
      refine ⟨_, g, by simp [hgi]; rfl, rfl, hg2.symm, ?_⟩
      have hidx : es.length + (i - es.length) = i := by omega
      simp only [hidx]
      congr 1
      funext n
      exact look_eq hL hg i n he'

theorem IsLinked.append {L : LMod} {es : List Entry} (hL : IsLinked L es) {O : LMod} {os : List Entry}
    (hO : IsLinked O os) (ext tr) : IsLinked ⟨L.fns ++ O.fns, ext, tr⟩ (es ++ os.map (Spec.behind es.length)) := by
  constructor
  · simp [hL.length, hO.length]
  · intro i e he
    by_cases hi : i < es.length
    · rw [List.getElem?_append_left hi] at he
      simp only
      rw [List.getElem?_append_left (by rw [hL.length]; exact hi)]
      exact hL.fn i e he
    · have hi : es.length ≤ i := by omega
      rw [List.getElem?_append_right hi, List.getElem?_map] at he
      obtain ⟨e', he', rfl⟩ := Option.map_eq_some_iff.1 he
      obtain ⟨l, g, h1, h2, h3, h4⟩ := hO.fn _ e' he'
      simp only
      rw [List.getElem?_append_right (by rw [hL.length]; exact hi), hL.length]
      refine ⟨l, g, h1, h2, h3, h4.trans ?_⟩
      congr 1
      funext n
      simp only [Entry.target, Spec.behind]
      cases e'.calls (siteOf n).via (siteOf n).name with
      | nothing => rfl
      | own j => simp only [Target.index, Spec.shift]; congr 1; omega
      | host e b => cases b <;> rfl

theorem IsLinked.take {L : LMod} {es : List Entry} (hL : IsLinked L es) (n : Nat) (ext tr) :
    IsLinked ⟨L.fns.take n, ext, tr⟩ (es.take n) := by
  constructor
  · simp [hL.length]
  · intro i e he
    simp only [List.getElem?_take] at he ⊢
    split at he
    · rename_i h
      simp only [if_pos h]
      exact hL.fn i e he
    · cases he

theorem build_ok {s : ModSrc} {L : LMod} (h : s.build = .ok L) :
    IsLinked L s.entries ∧ L.ext = s.hosts ∧ L.transitive = s.parts.2 := by
  induction s generalizing L with
  | host ext => cases h; exact ⟨⟨rfl, fun i e he => by simp [ModSrc.entries, ModSrc.parts] at he⟩, rfl, rfl⟩
  | add m ext ih =>
    rw [ModSrc.build] at h
    cases hm : m.build with
    | error _ => rw [hm] at h; cases h
    | ok M =>
      rw [hm] at h
      cases h
      obtain ⟨h1, h2, h3⟩ := ih hm
      exact ⟨⟨h1.length, h1.fn⟩, by simp [ModSrc.hosts, h2], h3⟩
  | load m name f ih =>
    rw [ModSrc.build] at h
    cases hm : m.build with
    | error _ => rw [hm] at h; cases h
    | ok M =>
      rw [hm] at h
      obtain ⟨h1, h2, h3⟩ := ih hm
      change (toFile name f.tree >>= _) = _ at h
      rw [C76_file] at h
      cases hg : f.fns.mapM (Spec.fn name) with
      | none => rw [hg] at h; cases h
      | some gs =>
        rw [hg] at h
        cases h
        refine ⟨?_, h2, h3⟩
        have := h1.load hg
        rw [h2] at this
        exact this
  | imports m o ihm iho =>
    rw [ModSrc.build] at h
    cases hm : m.build with
    | error _ => rw [hm] at h; cases h
    | ok M =>
      cases ho : o.build with
      | error _ => rw [hm, ho] at h; cases h
      | ok O =>
        rw [hm, ho] at h
        cases h
        obtain ⟨h1, h2, h3⟩ := ihm hm
        obtain ⟨o1, o2, o3⟩ := iho ho
        exact ⟨h1.append o1 _ _, by simp only [LMod.import, joinHosts_eq, h2, o2, ModSrc.hosts], h3⟩
  | importsTr m o ihm iho =>
    rw [ModSrc.build] at h
    cases hm : m.build with
    | error _ => rw [hm] at h; cases h
    | ok M =>
      cases ho : o.build with
      | error _ => rw [hm, ho] at h; cases h
      | ok O =>
        rw [hm, ho] at h
        cases h
        obtain ⟨h1, h2, h3⟩ := ihm hm
        obtain ⟨o1, o2, o3⟩ := iho ho
        have := h1.append (o1.take O.transitive [] 0) M.ext ((M.fns ++ O.fns.take O.transitive).length)
        rw [o3] at this
        refine ⟨?_, h2, ?_⟩
        · simp only [LMod.importTransitive, o3]; exact this
        · simp only [LMod.importTransitive, o3]; exact this.length
  | marked m ih =>
    rw [ModSrc.build] at h
    cases hm : m.build with
    | error _ => rw [hm] at h; cases h
    | ok M =>
      rw [hm] at h
      cases h
      obtain ⟨h1, h2, h3⟩ := ih hm
      exact ⟨⟨h1.length, h1.fn⟩, h2, h1.length⟩

end

end Dyon.Front
