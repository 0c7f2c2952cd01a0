import Verif.Types.Refine
import Verif.Eval.Ast

/-!
# Modules, the prelude and how calls are linked

Models `src/module.rs`, `src/prelude.rs`, the linking part of `src/ast/mod.rs`
(`convert`, `UseLookup`, `Function::from_meta_data` and `Call::from_meta_data` as
far as names are concerned, `Call::get_locals`) and of `src/lib.rs` (`load_str`),
and the part of `src/lifetime/mod.rs` that finds the declaration of a call.

Simplifications: a function body is the list of its call sites (what else is in it
plays no role for linking); a hash map is a function from keys; an external
function is a number standing for its address; conversion of parsed meta data to
the syntax tree does not fail, and clones of a function do not share the flag
`looked_up` (in Rust the flag is shared, but it is set before the load that
registered the function ends).
-/

namespace Dyon.Mod

/-- `HashMap<Arc<String>, _>`. -/
abbrev Map (α : Type) := String → Option α

/-- `HashMap::insert`. -/
def Map.insert {α} (m : Map α) (k : String) (v : α) : Map α := fun x => if x = k then some v else m x

/-- `HashMap::new`. -/
def Map.empty {α} : Map α := fun _ => none

/-- `enum Lt`, prelude.rs:12-26. -/
inductive Lt where
  | arg (i : Nat)
  | ret
  | default
deriving Repr, DecidableEq

/-- `struct Dfn`, prelude.rs:30-44. -/
structure Dfn where
  lts : List Lt
  tys : List Ty
  ret : Ty
  ext : List Sig
  lazy : List (List Lazy)

/-- `enum FnExt`, lib.rs:361-370: what kind of function an external function is; the number stands
for its address. -/
inductive FnExt where
  | void (f : Nat)
  | ret (f : Nat)
  | binop (f : Nat)
  | unop (f : Nat)

/-- `struct FnExternal`, lib.rs:466-471. -/
structure External where
  ns : List String
  name : String
  f : FnExt
  p : Dfn

/-- `struct Arg`, ast/mod.rs:828-839, what the prelude and the listing read of it. -/
structure Param where
  name : String
  lifetime : Option String
  ty : Ty
  mutable : Bool := false

/-- A call in a body: `Call::info` and `Call::f_index`, ast/mod.rs:2578-2585 and 2661-2670. -/
structure Site where
  /-- the alias of a namespace, `CallInfo::alias` -/
  via : Option String
  name : String
  index : FnIndex

/-- `struct Function`, ast/mod.rs:365-393, what linking reads and writes. -/
structure Function where
  ns : List String
  name : String
  file : String
  args : List Param
  ret : Ty
  calls : List Site
  lookedUp : Bool

/-- `struct Module`, module.rs:5-11. -/
structure Module where
  functions : List Function
  transitive : Nat
  externals : List External
  registerNs : List String

/-- `Module::empty`, module.rs:21-28. -/
def Module.empty : Module := ⟨[], 0, [], []⟩

/-! ## Names -/

/-- The loop that writes the mutability of the arguments, ast/mod.rs:480-486 (and
2726-2732, 2808-2814, lifetime/mod.rs:175-185). -/
def pattern : List Bool → String
  | [] => ""
  | [b] => if b then "mut" else "_"
  | b :: bs => (if b then "mut" else "_") ++ "," ++ pattern bs

/-- The name under which a function is registered, and the name under which a call
looks it up: ast/mod.rs:475-490, 2722-2735, 2805-2816, lifetime/mod.rs:168-188. -/
def mangle (name : String) (mutable : List Bool) : String :=
  if mutable.any id then name ++ "(" ++ pattern mutable ++ ")" else name

/-- The name of a call with named arguments, ast/mod.rs:2775-2784 (and
lifetime/node.rs:500-513): the first word is the function. -/
def namedCall : List String → String
  | [] => ""
  | w :: ws => ws.foldl (fun n v => n ++ "_" ++ v) (w ++ "_")

/-! ## Finding functions -/

/-- The position of the last element with a property: what
`iter().enumerate().rev()` with an early return finds. -/
def lastIdx {α} (p : α → Bool) (l : List α) : Option Nat :=
  (l.zipIdx.reverse.find? fun x => p x.1).map (·.2)

/-- How an external function is called, module.rs:800-811. -/
def External.index (e : External) : FnIndex :=
  match e.f with
  | .ret f => if e.p.lazy.isEmpty then .ret f else .lazy f e.p.lazy
  | .binop f => .binop f
  | .unop f => .unop f
  | .void f => .void f

/-- How an external function is called through an alias, ast/mod.rs:2858-2866 (and
4655-4663). -/
def External.aliasIndex (e : External) : FnIndex :=
  match e.f with
  | .ret f => .ret f
  | .binop f => .binop f
  | .unop f => .unop f
  | .void f => .void f

/-- `Module::find_function`, module.rs:792-815. -/
def Module.find (m : Module) (name : String) (relative : Nat) : FnIndex :=
  match lastIdx (fun f => f.name == name) m.functions with
  | some i => .loaded ((i : Int) - relative)
  | none => match m.externals.reverse.find? (fun e => e.name == name) with
    | some e => e.index
    | none => .none

/-! ## The prelude -/

/-- The lifetime of one argument, prelude.rs:62-79; `none`: the panic in line 75. -/
def ltOf (args : List Param) (a : Param) : Option Lt :=
  match a.lifetime with
  | none => some .default
  | some lt => if lt = "return" then some .ret else
    match args.findIdx? fun b => b.name == lt with
    | some i => some (.arg i)
    | none => none

/-- `Dfn::new`, prelude.rs:59-87. -/
def Dfn.new (f : Function) : Option Dfn :=
  match f.args.mapM (ltOf f.args) with
  | some lts => some ⟨lts, f.args.map (·.ty), f.ret, [], []⟩
  | none => none

/-- `struct Prelude`, prelude.rs:96-100. -/
structure Prelude where
  functions : Map Nat
  list : List Dfn
  namespaces : List (List String × String)

/-- `Prelude::insert`, prelude.rs:110-115. -/
def Prelude.insert (p : Prelude) (ns : List String) (name : String) (f : Dfn) : Prelude :=
  ⟨p.functions.insert name p.list.length, p.list ++ [f], p.namespaces ++ [(ns, name)]⟩

/-- The first loop of `Prelude::from_module`, prelude.rs:129-131. -/
def Prelude.addExternals (p : Prelude) (es : List External) : Prelude :=
  es.foldl (fun p e => p.insert e.ns e.name e.p) p

/-- The second loop of `Prelude::from_module`, prelude.rs:132-134. -/
def Prelude.addFunctions (p : Prelude) : List Function → Option Prelude
  | [] => some p
  | f :: fs => match Dfn.new f with
    | some d => (p.insert f.ns f.name d).addFunctions fs
    | none => none

/-- `Prelude::from_module`, prelude.rs:127-136; `none`: a panic. -/
def Prelude.fromModule (m : Module) : Option Prelude :=
  ((⟨Map.empty, [], []⟩ : Prelude).addExternals m.externals).addFunctions m.functions

/-! ## Imported names -/

/-- `struct UseImport`, ast/mod.rs:308-315. -/
structure UseImport where
  names : List String
  fns : List (String × Option String)
  via : String

/-- `enum FnAlias`, ast/mod.rs:66-71. -/
inductive FnAlias where
  | loaded (i : Nat)
  | external (i : Nat)
deriving Repr, DecidableEq

/-- `struct UseLookup`, ast/mod.rs:74-79. -/
abbrev Aliases := Map (Map FnAlias)

/-- `aliases.get(alias).and_then(|map| map.get(name))`, ast/mod.rs:2851-2854. -/
def Aliases.get (a : Aliases) (al name : String) : Option FnAlias :=
  match a al with
  | some m => m name
  | none => none

/-- `aliases.insert(alias, HashMap::new())` if missing and `get_mut`,
ast/mod.rs:103-106. -/
def Aliases.entry (a : Aliases) (al : String) : Map FnAlias := (a al).getD Map.empty

/-- The name of a function with its namespace and what an alias of it is. -/
abbrev Named := List String × String × FnAlias

/-- One turn of a loop over functions in a glob import, ast/mod.rs:107-111: the
function is inserted if it is in the namespace. -/
def globOne (ns : List String) (m : Map FnAlias) (f : Named) : Map FnAlias :=
  if f.1 = ns then m.insert f.2.1 f.2.2 else m

/-- What a selective import adds for one function, ast/mod.rs:128-146: the name itself
or the name followed by its mutability. `keepName` is what lines 147-165 do for
external functions: the new name is computed and not used. -/
def pickOne (keepName : Bool) (ns : List String) (use : String × Option String) (m : Map FnAlias)
    (f : Named) : Map FnAlias :=
  if f.1 ≠ ns then m
  else if f.2.1 = use.1 then m.insert (use.2.getD use.1) f.2.2
  else if (use.1 ++ "(").toList.isPrefixOf f.2.1.toList then
    m.insert (if keepName then f.2.1
      else use.2.getD use.1 ++ String.ofList (f.2.1.toList.drop use.1.toList.length)) f.2.2
  else m

/-- `module.functions.iter().enumerate().rev()`. -/
def Module.loadedNames (m : Module) : List Named :=
  (m.functions.zipIdx.map fun (f, i) => (f.ns, f.name, FnAlias.loaded i)).reverse

/-- `module.ext_prelude.iter().enumerate().rev()`. -/
def Module.externalNames (m : Module) : List Named :=
  (m.externals.zipIdx.map fun (f, i) => (f.ns, f.name, FnAlias.external i)).reverse

/-- One glob import, ast/mod.rs:99-117. -/
def globModule (m : Module) (a : Aliases) (u : UseImport) : Aliases :=
  if u.fns.isEmpty then
    a.insert u.via (m.externalNames.foldl (globOne u.names)
      (m.loadedNames.foldl (globOne u.names) (a.entry u.via)))
  else a

/-- One selective import, ast/mod.rs:119-167. -/
def pickModule (m : Module) (a : Aliases) (u : UseImport) : Aliases :=
  if u.fns.isEmpty then a
  else a.insert u.via (u.fns.foldl (fun fns use =>
    m.externalNames.foldl (pickOne true u.names use)
      (m.loadedNames.foldl (pickOne false u.names use) fns)) (a.entry u.via))

/-- `UseLookup::from_uses_module`, ast/mod.rs:96-169: used by the loader. -/
def aliasesOfModule (uses : List UseImport) (m : Module) : Aliases :=
  uses.foldl (pickModule m) (uses.foldl (globModule m) Map.empty)

/-- `prelude.namespaces.iter().enumerate().rev()`. -/
def Prelude.names (p : Prelude) : List Named :=
  (p.namespaces.zipIdx.map fun (f, i) => (f.1, f.2, FnAlias.loaded i)).reverse

/-- One glob import, ast/mod.rs:176-189. -/
def globPrelude (p : Prelude) (a : Aliases) (u : UseImport) : Aliases :=
  if u.fns.isEmpty then a.insert u.via (p.names.foldl (globOne u.names) (a.entry u.via))
  else a

/-- One selective import, ast/mod.rs:191-220. -/
def pickPrelude (p : Prelude) (a : Aliases) (u : UseImport) : Aliases :=
  if u.fns.isEmpty then a
  else a.insert u.via (u.fns.foldl (fun fns use => p.names.foldl (pickOne false u.names use) fns)
    (a.entry u.via))

/-- `UseLookup::from_uses_prelude`, ast/mod.rs:173-222: used by the checker. -/
def aliasesOfPrelude (uses : List UseImport) (p : Prelude) : Aliases :=
  uses.foldl (pickPrelude p) (uses.foldl (globPrelude p) Map.empty)

/-! ## Linking -/

/-- What a call is linked to, `Call::get_locals`, ast/mod.rs:2850-2873 (and
`In::get_locals`, 4647-4670). -/
def link (m : Module) (a : Aliases) (relative : Nat) (s : Site) : FnIndex :=
  match s.via with
  | some al => match a.get al s.name with
    | some (.loaded i) => .loaded ((i : Int) - relative)
    | some (.external i) => match m.externals[i]? with
      | some e => e.aliasIndex
      | none => .none
    | none => .none
  | none => m.find s.name relative

/-- `Function::get_locals`, ast/mod.rs:519-540. -/
def linkFunction (m : Module) (a : Aliases) (i : Nat) (f : Function) : Function :=
  if f.lookedUp then f
  else { f with calls := f.calls.map fun s => { s with index := link m a i s }, lookedUp := true }

/-- The loops of `ast::convert`, ast/mod.rs:44-61: register the functions of the file,
then link. -/
def Module.convert (m : Module) (uses : List UseImport) (fs : List Function) : Module :=
  let a := aliasesOfModule uses m
  let m' : Module := { m with functions := m.functions ++ fs }
  { m' with functions := m'.functions.mapIdx (linkFunction m' a) }

/-- One refined return type, lib.rs:677-680. -/
def refineRet (m : Module) (r : String × Ty) : Module :=
  match m.find r.1 0 with
  | .loaded i => { m with functions := m.functions.modify i.toNat fun f => { f with ret := r.2 } }
  | _ => m

/-- `load_str`, lib.rs:654-699, of a file that parses. `check` is the result of the
checker: refined return types, or an error. -/
def Module.load (m : Module) (uses : List UseImport) (fs : List Function)
    (check : Option (List (String × Ty))) : Module × Bool :=
  let m := m.convert uses fs
  match check with
  | some rets => (rets.foldl refineRet m, true)
  | none => (m, false)

/-! ## Importing -/

/-- `Module::import_ext_prelude`, module.rs:31-35. -/
def Module.importExternals (m o : Module) : Module := { m with externals := m.externals ++ o.externals }

/-- `Module::import_tr_prelude`, module.rs:38-44. -/
def Module.importTransitive (m o : Module) : Module :=
  { m with
    functions := m.functions ++ o.functions.take o.transitive
    transitive := (m.functions ++ o.functions.take o.transitive).length }

/-- `Module::make_transitive`, module.rs:47-49. -/
def Module.makeTransitive (m : Module) : Module := { m with transitive := m.functions.length }

/-- The first loop of `Module::import`, module.rs:54-62. -/
def addExternal (es : List External) (e : External) : List External :=
  if es.any fun a => a.name == e.name && decide (a.ns = e.ns) then es else es ++ [e]

/-- `Module::import`, module.rs:52-67. -/
def Module.import (m o : Module) : Module :=
  { m with
    externals := o.externals.foldl addExternal m.externals
    functions := m.functions ++ o.functions }

/-- `Module::add`, module.rs:851-861. -/
def Module.add (m : Module) (name : String) (f : FnExt) (p : Dfn) : Module :=
  { m with externals := m.externals ++ [⟨m.registerNs, name, f, p⟩] }

/-! ## What the checker uses -/

/-- `function_lookup`, lifetime/mod.rs:608-619; `none`: "Duplicate function". -/
def functionLookup : List String → Nat → Map Nat → Option (Map Nat)
  | [], _, m => some m
  | n :: ns, i, m => if (m n).isSome then none else functionLookup ns (i + 1) (m.insert n i)

/-- What the checker takes the signature of a call from. -/
inductive Signature where
  /-- a function declared in the file -/
  | declared (i : Nat)
  /-- an entry of the prelude -/
  | prelude (i : Nat)
deriving Repr, DecidableEq

/-- The declaration of a call, lifetime/mod.rs:659-706 (and 712-742 for `in`);
`none`: "Could not find function". -/
def checkCall (look : Map Nat) (a : Aliases) (p : Prelude) (s : Site) : Option Signature :=
  match s.via with
  | some al => match a.get al s.name with
    | some (.loaded i) => some (.prelude i)
    | _ => none
  | none => match look s.name with
    | some i => some (.declared i)
    | none => match p.functions s.name with
      | some i => some (.prelude i)
      | none => none

/-- Whether the number of arguments `n` of a call is accepted, lifetime/mod.rs:661-706:
`args` are the numbers of parameters of the functions of the file. A call through an
alias is not tested (line 669). -/
def checkArity (args : List Nat) (p : Prelude) (s : Site) (n : Nat) : Signature → Bool
  | .declared i => args[i]? == some n
  | .prelude i => s.via.isSome || (p.list[i]?.map fun d => d.lts.length) == some n

/-! ## Running -/

/-- The function a linked call executes when the running function is number `index`,
`call_loaded`, runtime/mod.rs:1469-1476. -/
def callee (m : Module) (index : Nat) (r : Int) : Option Function := m.functions[(r + index).toNat]?

/-- What `go` executes: the function is looked up by name when the thread is started,
runtime/mod.rs:963-968. -/
def goIndex (m : Module) (index : Nat) (s : Site) : FnIndex := m.find s.name index

end Dyon.Mod
