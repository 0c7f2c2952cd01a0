import Verif.Module.Import
import Verif.Host.Embed

/-!
# Modules made by a program

`load(source, imports)` and `module(name, in_string, imports)`, with and without the flags `tr` and
`usetr`, dyon_std/mod.rs:1116-1313.  The new module is a Rust object with a lock of its own.
Locking the objects of the imports is left out: only `call` holds such locks for longer (C71).
-/

namespace Dyon.Mod

/-- What reading, parsing, converting and checking a file gives: the converted functions, the
refined return types or the error of the checker, and the error about meta data that was not
understood, lib.rs:654-755. -/
structure File where
  uses : List UseImport
  fs : List Function
  check : Except String (List (String × Ty))
  ignored : Option String

/-- `load_str` for a module that is only kept if it succeeds, lib.rs:654-699.  `file` is the error of
the parser (or of reading the file), or what the parser, the converter and the checker give. -/
def loadFile (file : Except String File) (m : Module) : Except String Module :=
  match file with
  | .error e => .error e
  | .ok f => match f.check with
    | .error e => .error e
    | .ok rets => match f.ignored with
      | some e => .error e
      | none => .ok (m.load f.uses f.fs (some rets)).1

/-- The new module before the imports, dyon_std/mod.rs:1121-1123 and 1169-1173. -/
def newModule (running : Module) (usetr : Bool) : Module :=
  let m := Module.empty.importExternals running
  if usetr then m.importTransitive running else m

/-- `rt.get(v)`, runtime/mod.rs:509-511. -/
def getVal (st : Stack) (v : Val) : Pop Val := Pop.get st .ok v

/-- The loop over the imports, dyon_std/mod.rs:1127-1137.  `obj` gives the module in a Rust object,
`whole` is the array. -/
def importAll (obj : Nat → Option Module) (trace : String) (st : Stack) (whole : Val) (m : Module) :
    List Val → Pop Module
  | [] => .ok m
  | it :: its => (getVal st it).bind fun x =>
    match x with
    | .rustObject o => match obj o with
      | some i => importAll obj trace st whole (m.import i) its
      | none => .err (expectedMsg trace whole "[Module]")
    | x => .err (expectedMsg trace x "[Module]")

/-- The argument with the imports, dyon_std/mod.rs:1124-1140. -/
def importArg (obj : Nat → Option Module) (trace : String) (st : Stack) (m : Module) (v : Val) : Pop Module :=
  (getVal st v).bind fun x =>
    match x with
    | .array xs => importAll obj trace st x m xs
    | x => .err (expectedMsg trace x "[Module]")

/-- The text in an argument, dyon_std/mod.rs:1217-1220. -/
def textArg (trace : String) (st : Stack) (v : Val) : Pop String :=
  (getVal st v).bind fun x =>
    match x with
    | .str s => .ok s
    | x => .err (expectedMsg trace x "str")

/-- `rt.pop::<bool>().expect(TINVOTS)`, dyon_std/mod.rs:1165-1166. -/
def flagArg (st : Stack) (v : Val) : Pop Bool :=
  (getVal st v).bind fun x =>
    match x with
    | .bool b _ => .ok b
    | _ => .panic

/-- The new module if the file could be loaded, or the error value, dyon_std/mod.rs:1193-1208 and
1297-1312. -/
def finish (tr : Bool) (file : Except String File) (m : Module) : Except String Module :=
  match loadFile file m with
  | .ok m => .ok (if tr then m.makeTransitive else m)
  | .error e => .error ("When attempting to load module:\n" ++ e)

/-- The flags `tr` and `usetr`, if they are given: dyon_std/mod.rs:1165-1166 and 1262-1263; without
them transitive functions are used and not added (1123, 1228). -/
def flagArgs (st : Stack) : Option (Val × Val) → Pop (Bool × Bool)
  | none => .ok (false, true)
  | some (tr, usetr) => (flagArg st usetr).bind fun usetr => (flagArg st tr).bind fun tr => .ok (tr, usetr)

/-- `load__source_imports`, dyon_std/mod.rs:1116-1159, and `load__source_imports_tr_usetr`,
1162-1212.  `st` is the stack below the arguments; arguments may not refer to each other.  `file`
gives the result of `load_str` for a path and a module.  The outcome is the result value: a module or
an error value. -/
def loadFn (file : String → Module → Except String File) (obj : Nat → Option Module) (trace : String) (st : Stack)
    (running : Module) (source imports : Val) (flags : Option (Val × Val)) : Pop (Except String Module) :=
  (flagArgs st flags).bind fun (tr, usetr) =>
  (importArg obj trace st (newModule running usetr) imports).bind fun m =>
  (textArg trace st source).bind fun path =>
  .ok (finish tr (file path m) m)

/-- `module__in_string_imports`, dyon_std/mod.rs:1214-1259, and
`module__in_string_imports_tr_usetr`, 1261-1313. -/
def moduleFn (file : String → String → Module → Except String File) (obj : Nat → Option Module) (trace : String)
    (st : Stack) (running : Module) (name source imports : Val) (flags : Option (Val × Val)) :
    Pop (Except String Module) :=
  (flagArgs st flags).bind fun (tr, usetr) =>
  (textArg trace st source).bind fun text =>
  (textArg trace st name).bind fun name =>
  (importArg obj trace st (newModule running usetr) imports).bind fun m =>
  .ok (finish tr (file name text m) m)

end Dyon.Mod
