import Verif.Module.Make

/-!
# Loading a file by its path

`load(source)`, dyon_std/mod.rs:1078-1113, with the lookup of modules of the runtime, runtime/mod.rs:86-99 and
2926-2928, and `load` of the library, lib.rs:566-576.
-/

namespace Dyon.Mod

/-- What is on the disk at a path: it cannot be opened, it can be opened but not read as a text (a directory,
bytes that are not UTF-8), or a text: what `File::open` and `read_to_string` give, lib.rs:570-574. The errors of
the system are external. -/
inductive OnDisk where
  | closed (err : String)
  | broken (err : String)
  | text (s : String)

/-- The message about a file, lib.rs:571 and 574, runtime/mod.rs:93. -/
def openMsg (path err : String) : String := "Could not open `" ++ path ++ "`, " ++ err

/-- `file_lookup_module`, runtime/mod.rs:86-99; `enabled` is the feature `file`. The `unwrap` of an error of
reading is a panic. -/
def fileLookup (enabled : Bool) (disk : String → OnDisk) (path : String) : Pop (Except String String) :=
  if enabled then
    match disk path with
    | .closed err => .ok (.error (openMsg path err))
    | .broken _ => .panic
    | .text s => .ok (.ok s)
  else .ok (.error "File support is disabled")

/-- `load` of the library, lib.rs:566-576, up to the call of `load_str`. -/
def diskFile (disk : String → OnDisk) (parse : String → String → Module → Except String File) (path : String)
    (m : Module) : Except String File :=
  match disk path with
  | .closed err => .error (openMsg path err)
  | .broken err => .error (openMsg path err)
  | .text s => parse path s m

/-- `load`, dyon_std/mod.rs:1078-1113. `lookup` is `module_lookup` of the runtime, which the host may set
(runtime/mod.rs:121-123); `parse` is as in `moduleFn`. -/
def loadPath (lookup : String → Pop (Except String String)) (parse : String → String → Module → Except String File)
    (trace : String) (st : Stack) (running : Module) (source : Val) : Pop (Except String Module) :=
  (getVal st source).bind fun x =>
    match x with
    | .str path => (lookup path).bind fun
      | .error e => .ok (.error ("When attempting to load module:\n" ++ e))
      | .ok text =>
        let m := newModule running true
        .ok (finish false (parse path text m) m)
    | x => .err (expectedMsg trace x "string")

end Dyon.Mod
