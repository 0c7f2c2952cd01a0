import Verif.File.Model

/-!
# The arguments of the program

`args_os()`, dyon_std/mod.rs:1932-1942.  The operating system gives the arguments as bytes (Unix); `into_string` of Rust's standard
library gives the text of bytes in UTF-8.
-/

namespace Dyon.File

/-- The loop of `args_os`, mod.rs:1934-1940, with the texts so far: each text is pushed at the end, `none` is the early return. -/
def argsLoop : List Bytes → List Val → Option (List Val)
  | [], arr => some arr
  | a :: rest, arr => match text a with
    | some t => argsLoop rest (arr ++ [.str t])
    | none => none

/-- `args_os`, mod.rs:1932-1942. -/
def argsOs (args : List Bytes) : SM Val :=
  match argsLoop args [] with
  | some arr => pure (.array arr)
  | none => SM.fail "Invalid unicode in os argument"

end Dyon.File
