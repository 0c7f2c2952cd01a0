import Verif.Module.LoadFn
import Verif.Module.MakeProps

/-!
# C91: loading a file by its path
-/

namespace Dyon.Mod

open Spec

/-! ## Specification -/

namespace Spec

/-- The text at a path, if there is one. -/
def ReadsAs (disk : String → OnDisk) (path text : String) : Prop := disk path = .text text

/-- The text is refused with this error: by the parser, by the checker, or because of meta data that was not
understood. -/
inductive Refused (parse : String → String → Module → Except String File) (path text : String) (m : Module) :
    String → Prop
  | syntax {e} : parse path text m = .error e → Refused parse path text m e
  | checker {e f} : parse path text m = .ok f → f.check = .error e → Refused parse path text m e
  | ignored {e f rets} : parse path text m = .ok f → f.check = .ok rets → f.ignored = some e →
      Refused parse path text m e

end Spec

/-! ## Lemmas -/

theorem loadPath_str {lookup : String → Pop (Except String String)}
    {parse : String → String → Module → Except String File} {trace : String} {st : Stack} {running : Module} {v : Val}
    {path : String} (hv : Holds st v (.str path)) :
    loadPath lookup parse trace st running v = (lookup path).bind fun
      | .error e => .ok (.error ("When attempting to load module:\n" ++ e))
      | .ok text => .ok (finish false (parse path text (newModule running true)) (newModule running true)) := by
  rw [loadPath, getVal_holds (by intro i; simp) hv]
  rfl

theorem loadFn_plain {file : String → Module → Except String File} {obj : Nat → Option Module} {trace : String}
    {st : Stack} {running : Module} {v w : Val} {path : String} (hv : Holds st v (.str path))
    (hw : Holds st w (.array [])) : loadFn file obj trace st running v w none =
      .ok (finish false (file path (newModule running true)) (newModule running true)) := by
  rw [loadFn, flagArgs]
  simp only [Pop.bind]
  rw [importArg_modules hw .nil]
  simp only [List.foldl_nil]
  rw [textArg_str hv]

theorem finish_refused {parse : String → String → Module → Except String File} {path text : String} {m : Module}
    {e : String} (h : Refused parse path text m e) :
    finish false (parse path text m) m = .error ("When attempting to load module:\n" ++ e) := by
  cases h with
  | «syntax» h => rw [h]; rfl
  | checker h hc => simp [h, finish, loadFile, hc]
  | ignored h hc hi => simp [h, finish, loadFile, hc, hi]

/-! ## Properties -/

variable {lookup : String → Pop (Except String String)} {parse : String → String → Module → Except String File}
  {obj : Nat → Option Module} {trace : String} {st : Stack} {running : Module} {disk : String → OnDisk}

/-- **C91.** `load(path)` asks the lookup of the host for the text; if the text can be loaded, the result is a
module with the transitive functions of the running module and the functions of the text. -/
theorem C91_load {hist : List Module} (hh : Reachable hist) (hr : running ∈ hist) {v : Val} {path text : String}
    {f : File} {rets : List (String × Ty)} (hv : Holds st v (.str path)) (hl : lookup path = .ok (.ok text))
    (hf : parse path text (newModule running true) = .ok f) (hok : FileOk f) (hc : f.check = .ok rets)
    (hg : f.ignored = none) :
    ∃ M, loadPath lookup parse trace st running v = .ok (.ok M) ∧ MadeOf running [] f.fs false true M := by
  obtain ⟨M, h1, h2⟩ := madeOf (imps := []) (tr := false) (usetr := true) (linked_reachable hh _ hr) (by simp) hok hc hg
  refine ⟨M, ?_, h2⟩
  rw [loadPath_str hv, hl]
  simp only [Pop.bind, hf]
  exact congrArg Pop.ok h1

/-- **C91.** A path that the lookup does not know and a text that is refused give an error value with the
reason, and the program goes on. -/
theorem C91_refused {v : Val} {path e : String} (hv : Holds st v (.str path))
    (h : lookup path = .ok (.error e) ∨
      ∃ text, lookup path = .ok (.ok text) ∧ Refused parse path text (newModule running true) e) :
    loadPath lookup parse trace st running v = .ok (.error ("When attempting to load module:\n" ++ e)) := by
  rw [loadPath_str hv]
  rcases h with h | ⟨text, h, hr⟩
  · rw [h]; rfl
  · rw [h]
    simp only [Pop.bind]
    rw [finish_refused hr]

/-- **C91.** Another argument than a text is an error of the program. -/
theorem C91_argument {v x : Val} (hv : Holds st v x) (hr : ∀ i, x ≠ .ref i) (hs : ∀ s, x ≠ .str s) :
    loadPath lookup parse trace st running v = .err (trace ++ "\nExpected `string`, found `" ++ x.typeofVar ++ "`") := by
  rw [loadPath, getVal_holds hr hv]
  cases x <;> first | exact absurd rfl (hs _) | simp [Pop.bind, expectedMsg, String.append_assoc]

/-- **C91**, part: with the lookup of files, `load(path)` and `load(source: path, imports: [])` do the same for
every path that cannot be opened or that is a text. Missing: files that can be opened and not read, other lookups,
and hosts without support for files; there it is false (see below). -/
theorem C91_same_partial {v w : Val} {path : String} (hv : Holds st v (.str path)) (hw : Holds st w (.array []))
    (hd : ∀ err, disk path ≠ .broken err) :
    loadPath (fileLookup true disk) parse trace st running v =
      loadFn (diskFile disk parse) obj trace st running v w none := by
  rw [loadPath_str hv, loadFn_plain hv hw, fileLookup, diskFile]
  cases h : disk path with
  | closed err => rfl
  | broken err => exact absurd h (hd err)
  | text s => rfl

/-- Finding: a file that can be opened and not read as a text, such as a directory, crashes the program with
`load(path)`, while it is an error value with `load(source: path, imports: [])`. -/
theorem C91_unreadable_panics {v w : Val} {path err : String} (hv : Holds st v (.str path))
    (hw : Holds st w (.array [])) (hd : disk path = .broken err) :
    loadPath (fileLookup true disk) parse trace st running v = .panic ∧
      loadFn (diskFile disk parse) obj trace st running v w none =
        .ok (.error ("When attempting to load module:\n" ++ ("Could not open `" ++ path ++ "`, " ++ err))) := by
  constructor
  · rw [loadPath_str hv, fileLookup, if_pos rfl, hd]
    rfl
  · rw [loadFn_plain hv hw, diskFile, hd]
    rfl

/-- Finding: `load(source, imports)` does not ask the lookup of the host. If the host refuses every path, or is
built without support for files, `load(path)` gives an error value, but with imports the file is loaded. -/
theorem C91_lookup_bypassed {hist : List Module} (hh : Reachable hist) (hr : running ∈ hist) {v w : Val}
    {path text : String} {f : File} {rets : List (String × Ty)} (hv : Holds st v (.str path))
    (hw : Holds st w (.array [])) (hd : ReadsAs disk path text)
    (hf : parse path text (newModule running true) = .ok f) (hok : FileOk f) (hc : f.check = .ok rets)
    (hg : f.ignored = none) :
    (∀ e, loadPath (fun _ => .ok (.error e)) parse trace st running v =
        .ok (.error ("When attempting to load module:\n" ++ e))) ∧
      loadPath (fileLookup false disk) parse trace st running v =
        .ok (.error "When attempting to load module:\nFile support is disabled") ∧
      ∃ M, loadFn (diskFile disk parse) obj trace st running v w none = .ok (.ok M) ∧
        MadeOf running [] f.fs false true M := by
  refine ⟨fun e => C91_refused hv (.inl rfl), ?_, ?_⟩
  · rw [C91_refused hv (.inl rfl)]
    rfl
  · refine C75_load hh hr hv hw .nil (by simp) .default ?_ hok hc hg
    have hd : disk path = .text text := hd
    simp only [List.foldl_nil, diskFile, hd, hf]

/-! ## Cases -/

namespace Demo

/-- A disk with a text, a directory and nothing else. -/
def someDisk (path : String) : OnDisk :=
  if path = "d.dyon" then .text ".." else if path = "dir" then .broken "is a directory" else .closed "not found"

example : ReadsAs someDisk "d.dyon" ".." ∧ fileLookup true someDisk "d.dyon" = .ok (.ok "..") ∧
    someDisk "dir" = .broken "is a directory" ∧ FileOk text ∧ text.check = .ok [] ∧ text.ignored = none :=
  ⟨rfl, rfl, rfl, by simp [FileOk, text, fn], rfl, rfl⟩

example : (match loadPath (fileLookup true someDisk) (fun _ _ _ => .ok text) "" [.str "d.dyon"] runner (.ref 0) with
    | .ok (.ok M) => M.functions.map (·.file)
    | _ => []) = ["b.dyon", "d.dyon"] := rfl

example : Refused (fun _ _ _ => .ok { text with ignored := some "?" }) "d.dyon" ".." .empty "?" :=
  .ignored rfl rfl rfl

end Demo

end Dyon.Mod
