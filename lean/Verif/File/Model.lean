import Verif.Builtin.Text
import Verif.Data.Write
import Verif.Text.MetaJson

/-!
# Model of the library functions on files

`save__string_file`, `load_string__file`, `load_data__file`, `load_data__string` and `save__data_file` of
`src/dyon_std/mod.rs`, `load_file` of `src/dyon_std/data.rs`, `load_meta_file` and `parse_syntax_data` of
`src/dyon_std/meta.rs`, `io_error` of `src/dyon_std/io.rs`, built with the feature `file`.

The operating system is external.  Files are bytes under names.  Whether creating, opening and reading succeed, and after how many
bytes each write fails, is given by `Os`, about which nothing is assumed.  `File`, `write_all`, `read_to_string` and `BufWriter` are
those of Rust's standard library.  Nothing else changes the files during one call.
-/

namespace Dyon.File

/-- The contents of a file. -/
abbrev Bytes := List UInt8

/-- The files, by name. -/
abbrev Disk := String → Option Bytes

/-- `String::as_bytes`: UTF-8. -/
def bytes (s : String) : Bytes := s.toByteArray.data.toList

/-- The text of bytes in UTF-8, `none` if they are not UTF-8. -/
def text (b : Bytes) : Option String := String.fromUTF8? ⟨b.toArray⟩

/-- What the operating system does during one call: the text of the error of `File::create` and `File::open`, if they fail though the
file is there; the texts of the errors for a missing file, for reading and for bytes that are not UTF-8; for each write in order, after
how many bytes it fails, if it does, and the text of that error. -/
structure Os where
  create : Option String
  opening : Option String
  missing : String
  reading : Option String
  invalid : String
  writes : List (Option Nat)
  full : String

/-- A file being written: the bytes that are in it, and the fate of the next writes. -/
structure Sink where
  done : Bytes
  fate : List (Option Nat)
deriving Repr

/-- `write_all` of a `File`.  The flag tells whether all bytes were written; otherwise the first ones were.  The number of bytes written
is the third part. -/
def Sink.put (s : Sink) (b : Bytes) : Sink × Bool × Nat :=
  match s.fate with
  | [] => ({ s with done := s.done ++ b }, true, b.length)
  | none :: fs => ({ done := s.done ++ b, fate := fs }, true, b.length)
  | some n :: fs =>
    if n < b.length then ({ done := s.done ++ b.take n, fate := fs }, false, n)
    else ({ done := s.done ++ b, fate := fs }, true, b.length)

/-- `BufWriter<File>`. -/
structure Buffered where
  sink : Sink
  buf : Bytes
deriving Repr

/-- `BufWriter::flush_buf`: what was written is taken out of the buffer, also if an error follows. -/
def Buffered.flush (w : Buffered) : Buffered × Bool :=
  if w.buf.isEmpty then (w, true)
  else match w.sink.put w.buf with
    | (s, ok, n) => ({ sink := s, buf := w.buf.drop n }, ok)

/-- `BufWriter::write_all` with a buffer of `cap` bytes. -/
def Buffered.writeAll (cap : Nat) (w : Buffered) (b : Bytes) : Buffered × Bool :=
  if b.length < cap - w.buf.length then ({ w with buf := w.buf ++ b }, true)
  else match (if cap - w.buf.length < b.length then w.flush else (w, true)) with
    | (w, false) => (w, false)
    | (w, true) =>
      if cap ≤ b.length then match w.sink.put b with
        | (s, ok, _) => ({ w with sink := s }, ok)
      else ({ w with buf := w.buf ++ b }, true)

/-- The pieces in which `write_variable` writes a text, up to the first error (`?`), write.rs:13-157. -/
def Buffered.writes (cap : Nat) : Buffered → List Bytes → Buffered × Bool
  | w, [] => (w, true)
  | w, b :: bs => match w.writeAll cap b with
    | (w, false) => (w, false)
    | (w, true) => w.writes cap bs

/-- `Drop for BufWriter`: what is in the buffer is written, errors are ignored. -/
def Buffered.close (w : Buffered) : Bytes := w.flush.1.sink.done

/-- The disk with other contents of a file. -/
def Disk.set (d : Disk) (file : String) (b : Bytes) : Disk := fun f => if f = file then some b else d f

/-- `File::open` and `read_to_string`: the text, or the action that failed and the text of the error.  mod.rs:1834-1853,
data.rs:21-25, meta.rs:70-79 -/
def readFile (os : Os) (d : Disk) (file : String) : Except (String × String) String :=
  match os.opening with
  | some e => .error ("open", e)
  | none => match d file with
    | none => .error ("open", os.missing)
    | some b => match os.reading with
      | some e => .error ("read", e)
      | none => match text b with
        | none => .error ("read", os.invalid)
        | some s => .ok s

/-- `io_error`, io.rs:5-16; `err.source()` is part of the text of the error here. -/
def ioError (action file err : String) : String :=
  "IO Error when attempting to " ++ action ++ " `" ++ file ++ "`: " ++ err

section
variable (c : Cfg)

/-- `save__string_file`, mod.rs:1802-1822. -/
def saveString (os : Os) (d : Disk) : SM (Val × Disk) := do
  let file ← Lib.popText c
  let t ← Lib.popText c
  match os.create with
  | some e => pure (.resErr (.str e) [], d)
  | none => match Sink.put ⟨[], os.writes⟩ (bytes t) with
    | (s, true, _) => pure (.resOk (.str file), d.set file s.done)
    | (s, false, _) => pure (.resErr (.str os.full) [], d.set file s.done)

/-- `load_string__file`, mod.rs:1829-1854. -/
def loadString (os : Os) (d : Disk) : SM Val := do
  let file ← Lib.popText c
  match readFile os d file with
  | .ok t => pure (.resOk (.str t))
  | .error (_, e) => pure (.resErr (.str e) [])

/-- `load_data`, data.rs:35-40, as a result with the message put before the error.  The fuel is more than is ever used (C35). -/
def loadText [Data.Lex] [FloatOps] (msg t : String) : SM Val :=
  match Data.loadData (t.toList.length + 1) t.toList with
  | .ok v _ => pure (.resOk v)
  | .err e => pure (.resErr (.str (msg ++ e)) [])
  | .running => fun _ => .running

/-- `load_data__string`, mod.rs:1917-1930. -/
def loadDataString [Data.Lex] [FloatOps] : SM Val := do
  let t ← Lib.popText c
  loadText ("Error loading data from string `" ++ t ++ "`:\n") t

/-- `load_data__file`, mod.rs:1902-1915, and `load_file`, data.rs:18-27. -/
def loadDataFile [Data.Lex] [FloatOps] (os : Os) (d : Disk) : SM Val := do
  let file ← Lib.popText c
  match readFile os d file with
  | .ok t => loadText ("Error loading data from file `" ++ file ++ "`:\n") t
  | .error (a, e) => pure (.resErr (.str ("Error loading data from file `" ++ file ++ "`:\n" ++ ioError a file e)) [])

/-- `save__data_file`, mod.rs:1944-1978.  `cap` is the capacity of the buffer (8 KiB), `cut` how the text is divided in the pieces that
are written one after another, `fuel` the depth to which the value is followed. -/
def saveData [Data.Lex] [Data.Show] (cap : Nat) (cut : String → List Bytes) (fuel : Nat) (os : Os) (d : Disk) : SM (Val × Disk) := do
  let v ← popV
  match ← getV v with
  | .str file => do
    let data ← popV
    match os.create with
    | some e => SM.fail ("Error when creating file `" ++ file ++ "`:\n" ++ e)
    | none => fun st => match Data.writeV st fuel true data with
      | none => .running
      | some t => match Buffered.writes cap ⟨⟨[], os.writes⟩, []⟩ (cut (String.ofList t)) with
        | (w, true) => .ok (.resOk (.str file), d.set file w.close) st
        | (w, false) =>
          .ok (.resErr (.str ("Error when writing to file `" ++ file ++ "`:\n" ++ os.full)) [], d.set file w.close) st
  | x => SM.fail (expected c x "str")

/-- `load__meta_file`, mod.rs:1721-1730, with `load_meta_file` and `load_metarules_data`, meta.rs:59-82, and `parse_syntax_data`,
meta.rs:15-57.  The parser of piston_meta is external: `syntax` reads the rules and `parse` the data, each gives an error text
otherwise.  The operating system may answer differently for the two files. -/
def loadMeta {Syntax : Type} («syntax» : String → Except String Syntax) (parse : Syntax → String → Except String (List Text.MetaTok))
    (os os' : Os) (d : Disk) : SM Val := do
  let file ← Lib.popText c
  let rules ← Lib.popText c
  match readFile os d rules with
  | .error (a, e) => pure (.resErr (.str (ioError a rules e)) [])
  | .ok s => match readFile os' d file with
    | .error (a, e) => pure (.resErr (.str (ioError a file e)) [])
    | .ok t => match «syntax» s with
      | .error e => pure (.resErr (.str ("When parsing meta syntax in `" ++ rules ++ "`:\n" ++ e)) [])
      | .ok r => match parse r t with
        | .error e => pure (.resErr (.str ("When parsing data in `" ++ file ++ "`:\n" ++ e)) [])
        | .ok ts => pure (.resOk (.array (ts.map Text.metaVal)))

end

end Dyon.File
