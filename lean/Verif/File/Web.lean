import Verif.File.Model

/-!
# Model of the library functions that fetch from the web

`load_string__url`, `load__meta_url` and `download__url_file` of `src/dyon_std/mod.rs`, with `load_text_file_from_url`,
`load_meta_url` and `download_url_to_file` of `src/dyon_std/meta.rs`, built with the features `file` and `http`.

The network is external: `Web` says what it does during one call, and nothing is assumed about it.
-/

namespace Dyon.File

/-- An answer to a request, as `reqwest::Response` is used in meta.rs:103-119: whether its status is 200, the text of the status, the
pieces in which the body arrives, and the text of the error that follows them, if one does. -/
structure Response where
  isOk : Bool
  status : String
  body : List Bytes
  broken : Option String

/-- What happens to a request, meta.rs:93-102: the text of the error in the address, if there is one; the text of the error of sending,
or the answer; the text of the error for a body that is not UTF-8. -/
structure Web where
  badUrl : Option String
  answer : Except String Response
  invalid : String

/-- The message of an error of fetching, meta.rs:97-101, 106-110. -/
def fetchError (url err : String) : String := "Error fetching file over http `" ++ url ++ "`:\n" ++ err ++ "\n"

/-- The request, up to the body, meta.rs:93-103, 113-119; also 150-160, 171-177. -/
def fetch (w : Web) (url : String) : Except String Response :=
  match w.badUrl with
  | some e => .error ("Error parsing url:\n`" ++ e ++ "`\n")
  | none => match w.answer with
    | .error e => .error (fetchError url e)
    | .ok r => if r.isOk then .ok r
      else .error ("Error fetching file over http `" ++ url ++ ":\n" ++ r.status ++ "\n")

/-- `load_text_file_from_url`, meta.rs:89-120. -/
def fetchText (w : Web) (url : String) : Except String String :=
  match fetch w url with
  | .error e => .error e
  | .ok r => match r.broken with
    | some e => .error (fetchError url e)
    | none => match text r.body.flatten with
      | none => .error (fetchError url w.invalid)
      | some s => .ok s

/-- `std::io::copy` into a `File`: the pieces are written one after another, up to the first error, meta.rs:163. -/
def Sink.copy : Sink → List Bytes → Sink × Bool
  | s, [] => (s, true)
  | s, b :: bs => match s.put b with
    | (s, true, _) => s.copy bs
    | (s, false, _) => (s, false)

/-- `download_url_to_file`, meta.rs:145-178. -/
def downloadTo (w : Web) (os : Os) (d : Disk) (url file : String) : Except String String × Disk :=
  match fetch w url with
  | .error e => (.error e, d)
  | .ok r => match os.create with
    | some e => (.error ("Could not create file `" ++ file ++ "`:\n" ++ e), d)
    | none => match Sink.copy ⟨[], os.writes⟩ r.body with
      | (s, false) => (.error (fetchError url os.full), d.set file s.done)
      | (s, true) => match r.broken with
        | some e => (.error (fetchError url e), d.set file s.done)
        | none => (.ok file, d.set file s.done)

section
variable (c : Cfg)

/-- `load_string__url`, mod.rs:1861-1873. -/
def loadStringUrl (w : Web) : SM Val := do
  let url ← Lib.popText c
  match fetchText w url with
  | .ok t => pure (.resOk (.str t))
  | .error e => pure (.resErr (.str e) [])

/-- `download__url_file`, mod.rs:1791-1800. -/
def download (w : Web) (os : Os) (d : Disk) : SM (Val × Disk) := do
  let file ← Lib.popText c
  let url ← Lib.popText c
  match downloadTo w os d url file with
  | (.ok f, d) => pure (.resOk (.str f), d)
  | (.error e, d) => pure (.resErr (.str e) [], d)

/-- `load__meta_url`, mod.rs:1732-1741, with `load_meta_url`, meta.rs:128-137.  The parser is external as in `loadMeta`. -/
def loadMetaUrl {Syntax : Type} («syntax» : String → Except String Syntax)
    (parse : Syntax → String → Except String (List Text.MetaTok)) (w : Web) (os : Os) (d : Disk) : SM Val := do
  let url ← Lib.popText c
  let rules ← Lib.popText c
  match readFile os d rules with
  | .error (a, e) => pure (.resErr (.str (ioError a rules e)) [])
  | .ok s => match fetchText w url with
    | .error e => pure (.resErr (.str e) [])
    | .ok t => match «syntax» s with
      | .error e => pure (.resErr (.str ("When parsing meta syntax in `" ++ rules ++ "`:\n" ++ e)) [])
      | .ok r => match parse r t with
        | .error e => pure (.resErr (.str ("When parsing data in `" ++ url ++ "`:\n" ++ e)) [])
        | .ok ts => pure (.resOk (.array (ts.map Text.metaVal)))

end

end Dyon.File
