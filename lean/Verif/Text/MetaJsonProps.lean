import Verif.Text.MetaJson
import Verif.Data.Demo

/-!
# C51: the JSON of a syntax tree is well nested
-/

namespace Dyon.Text

open Dyon.Data (Show writeBool)

namespace Spec

/-- A syntax tree. -/
inductive Tree where
  | node (name : String) (kids : List Tree)
  | bool (name : String) (val : Bool)
  | num (name : String) (val : F64)
  | str (name : String) (val : String)

/-- The tokens are those of the trees, at any offsets: a node is closed after its children. -/
inductive Tokens : List MetaTok → List Tree → Prop
  | nil : Tokens [] []
  | bool {o l n b ts ms} : Tokens ts ms → Tokens (⟨o, l, .bool n b⟩ :: ts) (.bool n b :: ms)
  | num {o l n x ts ms} : Tokens ts ms → Tokens (⟨o, l, .f64 n x⟩ :: ts) (.num n x :: ms)
  | str {o l n s ts ms} : Tokens ts ms → Tokens (⟨o, l, .string n s⟩ :: ts) (.str n s :: ms)
  | node {o l o' l' n ks kids ts ms} : Tokens ks kids → Tokens ts ms →
      Tokens (⟨o, l, .startNode n⟩ :: (ks ++ ⟨o', l', .endNode n⟩ :: ts)) (.node n kids :: ms)

variable [Show]

mutual
/-- A tree at some depth: the name, a colon and the value or the children in braces. -/
def item (d : Nat) : Tree → List Char
  | .bool n b => List.replicate d ' ' ++ (Show.string n ++ ':' :: writeBool b)
  | .num n x => List.replicate d ' ' ++ (Show.string n ++ ':' :: Show.f64 x)
  | .str n s => List.replicate d ' ' ++ (Show.string n ++ ':' :: Show.string s)
  | .node n kids => List.replicate d ' ' ++ (Show.string n ++ ":{".toList) ++
      (inner (d + 1) kids ++ ('\n' :: List.replicate d ' ' ++ ['}']))
/-- The children: each on a line of its own, with commas between. -/
def inner (d : Nat) : List Tree → List Char
  | [] => []
  | m :: ms => '\n' :: item d m ++ more d ms
/-- Further trees, with a comma before each. -/
def more (d : Nat) : List Tree → List Char
  | [] => []
  | m :: ms => ',' :: '\n' :: item d m ++ more d ms
end

/-- Trees side by side. -/
def items : List Tree → List Char
  | [] => []
  | m :: ms => item 0 m ++ more 0 ms

end Spec

open Spec

section
variable [Show]

theorem jsonLoop_append (a b s) : jsonLoop (a ++ b) s = (jsonLoop a s).bind (jsonLoop b) := by
  induction a generalizing s with
  | nil => rfl
  | cons d ds ih =>
    rw [List.cons_append, jsonLoop, jsonLoop]
    cases jsonStep s d with
    | none => rfl
    | some s => exact ih s

/-- What is between the text so far and the next tree. -/
def sep (s : Json) : List Char := if !s.first then [',', '\n'] else if s.started then ['\n'] else []

/-- What the trees add to the text. -/
def added (s : Json) : List Tree → List Char
  | [] => []
  | m :: ms => sep s ++ (item s.indent m ++ more s.indent ms)

theorem added_more {out d ms} : added { out := out, indent := d, first := false, started := true } ms = more d ms := by
  cases ms with
  | nil => simp [added, more]
  | cons m ms => simp [added, more, sep]

theorem added_inner {out d ms} : added { out := out, indent := d, first := true, started := true } ms = inner d ms := by
  cases ms with
  | nil => simp [added, inner]
  | cons m ms => simp [added, inner, sep]

/-- After the trees. -/
def after (s : Json) (ms : List Tree) : Json :=
  { out := s.out ++ added s ms, indent := s.indent, first := s.first && ms.isEmpty, started := s.started || !ms.isEmpty }

theorem after_cons (s : Json) (m ms) {x} (hx : x = (Json.mk (s.out ++ (sep s ++ item s.indent m))
        (s.indent) false true)) :
    after x ms = after s (m :: ms) := by
  subst hx
  simp only [after, added_more]
  simp [added]

theorem loop_tokens {ts ms} (h : Tokens ts ms) : ∀ s, jsonLoop (ts.map metaVal) s = some (after s ms) := by
  induction h with
  | nil => intro s; simp [jsonLoop, after, added]
  | @bool o l n b ts ms h ih =>
    intro s
    rw [List.map_cons, jsonLoop]
    have : jsonStep s (metaVal ⟨o, l, .bool n b⟩) = some (Json.mk (s.out ++ (sep s ++ item s.indent (.bool n b)))
        (s.indent) false true) := by
      simp [jsonStep, metaVal, kind, metaText, metaName, metaValue, asBool, Val.ofBool, sep, item]
    rw [this]
    simp only
    rw [ih, after_cons s _ _ rfl]
  | @num o l n b ts ms h ih =>
    intro s
    rw [List.map_cons, jsonLoop]
    have : jsonStep s (metaVal ⟨o, l, .f64 n b⟩) = some (Json.mk (s.out ++ (sep s ++ item s.indent (.num n b)))
        (s.indent) false true) := by
      simp [jsonStep, metaVal, kind, metaText, metaName, metaValue, asF64, Val.ofF64, sep, item]
    rw [this]
    simp only
    rw [ih, after_cons s _ _ rfl]
  | @str o l n b ts ms h ih =>
    intro s
    rw [List.map_cons, jsonLoop]
    have : jsonStep s (metaVal ⟨o, l, .string n b⟩) = some (Json.mk (s.out ++ (sep s ++ item s.indent (.str n b)))
        (s.indent) false true) := by
      simp [jsonStep, metaVal, kind, metaText, metaName, metaValue, asStr, sep, item]
    rw [this]
    simp only
    rw [ih, after_cons s _ _ rfl]
  | @node o l o' l' n ks kids ts ms h1 h2 ih1 ih2 =>
    intro s
    rw [List.map_cons, List.map_append, List.map_cons, jsonLoop]
    have hs : jsonStep s (metaVal ⟨o, l, .startNode n⟩) = some (Json.mk (s.out ++ (sep s ++ (List.replicate s.indent ' ' ++ (Show.string n ++ ":{".toList))))
        (s.indent + 1) true true) := by
      simp [jsonStep, metaVal, kind, metaText, metaName, sep]
    rw [hs]
    simp only
    rw [jsonLoop_append, ih1]
    simp only [Option.bind_some]
    rw [jsonLoop]
    generalize hx : (Json.mk (s.out ++ (sep s ++ (List.replicate s.indent ' ' ++ (Show.string n ++ ":{".toList))))
        (s.indent + 1) true true) = x
    have he : jsonStep (after x kids) (metaVal ⟨o', l', .endNode n⟩) = some (Json.mk (s.out ++ (sep s ++ item s.indent (.node n kids)))
        (s.indent) false true) := by
      subst hx
      simp [jsonStep, metaVal, kind, metaText, metaName, after, added_inner, item]
    rw [he]
    simp only
    rw [ih2, after_cons s _ _ rfl]

/-- The numbers of starts and ends. -/
def count (k : String) (ts : List MetaTok) : Nat := (ts.map fun t => kind (metaVal t)).count (some (some k))

omit [Show] in
theorem kinds_some (ts : List MetaTok) : ∃ ks, kinds (ts.map metaVal) = some ks ∧
    ts.map (fun t => kind (metaVal t)) = ks.map some := by
  induction ts with
  | nil => exact ⟨[], rfl, rfl⟩
  | cons t ts ih =>
    obtain ⟨ks, h1, h2⟩ := ih
    obtain ⟨k, hk⟩ : ∃ k, kind (metaVal t) = some k := by
      obtain ⟨o, l, d⟩ := t
      cases d <;> exact ⟨_, rfl⟩
    refine ⟨k :: ks, ?_, ?_⟩
    · rw [List.map_cons, kinds, hk, h1]
    · rw [List.map_cons, List.map_cons, hk, h2]

omit [Show] in
theorem tokens_balanced {ts ms} (h : Tokens ts ms) : count "start" ts = count "end" ts := by
  induction h with
  | nil => rfl
  | bool _ ih => simpa [count, kind, metaVal] using ih
  | num _ ih => simpa [count, kind, metaVal] using ih
  | str _ ih => simpa [count, kind, metaVal] using ih
  | node _ _ ih1 ih2 =>
    simp [count, kind, metaVal] at ih1 ih2 ⊢
    omega

omit [Show] in
theorem count_some {ks : List (Option String)} {k : String} : (ks.map some).count (some (some k)) = ks.count (some k) := by
  induction ks with
  | nil => rfl
  | cons a ks ih =>
    rw [List.map_cons, List.count_cons, List.count_cons, ih]
    congr 1

/-- **C51.** For the tokens of every forest of syntax trees the text is these trees, well
nested, with commas between, and a final newline. -/
theorem C51_json {ts : List MetaTok} {ms : List Tree} (h : Tokens ts ms) :
    jsonFromMeta (ts.map metaVal) = some (items ms ++ ['\n']) := by
  obtain ⟨ks, h1, h2⟩ := kinds_some ts
  have hb := tokens_balanced h
  rw [count, count, h2, count_some, count_some] at hb
  have h0 : startIndent ks = 0 := by rw [startIndent, hb]; simp
  rw [jsonFromMeta, h1]
  simp only [h0]
  rw [loop_tokens h]
  simp only [after]
  cases ms with
  | nil => rfl
  | cons m ms => simp [added, sep, items]

/-- Finding: tokens that are not nested, with as many ends as starts, crash the export. -/
theorem C51_crash (o l o' l' : F64) (n n' : String) :
    jsonFromMeta ([⟨o, l, .endNode n⟩, ⟨o', l', .startNode n'⟩].map metaVal) = none := by
  simp [jsonFromMeta, kinds, kind, metaVal, startIndent, jsonLoop, jsonStep]

end

/-- The hypothesis of `C51_json`. -/
example : Tokens [⟨0, 0, .startNode "a"⟩, ⟨0, 0, .bool "b" true⟩, ⟨0, 0, .startNode "c"⟩, ⟨0, 0, .endNode "c"⟩,
    ⟨0, 0, .endNode "a"⟩, ⟨0, 0, .string "d" "e"⟩]
    [.node "a" [.bool "b" true, .node "c" []], .str "d" "e"] :=
  .node (ks := [_, _, _]) (.bool (.node (ks := []) .nil .nil)) (.str .nil)

end Dyon.Text
