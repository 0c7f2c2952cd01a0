import Verif.Front.ConvertProps
import Verif.Module.Imported

/-!
# Whole files: namespace, imports, functions (C76)

`ns a::b`, `use a::b::{f as g} as c` and the functions behind them.  `convert` in `src/ast/mod.rs`
without the lookup of names, which is in `Front/Load.lean`.
-/

namespace Dyon.Front

/-! ## The reports of the parser -/

/-- The labels of strings in `ns` and `use`, rules 0 and 2 of assets/syntax.txt. -/
inductive HS where
  | name | useFn | useFnAlias | alias
deriving DecidableEq, Repr

/-- What the parser reports at the top of a file: rule `document` of assets/syntax.txt. -/
inductive Top where
  /-- `ns`, rule 0 -/
  | ns (kids : List (HS × String))
  /-- `uses`, rule 1, and what is in each `use` -/
  | uses (kids : List (List (HS × String)))
  /-- a function -/
  | tree (c : Cst)

/-! ## The conversion -/

/-- `Namespace::from_meta_data`, ast/mod.rs:234-263. -/
def readNs (names : List String) : List (HS × String) → Cv (List String)
  | [] => .ok names
  | (.name, s) :: r => readNs (names ++ [s]) r
  | _ => .error .err

/-- `UseImport::from_meta_data`, ast/mod.rs:317-360. -/
def readUse (names : List String) (fns : List (String × Option String)) (via : Option String) :
    List (HS × String) → Cv Mod.UseImport
  | [] => do .ok ⟨names, fns, ← want via⟩
  | (.name, s) :: r => readUse (names ++ [s]) fns via r
  | (.useFn, s) :: (.useFnAlias, a) :: r => readUse names (fns ++ [(s, some a)]) via r
  | (.useFn, s) :: r => readUse names (fns ++ [(s, none)]) via r
  | (.alias, s) :: r => readUse names fns (some s) r
  | (.useFnAlias, _) :: _ => .error .err

/-- `Uses::from_meta_data`, ast/mod.rs:273-304. -/
def readUses : List (List (HS × String)) → Cv (List Mod.UseImport)
  | [] => .ok []
  | u :: r => do .ok ((← readUse [] [] none u) :: (← readUses r))

/-- A file after its conversion: the namespace, the imports, the functions. -/
structure Converted where
  ns : List String
  uses : List Mod.UseImport
  fns : List Func

/-- The trees of the functions; a second `ns` or `uses` is no function, ast/mod.rs:50-52. -/
def fnTrees : List Top → Cv (List Cst)
  | [] => .ok []
  | .tree c :: r => do .ok (c :: (← fnTrees r))
  | _ => .error .err

section
variable [FloatOps] [Data.Lex]

/-- The imports and functions of a file, ast/mod.rs:37-54. -/
def readRest (file : String) (ns : List String) : List Top → Cv Converted
  | .uses us :: r => do
    let us ← readUses us
    .ok ⟨ns, us, ← toFns file (← fnTrees r)⟩
  | r => do .ok ⟨ns, [], ← toFns file (← fnTrees r)⟩

/-- `convert` up to line 54, ast/mod.rs:20-54. -/
def toFile (file : String) : List Top → Cv Converted
  | .ns kids :: r => do readRest file (← readNs [] kids) r
  | r => readRest file [] r

end

/-! ## The text -/

/-- The text of a file. -/
structure FileSrc where
  /-- `ns a::b` -/
  ns : Option (List String) := none
  /-- `use a::b as c` and `use a::b::{f, g as h} as c`; `none` if there is no import -/
  uses : Option (List Mod.UseImport) := none
  fns : List FnSrc

/-- Rule 2: `f` or `f as g`. -/
def useFnTree (f : String × Option String) : List (HS × String) :=
  (.useFn, f.1) :: (match f.2 with | some a => [(.useFnAlias, a)] | none => [])

/-- Rule 2. -/
def useTree (u : Mod.UseImport) : List (HS × String) :=
  u.names.map (HS.name, ·) ++ u.fns.flatMap useFnTree ++ [(.alias, u.via)]

/-- Rule `document`. -/
def FileSrc.tree (f : FileSrc) : List Top :=
  (match f.ns with | some ns => [Top.ns (ns.map (HS.name, ·))] | none => []) ++
  (match f.uses with | some us => [Top.uses (us.map useTree)] | none => []) ++
  f.fns.map fun g => Top.tree g.tree

/-! ## Lemmas -/

theorem readNs_tree (ns acc : List String) : readNs acc (ns.map (HS.name, ·)) = .ok (acc ++ ns) := by
  induction ns generalizing acc with
  | nil => simp [readNs]
  | cons a ns ih => simp [readNs, ih]

theorem readUse_names (ns acc : List String) (fns via r) :
    readUse acc fns via (ns.map (HS.name, ·) ++ r) = readUse (acc ++ ns) fns via r := by
  induction ns generalizing acc with
  | nil => simp
  | cons a ns ih => simp [readUse, ih]

theorem readUse_fns (names : List String) (fs acc : List (String × Option String)) (al : String) :
    readUse names acc none (fs.flatMap useFnTree ++ [(.alias, al)]) = .ok ⟨names, acc ++ fs, al⟩ := by
  induction fs generalizing acc with
  | nil => simp [readUse, want]
  | cons f fs ih =>
    obtain ⟨n, a⟩ := f
    cases a with
    | some a => simp [useFnTree, readUse, ih]
    | none =>
      simp only [List.flatMap_cons, useFnTree, List.cons_append, List.nil_append]
      cases fs with
      | nil => simp [readUse, want]
      | cons g fs =>
        obtain ⟨n', a'⟩ := g
        have := ih (acc ++ [(n, none)])
        simp only [List.flatMap_cons, useFnTree, List.cons_append, List.append_assoc] at this ⊢
        rw [readUse]
        · simpa using this
        · intro a r h; simp at h

theorem readUses_tree (us : List Mod.UseImport) : readUses (us.map useTree) = .ok us := by
  induction us with
  | nil => rfl
  | cons u us ih =>
    rw [List.map_cons, readUses, ih, useTree, List.append_assoc, readUse_names, readUse_fns]
    rfl

theorem fnTrees_tree (fs : List FnSrc) : fnTrees (fs.map fun g => Top.tree g.tree) = .ok (fs.map FnSrc.tree) := by
  induction fs with
  | nil => rfl
  | cons f fs ih => rw [List.map_cons, fnTrees, ih]; rfl

section
variable [FloatOps] [Data.Lex]

theorem readRest_fns (file ns) (fs : List FnSrc) : readRest file ns (fs.map fun g => Top.tree g.tree) =
    match fs.mapM (Spec.fn file) with
    | some gs => .ok ⟨ns, [], gs⟩
    | none => .error .err := by
  have : readRest file ns (fs.map fun g => Top.tree g.tree) =
      (do .ok ⟨ns, [], ← toFns file (← fnTrees (fs.map fun g => Top.tree g.tree))⟩) := by
    cases fs <;> rfl
  rw [this, fnTrees_tree]
  change (toFns file (fs.map FnSrc.tree) >>= _) = _
  rw [C68_functions]
  cases fs.mapM (Spec.fn file) <;> rfl

/-- **C76, C68.** The conversion of a file gives the namespace, the imports and the functions that the text says. -/
theorem C76_file (file : String) (f : FileSrc) :
    toFile file f.tree = match f.fns.mapM (Spec.fn file) with
      | some gs => .ok ⟨f.ns.getD [], f.uses.getD [], gs⟩
      | none => .error .err := by
  have key : ∀ ns, readRest file ns ((match f.uses with | some us => [Top.uses (us.map useTree)] | none => []) ++
      f.fns.map fun g => Top.tree g.tree) = match f.fns.mapM (Spec.fn file) with
      | some gs => .ok ⟨ns, f.uses.getD [], gs⟩
      | none => .error .err := by
    intro ns
    cases f.uses with
    | none => exact readRest_fns file ns f.fns
    | some us =>
      simp only [List.cons_append, List.nil_append, readRest, readUses_tree, fnTrees_tree]
      change (toFns file (f.fns.map FnSrc.tree) >>= _) = _
      rw [C68_functions]
      cases f.fns.mapM (Spec.fn file) <;> rfl
  unfold FileSrc.tree
  cases hn : f.ns with
  | none =>
    simp only [List.nil_append]
    have : ∀ r : List Top, (∀ k t, r ≠ .ns k :: t) → toFile file r = readRest file [] r := by
      intro r hr
      cases r with
      | nil => rfl
      | cons a t => cases a with
        | ns k => exact absurd rfl (hr k t)
        | uses _ => rfl
        | tree _ => rfl
    rw [this, key]
    · rfl
    · intro k t h
      cases hu : f.uses <;> cases hf : f.fns <;> simp [hu, hf] at h
  | some ns =>
    rw [List.append_assoc, List.cons_append, List.nil_append, toFile, readNs_tree]
    exact key _

end

end Dyon.Front
