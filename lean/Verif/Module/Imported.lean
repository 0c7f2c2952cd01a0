import Verif.Module.Import

/-!
# What imported names stand for (C76)

`use a::b as x` and `use a::b::{f, g as h} as x`, `UseLookup::from_uses_module` in
`src/ast/mod.rs:96-169`.
-/

namespace Dyon.Mod

namespace Spec

/-- The functions an import is about, in the order in which they were put into the module: their
namespace and name. -/
abbrev Names := List (List String × String)

/-- The first function of a namespace with a property of its name. -/
def first (fs : Names) (ns : List String) (p : String → Bool) : Option Nat :=
  fs.findIdx? fun f => decide (f.1 = ns) && p f.2

/-- The function of a namespace that a name stands for: of the host if it has one, or else of the
program; of several the first.  `ph` says which names of functions of the host are meant, `pl` which
of functions of the program. -/
def oneOf (hosts fns : Names) (ns : List String) (ph pl : String → Bool) : Option FnAlias :=
  match first hosts ns ph with
  | some i => some (.external i)
  | none => (first fns ns pl).map .loaded

/-- Whether `use ns::{orig as new}` makes the function `f` of a program known as `n`.  The functions with
`mut` arguments come along under the new name. -/
def renames (use : String × Option String) (n f : String) : Bool :=
  if f = use.1 then n = use.2.getD use.1
  else (use.1 ++ "(").toList.isPrefixOf f.toList &&
    n = use.2.getD use.1 ++ String.ofList (f.toList.drop use.1.length)

/-- The same for functions of the host, where the functions with `mut` arguments keep their
name. -/
def renamesHost (use : String × Option String) (n f : String) : Bool :=
  if f = use.1 then n = use.2.getD use.1
  else (use.1 ++ "(").toList.isPrefixOf f.toList && n = f

/-- The namespaces and functions listed behind an alias, in the order of the text. -/
def listed (uses : List UseImport) (al : String) : List (List String × String × Option String) :=
  (uses.filter fun u => u.via = al).flatMap fun u => u.fns.map fun f => (u.names, f)

/-- The namespaces that are imported as a whole behind an alias, in the order of the text. -/
def globs (uses : List UseImport) (al : String) : List (List String) :=
  (uses.filter fun u => u.via = al && u.fns.isEmpty).map (·.names)

/-- What `al::n` stands for behind the imports `uses`: the last listed function that is known as
`n`, or else the function `n` of the last namespace that is imported as a whole and has one. -/
def imported (hosts fns : Names) (uses : List UseImport) (al n : String) : Option FnAlias :=
  ((listed uses al).reverse.findSome? fun u => oneOf hosts fns u.1 (renamesHost u.2 n) (renames u.2 n)).or
    ((globs uses al).reverse.findSome? fun ns => oneOf hosts fns ns (· = n) (· = n))

end Spec

/-- The functions of a module with their namespaces. -/
def Module.spec (m : Module) : Spec.Names := m.functions.map fun f => (f.ns, f.name)

/-- The functions of the host with their namespaces. -/
def Module.hostSpec (m : Module) : Spec.Names := m.externals.map fun f => (f.ns, f.name)

/-! ## Lemmas -/

/-- A map in which every function of a list with a property is stored under the same name. -/
theorem foldl_map (f : Map FnAlias → Named → Map FnAlias) (n : String) (p : Named → Bool)
    (hf : ∀ m x, f m x n = if p x then some x.2.2 else m n) (l : List Named) (m : Map FnAlias) :
    l.foldl f m n = ((l.reverse.find? p).map (·.2.2)).or (m n) := by
  induction l generalizing m with
  | nil => simp
  | cons x l ih =>
    rw [List.foldl_cons, ih, hf, List.reverse_cons, List.find?_append]
    cases h : l.reverse.find? p with
    | some y => simp
    | none => by_cases hx : p x <;> simp [hx]

theorem find_zipIdx {α} (g : α → List String × String) (c : Nat → FnAlias) (q : List String → String → Bool) :
    ∀ (l : List α) (k : Nat),
    ((l.zipIdx k).map fun (f, i) => ((g f).1, (g f).2, c i)).find? (fun x => q x.1 x.2.1) =
      ((l.findIdx? fun f => q (g f).1 (g f).2).bind fun i => l[i]?.map fun f => ((g f).1, (g f).2, c (i + k)))
  | [], _ => rfl
  | x :: l, k => by
    rw [List.zipIdx_cons, List.map_cons, List.find?_cons, List.findIdx?_cons]
    by_cases h : q (g x).1 (g x).2
    · simp [h]
    · simp only [h, Bool.false_eq_true, if_false, find_zipIdx g c q l (k + 1)]
      cases l.findIdx? fun f => q (g f).1 (g f).2 with
      | none => rfl
      | some i => simp [Nat.add_assoc, Nat.add_comm 1 k]

theorem find_names {α} (g : α → List String × String) (c : Nat → FnAlias) (q : List String → String → Bool) (l : List α) :
    (((l.zipIdx.map fun (f, i) => ((g f).1, (g f).2, c i)).find? fun x => q x.1 x.2.1).map (·.2.2)) =
      ((l.map g).findIdx? fun f => q f.1 f.2).map c := by
  rw [find_zipIdx g c q l 0, List.findIdx?_map]
  cases h : l.findIdx? fun f => q (g f).1 (g f).2 with
  | none => 
    have : List.findIdx? ((fun f => q f.1 f.2) ∘ g) l = none := h
    rw [this]; rfl
  | some i =>
    have h' : List.findIdx? ((fun f => q f.1 f.2) ∘ g) l = some i := h
    rw [h']
    obtain ⟨hi, _⟩ := List.findIdx?_eq_some_iff_getElem.1 h
    simp [hi]

theorem find_loaded (m : Module) (q : List String → String → Bool) :
    (m.loadedNames.reverse.find? fun x => q x.1 x.2.1).map (·.2.2) =
      (m.spec.findIdx? fun f => q f.1 f.2).map .loaded := by
  rw [Module.loadedNames, List.reverse_reverse]
  exact find_names (fun f => (f.ns, f.name)) .loaded q m.functions

theorem find_external (m : Module) (q : List String → String → Bool) :
    (m.externalNames.reverse.find? fun x => q x.1 x.2.1).map (·.2.2) =
      (m.hostSpec.findIdx? fun f => q f.1 f.2).map .external := by
  rw [Module.externalNames, List.reverse_reverse]
  exact find_names (fun f => (f.ns, f.name)) .external q m.externals

theorem globOne_get (ns : List String) (n : String) (m : Map FnAlias) (x : Named) :
    globOne ns m x n = if (decide (x.1 = ns) && decide (x.2.1 = n)) then some x.2.2 else m n := by
  unfold globOne Map.insert
  by_cases h : x.1 = ns
  · by_cases h2 : x.2.1 = n
    · simp [h, h2]
    · simp [h, h2, Ne.symm h2]
  · simp [h]

theorem pickOne_get (keep : Bool) (ns : List String) (use : String × Option String) (n : String) (m : Map FnAlias) (x : Named) :
    pickOne keep ns use m x n =
      if (decide (x.1 = ns) && (if keep then Spec.renamesHost use n x.2.1 else Spec.renames use n x.2.1)) then some x.2.2
      else m n := by
  unfold pickOne Spec.renamesHost Spec.renames
  by_cases h : x.1 = ns
  · by_cases h2 : x.2.1 = use.1
    · by_cases h4 : n = use.2.getD use.1
      · cases keep <;> simp [h, h2, h4, Map.insert]
      · cases keep <;> simp [h, h2, h4, Map.insert]
    · simp only [h, h2, ne_eq, not_true, if_false]
      generalize (use.1 ++ "(").toList.isPrefixOf x.2.1.toList = b
      have hl : use.1.toList.length = use.1.length := String.length_toList
      rw [hl]
      cases b
      · cases keep <;> simp
      · cases keep
        · by_cases h4 : n = use.2.getD use.1 ++ String.ofList (x.2.1.toList.drop use.1.length) <;> simp [h4, Map.insert]
        · by_cases h4 : n = x.2.1 <;> simp [h4, Map.insert]
  · simp [h]

theorem glob_get (m : Module) (ns : List String) (n : String) (e : Map FnAlias) :
    m.externalNames.foldl (globOne ns) (m.loadedNames.foldl (globOne ns) e) n =
      (Spec.oneOf m.hostSpec m.spec ns (· = n) (· = n)).or (e n) := by
  rw [foldl_map _ n _ (globOne_get ns n), foldl_map _ n _ (globOne_get ns n),
    find_external m fun a b => decide (a = ns) && decide (b = n), find_loaded m fun a b => decide (a = ns) && decide (b = n)]
  unfold Spec.oneOf Spec.first
  cases m.hostSpec.findIdx? fun f => decide (f.1 = ns) && decide (f.2 = n) <;> rfl

theorem pick_get (m : Module) (ns : List String) (use : String × Option String) (n : String) (e : Map FnAlias) :
    m.externalNames.foldl (pickOne true ns use) (m.loadedNames.foldl (pickOne false ns use) e) n =
      (Spec.oneOf m.hostSpec m.spec ns (Spec.renamesHost use n) (Spec.renames use n)).or (e n) := by
  rw [foldl_map _ n _ (pickOne_get true ns use n), foldl_map _ n _ (pickOne_get false ns use n)]
  simp only [if_true, Bool.false_eq_true, if_false]
  rw [find_external m fun a b => decide (a = ns) && Spec.renamesHost use n b,
    find_loaded m fun a b => decide (a = ns) && Spec.renames use n b]
  unfold Spec.oneOf Spec.first
  cases m.hostSpec.findIdx? fun f => decide (f.1 = ns) && Spec.renamesHost use n f.2 <;> rfl

theorem picks_get (m : Module) (ns : List String) (n : String) (us : List (String × Option String)) (e : Map FnAlias) :
    us.foldl (fun fns use => m.externalNames.foldl (pickOne true ns use) (m.loadedNames.foldl (pickOne false ns use) fns)) e n =
      (us.reverse.findSome? fun use => Spec.oneOf m.hostSpec m.spec ns (Spec.renamesHost use n) (Spec.renames use n)).or (e n) := by
  induction us generalizing e with
  | nil => simp
  | cons u us ih =>
    rw [List.foldl_cons, ih, pick_get, List.reverse_cons, List.findSome?_append, Option.or_assoc]
    simp

theorem get_entry (a : Aliases) (al n : String) : a.get al n = a.entry al n := by
  unfold Aliases.get Aliases.entry
  cases a al <;> rfl

theorem entry_insert (a : Aliases) (al k : String) (m : Map FnAlias) :
    Aliases.entry (Map.insert a k m) al = if al = k then m else a.entry al := by
  unfold Aliases.entry Map.insert
  by_cases h : al = k <;> simp [h]

theorem globs_get (m : Module) (al n : String) (uses : List UseImport) (a : Aliases) :
    (uses.foldl (globModule m) a).entry al n =
      ((Spec.globs uses al).reverse.findSome? fun ns => Spec.oneOf m.hostSpec m.spec ns (· = n) (· = n)).or (a.entry al n) := by
  induction uses generalizing a with
  | nil => simp [Spec.globs]
  | cons u us ih =>
    rw [List.foldl_cons, ih]
    have hg : (globModule m a u).entry al n = if (decide (u.via = al) && u.fns.isEmpty) then
        (Spec.oneOf m.hostSpec m.spec u.names (· = n) (· = n)).or (a.entry al n) else a.entry al n := by
      unfold globModule
      by_cases h : u.fns.isEmpty
      · simp only [h, if_true, Bool.and_true, decide_eq_true_eq, entry_insert]
        by_cases h2 : al = u.via
        · subst h2; simp only [if_true]; exact glob_get ..
        · simp [h2, Ne.symm h2]
      · simp [h]
    rw [hg]
    by_cases h : u.via = al ∧ u.fns.isEmpty = true
    · obtain ⟨h1, h2⟩ := h
      subst h1
      have : Spec.globs (u :: us) u.via = u.names :: Spec.globs us u.via := by simp [Spec.globs, h2]
      rw [this, List.reverse_cons, List.findSome?_append, Option.or_assoc]
      simp [h2]
    · have hb : (decide (u.via = al) && u.fns.isEmpty) = false := by
        by_cases h1 : u.via = al
        · by_cases h2 : u.fns.isEmpty = true
          · exact absurd ⟨h1, h2⟩ h
          · simp [h2]
        · simp [h1]
      have : Spec.globs (u :: us) al = Spec.globs us al := by simp [Spec.globs, hb]
      rw [this, hb]
      simp

theorem listed_get (m : Module) (al n : String) (uses : List UseImport) (a : Aliases) :
    (uses.foldl (pickModule m) a).entry al n =
      ((Spec.listed uses al).reverse.findSome? fun u =>
        Spec.oneOf m.hostSpec m.spec u.1 (Spec.renamesHost u.2 n) (Spec.renames u.2 n)).or (a.entry al n) := by
  induction uses generalizing a with
  | nil => simp [Spec.listed]
  | cons u us ih =>
    rw [List.foldl_cons, ih]
    have hg : (pickModule m a u).entry al n = if u.via = al then
        ((u.fns.reverse.findSome? fun use =>
          Spec.oneOf m.hostSpec m.spec u.names (Spec.renamesHost use n) (Spec.renames use n)).or (a.entry al n))
        else a.entry al n := by
      unfold pickModule
      by_cases h : u.fns.isEmpty
      · have : u.fns = [] := by simpa using h
        simp [this]
      · simp only [h, Bool.false_eq_true, if_false, entry_insert]
        by_cases h2 : al = u.via
        · subst h2; simp only [if_true]; exact picks_get ..
        · simp [h2, Ne.symm h2]
    rw [hg]
    by_cases h1 : u.via = al
    · subst h1
      have : Spec.listed (u :: us) u.via = u.fns.map (fun f => (u.names, f)) ++ Spec.listed us u.via := by simp [Spec.listed]
      rw [this, List.reverse_append, List.findSome?_append, Option.or_assoc, ← List.map_reverse, List.findSome?_map]
      simp [Function.comp_def]
    · have : Spec.listed (u :: us) al = Spec.listed us al := by simp [Spec.listed, h1]
      rw [this]
      simp [h1]

/-- **C76.** Behind the imports of a file, `al::n` stands for what the specification says, in every module. -/
theorem C76_imported (uses : List UseImport) (m : Module) (al n : String) :
    (aliasesOfModule uses m).get al n = Spec.imported m.hostSpec m.spec uses al n := by
  rw [get_entry, aliasesOfModule, listed_get, globs_get, Spec.imported]
  simp [Aliases.entry, Map.empty]

end Dyon.Mod
