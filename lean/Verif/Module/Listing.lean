import Verif.Module.Lookup
import Verif.Value
import Mathlib.Data.String.Basic

/-! # The listing of functions (C50)

Models `src/dyon_std/functions.rs` and `Type::description` of `src/ty.rs`. -/

namespace Dyon.Mod

/-! ## Model -/

/-- `Type::description`, ty.rs:68-154. `none` is the panic for a secret of another type
than `bool` and `f64`. -/
def description : Ty → Option String
  | .unreachable => some "unreachable"
  | .void => some "void"
  | .any => some "any"
  | .bool => some "bool"
  | .f64 => some "f64"
  | .vec4 => some "vec4"
  | .mat4 => some "mat4"
  | .str => some "str"
  | .link => some "link"
  | .object => some "{}"
  | .array .any => some "[]"
  | .array t => (description t).map fun s => "[" ++ s ++ "]"
  | .option .any => some "opt"
  | .option t => (description t).map fun s => "opt[" ++ s ++ "]"
  | .result .any => some "res"
  | .result t => (description t).map fun s => "res[" ++ s ++ "]"
  | .secret .bool => some "sec[bool]"
  | .secret .f64 => some "sec[f64]"
  | .secret _ => none
  | .thread .any => some "thr"
  | .thread t => (description t).map fun s => "thr[" ++ s ++ "]"
  | .inTy .any => some "in"
  | .inTy t => (description t).map fun s => "in[" ++ s ++ "]"
  | .adHoc ad t => (description t).map fun s => ad ++ " " ++ s
  | .closure tys ret => do
    let a ← args tys
    let r ← description ret
    return "\\(" ++ a ++ ") -> " ++ r
where
  /-- The loop over the arguments of a closure, ty.rs:143-148. -/
  args : List Ty → Option String
  | [] => some ""
  | [t] => description t
  | t :: u :: ts => do
    let s ← description t
    let r ← args (u :: ts)
    return s ++ ", " ++ r

/-- One argument of a listed function: functions.rs:28-46 and 61-71. The order of keys in a
hash map has no meaning. -/
def argEntry (name : String) (lifetime : Option String) (takes : String) : Val :=
  .object [("name", .str name), ("lifetime", .option (lifetime.map .str)), ("takes", .str takes)]

/-- One listed function, functions.rs:19-26, 48-49. -/
def fnEntry (name returns ty : String) (args : List Val) : Val :=
  .object [("name", .str name), ("returns", .str returns), ("type", .str ty), ("arguments", .array args)]

/-- The lifetime of an argument of an external function, functions.rs:32-40. -/
def ltName : Lt → Option String
  | .default => none
  | .arg ind => some s!"arg{ind}"
  | .ret => some "return"

/-- `list_functions`, functions.rs:18-50, one external function. `tys[i]` panics if there are
more lifetimes than types. -/
def externalEntry (e : External) : Option Val := do
  let returns ← description e.p.ret
  let args ← e.p.lts.zipIdx.mapM fun (lt, i) => do
    let t ← e.p.tys[(i : Nat)]?
    let takes ← description t
    return argEntry s!"arg{i}" (ltName lt) takes
  return fnEntry e.name returns "external" args

/-- `list_functions`, functions.rs:51-75, one loaded function. -/
def loadedEntry (f : Function) : Option Val := do
  let returns ← description f.ret
  let args ← f.args.mapM fun a => do
    let takes ← description a.ty
    return argEntry a.name a.lifetime takes
  return fnEntry f.name returns "loaded" args

/-- The name the entries are sorted by, functions.rs:77-83; the two panics there are for
entries that are not objects with a name. -/
def entryName : Val → String
  | .object kvs => match kvs.lookup "name" with
    | some (.str s) => s
    | _ => ""
  | _ => ""

/-- `list_functions`, functions.rs:7-85: `sort_by` is a stable sort. `none` is a panic. -/
def listFunctions (m : Module) : Option (List Val) := do
  let es ← m.externals.mapM externalEntry
  let fs ← m.functions.mapM loadedEntry
  return (es ++ fs).mergeSort fun a b => decide (entryName a ≤ entryName b)

/-! ## Specification -/

namespace Spec

/-- What an entry says about an argument: its name, lifetime and type. -/
structure ArgInfo where
  name : String
  lifetime : Option String
  takes : Ty

/-- What an entry says about a function. -/
structure FnInfo where
  name : String
  external : Bool
  args : List ArgInfo
  returns : Ty

/-- Is this value an entry with this content? -/
def IsArg (v : Val) (a : ArgInfo) : Prop :=
  ∃ takes, description a.takes = some takes ∧ v = .object
    [("name", .str a.name), ("lifetime", .option (a.lifetime.map .str)), ("takes", .str takes)]

/-- Is this value an entry with this content? -/
def IsEntry (v : Val) (f : FnInfo) : Prop :=
  ∃ returns args, description f.returns = some returns ∧ List.Forall₂ IsArg args f.args ∧ v = .object
    [("name", .str f.name), ("returns", .str returns), ("type", .str (if f.external then "external" else "loaded")),
     ("arguments", .array args)]

/-- What there is to say about a loaded function. -/
def ofLoaded (f : Function) : FnInfo :=
  ⟨f.name, false, f.args.map fun a => ⟨a.name, a.lifetime, a.ty⟩, f.ret⟩

/-- What there is to say about a host function with as many lifetimes as types. -/
def ofExternal (e : External) : FnInfo :=
  ⟨e.name, true, (e.p.lts.zip e.p.tys).zipIdx.map fun x =>
    ⟨s!"arg{x.2}", match x.1.1 with
      | .default => none
      | .arg i => some s!"arg{i}"
      | .ret => some "return", x.1.2⟩, e.p.ret⟩

/-- All functions of a module: those of the host, then the loaded ones. -/
def all (m : Module) : List FnInfo := m.externals.map ofExternal ++ m.functions.map ofLoaded

/-- Types with a description: secrets are of `bool` and `f64` only. -/
inductive Described : Ty → Prop
  | unreachable : Described .unreachable
  | void : Described .void
  | any : Described .any
  | bool : Described .bool
  | f64 : Described .f64
  | vec4 : Described .vec4
  | mat4 : Described .mat4
  | str : Described .str
  | link : Described .link
  | object : Described .object
  | array {t} : Described t → Described (.array t)
  | option {t} : Described t → Described (.option t)
  | result {t} : Described t → Described (.result t)
  | secretBool : Described (.secret .bool)
  | secretF64 : Described (.secret .f64)
  | thread {t} : Described t → Described (.thread t)
  | inTy {t} : Described t → Described (.inTy t)
  | adHoc {n t} : Described t → Described (.adHoc n t)
  | closure {tys r} : (∀ t ∈ tys, Described t) → Described r → Described (.closure tys r)

/-- Modules whose host functions have as many lifetimes as types and whose functions use
types with a description. -/
def Describable (m : Module) : Prop :=
  (∀ e ∈ m.externals, e.p.lts.length = e.p.tys.length ∧ (∀ t ∈ e.p.tys, Described t) ∧ Described e.p.ret) ∧
  (∀ f ∈ m.functions, (∀ a ∈ f.args, Described a.ty) ∧ Described f.ret)

end Spec

open Spec

/-! ## Lemmas -/

theorem description_args {tys : List Ty} (h : ∀ t ∈ tys, (description t).isSome) : (description.args tys).isSome := by
  induction tys with
  | nil => simp [description.args]
  | cons t ts ih =>
    have ht := h t (by simp)
    have ih := ih fun u hu => h u (List.mem_cons_of_mem _ hu)
    cases ts with
    | nil => simpa [description.args] using ht
    | cons u ts =>
      obtain ⟨s, hs⟩ := Option.isSome_iff_exists.1 ht
      obtain ⟨r, hr⟩ := Option.isSome_iff_exists.1 ih
      simp [description.args, hs, hr]

theorem description_isSome {t : Ty} (h : Described t) : (description t).isSome := by
  induction h with
  | array _ ih => 
    obtain ⟨s, hs⟩ := Option.isSome_iff_exists.1 ih
    rename_i t _
    by_cases ha : t = .any
    · rw [ha]; simp [description]
    · rw [description] <;> simp [hs, ha]
  | option _ ih => 
    obtain ⟨s, hs⟩ := Option.isSome_iff_exists.1 ih
    rename_i t _
    by_cases ha : t = .any
    · rw [ha]; simp [description]
    · rw [description] <;> simp [hs, ha]
  | result _ ih => 
    obtain ⟨s, hs⟩ := Option.isSome_iff_exists.1 ih
    rename_i t _
    by_cases ha : t = .any
    · rw [ha]; simp [description]
    · rw [description] <;> simp [hs, ha]
  | thread _ ih => 
    obtain ⟨s, hs⟩ := Option.isSome_iff_exists.1 ih
    rename_i t _
    by_cases ha : t = .any
    · rw [ha]; simp [description]
    · rw [description] <;> simp [hs, ha]
  | inTy _ ih => 
    obtain ⟨s, hs⟩ := Option.isSome_iff_exists.1 ih
    rename_i t _
    by_cases ha : t = .any
    · rw [ha]; simp [description]
    · rw [description] <;> simp [hs, ha]
  | adHoc _ ih => simp_all [description]
  | closure _ _ ih1 ih2 =>
    obtain ⟨s, hs⟩ := Option.isSome_iff_exists.1 (description_args ih1)
    obtain ⟨r, hr⟩ := Option.isSome_iff_exists.1 ih2
    simp [description, hs, hr]
  | _ => simp [description]

theorem description_some {t : Ty} (h : Described t) : ∃ s, description t = some s :=
  Option.isSome_iff_exists.1 (description_isSome h)

/-- `mapM` of a list in which every element gives a value with a property. -/
theorem mapM_forall₂ {α β γ : Type} {f : α → Option β} {g : α → γ} {R : β → γ → Prop} :
    ∀ (l : List α), (∀ x ∈ l, ∃ y, f x = some y ∧ R y (g x)) →
      ∃ ys, l.mapM f = some ys ∧ List.Forall₂ R ys (l.map g) := by
  intro l
  induction l with
  | nil => exact fun _ => ⟨[], rfl, .nil⟩
  | cons x l ih =>
    intro h
    obtain ⟨y, hy, hr⟩ := h x (by simp)
    obtain ⟨ys, hys, hrs⟩ := ih fun z hz => h z (List.mem_cons_of_mem _ hz)
    exact ⟨y :: ys, by simp [hy, hys], .cons hr hrs⟩

theorem loadedEntry_spec {f : Function} (ha : ∀ a ∈ f.args, Described a.ty) (hr : Described f.ret) :
    ∃ v, loadedEntry f = some v ∧ IsEntry v (ofLoaded f) := by
  obtain ⟨r, hr⟩ := description_some hr
  obtain ⟨vs, hvs, hf⟩ := mapM_forall₂ (R := IsArg) (g := fun a : Param => (⟨a.name, a.lifetime, a.ty⟩ : ArgInfo))
    (f := fun a : Param => do
      let takes ← description a.ty
      return argEntry a.name a.lifetime takes) f.args (by
        intro a h
        obtain ⟨s, hs⟩ := description_some (ha a h)
        exact ⟨argEntry a.name a.lifetime s, by simp [hs], s, hs, rfl⟩)
  refine ⟨fnEntry f.name r "loaded" vs, ?_, r, vs, hr, hf, rfl⟩
  simp only [loadedEntry, hr, Option.bind_eq_bind, Option.bind_some] at hvs ⊢
  rw [hvs]
  rfl

theorem zipIdx_zip {α β : Type} : ∀ (l : List α) (r : List β) k, l.length = r.length →
    (l.zip r).zipIdx k = (l.zipIdx k).zipWith (fun x y => ((x.1, y), x.2)) r
  | [], [], _, _ => rfl
  | a :: l, b :: r, k, h => by
    simp only [List.zip_cons_cons, List.zipIdx_cons, List.zipWith_cons_cons]
    rw [zipIdx_zip l r (k + 1) (by simpa using h)]
  | [], _ :: _, _, h => by simp at h
  | _ :: _, [], _, h => by simp at h

theorem externalEntry_spec {e : External} (hl : e.p.lts.length = e.p.tys.length) (ha : ∀ t ∈ e.p.tys, Described t)
    (hr : Described e.p.ret) : ∃ v, externalEntry e = some v ∧ IsEntry v (ofExternal e) := by
  obtain ⟨r, hr⟩ := description_some hr
  have key := mapM_forall₂ (R := IsArg) (g := fun x : Lt × Nat =>
      (⟨s!"arg{x.2}", ltName x.1, (e.p.tys[(x.2 : Nat)]?).getD .void⟩ : ArgInfo))
    (f := fun x : Lt × Nat => do
      let t ← e.p.tys[(x.2 : Nat)]?
      let takes ← description t
      return argEntry s!"arg{x.2}" (ltName x.1) takes) e.p.lts.zipIdx (by
        intro x h
        have hx : x.2 < e.p.tys.length := by
          obtain ⟨lt, i⟩ := x
          have := List.mem_zipIdx' h
          simp only at *
          omega
        obtain ⟨s, hs⟩ := description_some (ha _ (List.getElem_mem hx))
        refine ⟨argEntry s!"arg{x.2}" (ltName x.1) s, by simp [hx, hs], s, ?_, rfl⟩
        simpa [hx] using hs)
  obtain ⟨vs, hvs, hf⟩ := key
  refine ⟨fnEntry e.name r "external" vs, ?_, r, vs, hr, ?_, rfl⟩
  · simp only [externalEntry, hr, Option.bind_eq_bind, Option.bind_some] at hvs ⊢
    rw [hvs]
    rfl
  · convert hf using 1
    simp only [ofExternal]
    apply List.ext_getElem?
    intro i
    simp only [List.getElem?_map, List.getElem?_zipIdx, Nat.zero_add, List.getElem?_zip_eq_some]
    cases h1 : e.p.lts[i]? with
    | none => simp [h1, List.zip, List.getElem?_zipWith]
    | some lt =>
      have : i < e.p.tys.length := by rw [← hl]; exact (List.getElem?_eq_some_iff.1 h1).1
      simp [List.zip, List.getElem?_zipWith, h1, this]
      cases lt <;> rfl

theorem entryName_of {v : Val} {f : FnInfo} (h : IsEntry v f) : entryName v = f.name := by
  obtain ⟨r, args, _, _, rfl⟩ := h
  simp [entryName, List.lookup]

/-! ## The theorems -/

/-- **C50.** For every module with describable types, the listing exists, and it is the
list of the entries of all host and loaded functions, each exactly once, put in the
order of the names; functions of the same name keep the order in which they were
added. -/
theorem C50_listing {m : Module} (h : Describable m) :
    ∃ vs es, listFunctions m = some vs ∧ List.Forall₂ IsEntry es (all m) ∧ vs.Perm es ∧
      vs.Pairwise (fun a b => entryName a ≤ entryName b) ∧
      ∀ name, vs.filter (fun v => entryName v == name) = es.filter (fun v => entryName v == name) := by
  obtain ⟨a, ha, hfa⟩ := mapM_forall₂ (f := externalEntry) (g := ofExternal) (R := IsEntry) m.externals
    (fun e he => externalEntry_spec (h.1 e he).1 (h.1 e he).2.1 (h.1 e he).2.2)
  obtain ⟨b, hb, hfb⟩ := mapM_forall₂ (f := loadedEntry) (g := ofLoaded) (R := IsEntry) m.functions
    (fun f hf => loadedEntry_spec (h.2 f hf).1 (h.2 f hf).2)
  have trans : ∀ a b c : Val, decide (entryName a ≤ entryName b) = true → decide (entryName b ≤ entryName c) = true →
      decide (entryName a ≤ entryName c) = true := by
    intro a b c h1 h2
    simp only [decide_eq_true_eq] at *
    exact le_trans h1 h2
  have total : ∀ a b : Val, (decide (entryName a ≤ entryName b) || decide (entryName b ≤ entryName a)) = true := by
    intro a b
    simp only [Bool.or_eq_true, decide_eq_true_eq]
    exact le_total _ _
  have perm := List.mergeSort_perm (a ++ b) (fun a b => decide (entryName a ≤ entryName b))
  refine ⟨_, a ++ b, by simp [listFunctions, ha, hb], List.rel_append hfa hfb, perm, ?_, ?_⟩
  · have := List.pairwise_mergeSort trans total (a ++ b)
    exact this.imp fun h => by simpa using h
  · intro name
    have hsub : ((a ++ b).filter fun v => entryName v == name).Sublist
        ((a ++ b).mergeSort fun a b => decide (entryName a ≤ entryName b)) := by
      refine List.sublist_mergeSort trans total ?_ List.filter_sublist
      rw [List.pairwise_filter]
      refine List.pairwise_of_forall fun x y hx hy => ?_
      simp only [beq_iff_eq] at hx hy
      simp [hx, hy]
    have h2 := hsub.filter (fun v => entryName v == name)
    rw [List.filter_filter] at h2
    simp only [Bool.and_self] at h2
    exact (h2.eq_of_length (perm.filter _).length_eq.symm).symm

/-- **C50**, what is listed: there is an entry for a name exactly if the module has a
function of that name, and there are as many as the module has functions of that
name. -/
theorem C50_names {m : Module} (h : Describable m) {vs : List Val} (hv : listFunctions m = some vs) (name : String) :
    (vs.filter fun v => entryName v == name).length =
      (m.externals.filter fun e => e.name == name).length + (m.functions.filter fun f => f.name == name).length := by
  obtain ⟨vs', es, h1, h2, h3, _, h5⟩ := C50_listing h
  rw [hv] at h1
  cases h1
  rw [h5]
  have key : ∀ (es : List Val) (fs : List FnInfo), List.Forall₂ IsEntry es fs →
      (es.filter fun v => entryName v == name).length = (fs.filter fun f => f.name == name).length := by
    intro es fs h
    induction h with
    | nil => rfl
    | cons hx _ ih => simp only [List.filter_cons, entryName_of hx]; split <;> simp [ih]
  rw [key es _ h2, all, List.filter_append, List.length_append, List.filter_map, List.filter_map, List.length_map,
    List.length_map]
  rfl

/-- Every function that a call can find is listed. -/
theorem C50_found {m : Module} (h : Describable m) {vs : List Val} (hv : listFunctions m = some vs) {name : String}
    {i : Nat} (hf : m.find name i ≠ .none) : ∃ v ∈ vs, entryName v = name := by
  have hlen := C50_names h hv name
  have : 0 < (vs.filter fun v => entryName v == name).length := by
    rw [hlen]
    unfold Module.find at hf
    cases h1 : lastIdx (fun f => f.name == name) m.functions with
    | some k =>
      obtain ⟨f, hk, hp⟩ := lastIdx_some h1
      have : f ∈ m.functions.filter fun f => f.name == name := List.mem_filter.2 ⟨List.mem_of_getElem? hk, hp⟩
      have := List.length_pos_of_mem this
      omega
    | none =>
      rw [h1] at hf
      simp only at hf
      cases h2 : m.externals.reverse.find? (fun e => e.name == name) with
      | none => rw [h2] at hf; exact absurd rfl hf
      | some e =>
        have hp := List.find?_some h2
        have : e ∈ m.externals.filter fun e => e.name == name :=
          List.mem_filter.2 ⟨List.mem_reverse.1 (List.mem_of_find?_eq_some h2), hp⟩
        have := List.length_pos_of_mem this
        omega
  obtain ⟨v, hv⟩ := List.exists_mem_of_length_pos this
  exact ⟨v, (List.mem_filter.1 hv).1, by simpa using (List.mem_filter.1 hv).2⟩

/-- The hypothesis is met. -/
theorem Demo.describable : Describable (Demo.host.convert Demo.uses Demo.file) := by
  refine ⟨?_, ?_⟩
  · intro e he
    simp only [Module.convert, Demo.host, List.mem_cons, List.not_mem_nil, or_false] at he
    rcases he with rfl | rfl | rfl <;>
      refine ⟨rfl, fun t ht => ?_, .any⟩ <;>
      rw [List.eq_of_mem_replicate (show t ∈ List.replicate _ Ty.any from ht)] <;> exact .any
  · intro f hf
    obtain ⟨i, hi⟩ := List.mem_iff_getElem?.1 hf
    rw [convert_get] at hi
    cases hg : (Demo.host.functions ++ Demo.file)[i]? with
    | none => rw [hg] at hi; cases hi
    | some g =>
      rw [hg, Option.map_some, Option.some.injEq] at hi
      have hd := sameDecl_link { Demo.host with functions := Demo.host.functions ++ Demo.file }
        (aliasesOfModule Demo.uses Demo.host) i g
      have hm := List.mem_of_getElem? hg
      simp only [Demo.host, Demo.file, List.cons_append, List.nil_append, List.mem_cons, List.not_mem_nil, or_false] at hm
      obtain ⟨-, -, -, hargs, hret⟩ := hd
      rw [← hi, ← hargs, ← hret]
      rcases hm with rfl | rfl <;> refine ⟨fun a ha => ?_, .any⟩ <;>
        simp only [Demo.fn, List.mem_map] at ha <;> obtain ⟨_, _, rfl⟩ := ha <;> exact .any

/-- There are two functions `h`, one of the host and one loaded, and both are listed. -/
example {vs : List Val} (h : listFunctions (Demo.host.convert Demo.uses Demo.file) = some vs) :
    (vs.filter fun v => entryName v == "h").length = 2 := C50_names Demo.describable h "h"

/-- **Finding (C50).** One host function declared with a secret of another type than `bool`
and `f64` makes the listing of all functions crash. -/
theorem C50_secret (m : Module) (e : External) (he : e ∈ m.externals) {t : Ty} (hr : e.p.ret = .secret t)
    (h1 : t ≠ .bool) (h2 : t ≠ .f64) : listFunctions m = none := by
  have h0 : externalEntry e = none := by
    have : description (.secret t) = none := by cases t <;> simp_all [description]
    simp [externalEntry, hr, this]
  have : m.externals.mapM externalEntry = none := by
    clear hr
    generalize m.externals = l at he
    induction l with
    | nil => simp at he
    | cons x l ih =>
      rw [List.mapM_cons]
      rcases List.mem_cons.1 he with rfl | he
      · simp [h0]
      · cases externalEntry x <;> simp [ih he]
  simp [listFunctions, this]

end Dyon.Mod
