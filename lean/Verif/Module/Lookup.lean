import Verif.Module.Names
import Mathlib.Data.List.Induction
import Mathlib.Data.List.Nodup

/-! # The checker, the loader and the running program find the same function (C32) -/

namespace Dyon.Mod

/-! ## Positions -/

theorem lastIdx_nil {α} (p : α → Bool) : lastIdx p [] = none := rfl

theorem lastIdx_snoc {α} (p : α → Bool) (l : List α) (x : α) :
    lastIdx p (l ++ [x]) = if p x then some l.length else lastIdx p l := by
  unfold lastIdx
  rw [List.zipIdx_append, List.reverse_append]
  by_cases h : p x <;> simp [h]

theorem lastIdx_append {α} (p : α → Bool) (l r : List α) :
    lastIdx p (l ++ r) = match lastIdx p r with
      | some i => some (l.length + i)
      | none => lastIdx p l := by
  induction r using List.reverseRecOn with
  | nil => simp [lastIdx_nil]
  | append_singleton r x ih =>
    rw [← List.append_assoc, lastIdx_snoc, lastIdx_snoc, ih]
    by_cases h : p x <;> simp [h]

theorem lastIdx_some {α} {p : α → Bool} {l : List α} {i : Nat} (h : lastIdx p l = some i) :
    ∃ x, l[i]? = some x ∧ p x = true := by
  induction l using List.reverseRecOn with
  | nil => cases h
  | append_singleton l x ih =>
    rw [lastIdx_snoc] at h
    by_cases hx : p x
    · rw [if_pos hx] at h
      cases h
      exact ⟨x, by simp, hx⟩
    · rw [if_neg hx] at h
      obtain ⟨y, hy, hp⟩ := ih h
      exact ⟨y, by rw [List.getElem?_append_left (List.getElem?_eq_some_iff.1 hy).1]; exact hy, hp⟩

theorem lastIdx_none {α} {p : α → Bool} {l : List α} : lastIdx p l = none ↔ ∀ x ∈ l, p x = false := by
  induction l using List.reverseRecOn with
  | nil => simp [lastIdx_nil]
  | append_singleton l x ih =>
    rw [lastIdx_snoc]
    by_cases hx : p x
    · rw [if_pos hx]
      constructor
      · intro h; cases h
      · intro h
        have := h x (by simp)
        rw [hx] at this; cases this
    · rw [if_neg hx, ih]
      constructor
      · intro h y hy
        rcases List.mem_append.1 hy with hy | hy
        · exact h y hy
        · rw [List.mem_singleton.1 hy]; simpa using hx
      · intro h y hy
        exact h y (List.mem_append_left _ hy)

/-- The position of a name that occurs once. -/
theorem lastIdx_unique {α} {g : α → String} {l : List α} {i : Nat} {x : α} (hn : (l.map g).Nodup)
    (hx : l[i]? = some x) : lastIdx (fun y => g y == g x) l = some i := by
  cases h : lastIdx (fun y => g y == g x) l with
  | none =>
    have := lastIdx_none.1 h x (List.mem_of_getElem? hx)
    simp at this
  | some j =>
    obtain ⟨y, hy, he⟩ := lastIdx_some h
    have he : g y = g x := by simpa using he
    have hi := List.getElem?_eq_some_iff.1 hx
    have hj := List.getElem?_eq_some_iff.1 hy
    have : (l.map g)[j]'(by simpa using hj.1) = (l.map g)[i]'(by simpa using hi.1) := by
      simp [hj.2, hi.2, he]
    rw [(List.Nodup.getElem_inj_iff hn).1 this]

/-! ## The prelude -/

theorem addExternals_spec (es : List External) (p : Prelude) :
    (p.addExternals es).list = p.list ++ es.map (·.p) ∧
    (p.addExternals es).namespaces = p.namespaces ++ es.map (fun e => (e.ns, e.name)) ∧
    ∀ n, (p.addExternals es).functions n = match lastIdx (fun e => e.name == n) es with
      | some i => some (p.list.length + i)
      | none => p.functions n := by
  induction es using List.reverseRecOn with
  | nil => simp [Prelude.addExternals, lastIdx_nil]
  | append_singleton es e ih =>
    obtain ⟨h1, h2, h3⟩ := ih
    have he : p.addExternals (es ++ [e]) = (p.addExternals es).insert e.ns e.name e.p := by
      simp [Prelude.addExternals]
    rw [he]
    refine ⟨by simp [Prelude.insert, h1], by simp [Prelude.insert, h2], fun n => ?_⟩
    rw [lastIdx_snoc]
    simp only [Prelude.insert, Map.insert, h1, h3]
    by_cases hn : n = e.name
    · simp [hn]
    · have : ¬ (e.name == n) = true := by simpa using fun h => hn h.symm
      rw [if_neg hn, if_neg this]

theorem addFunctions_snoc (fs : List Function) (f : Function) (p q : Prelude)
    (h : p.addFunctions (fs ++ [f]) = some q) : ∃ r d, p.addFunctions fs = some r ∧ Dfn.new f = some d ∧
      q = r.insert f.ns f.name d := by
  induction fs generalizing p with
  | nil =>
    simp only [List.nil_append, Prelude.addFunctions] at h
    cases hd : Dfn.new f with
    | none => rw [hd] at h; cases h
    | some d =>
      rw [hd] at h
      simp only [Option.some.injEq] at h
      exact ⟨p, d, rfl, rfl, h.symm⟩
  | cons g fs ih =>
    simp only [List.cons_append, Prelude.addFunctions] at h ⊢
    cases hd : Dfn.new g with
    | none => rw [hd] at h; cases h
    | some d =>
      rw [hd] at h
      exact ih _ h

theorem addFunctions_spec (fs : List Function) (p q : Prelude) (h : p.addFunctions fs = some q) :
    (∃ ds, q.list = p.list ++ ds ∧ ds.length = fs.length ∧
      ∀ (i : Nat) f, fs[i]? = some f → ∃ d, Dfn.new f = some d ∧ ds[i]? = some d) ∧
    q.namespaces = p.namespaces ++ fs.map (fun f => (f.ns, f.name)) ∧
    ∀ n, q.functions n = match lastIdx (fun f => f.name == n) fs with
      | some i => some (p.list.length + i)
      | none => p.functions n := by
  induction fs using List.reverseRecOn generalizing q with
  | nil =>
    simp only [Prelude.addFunctions, Option.some.injEq] at h
    subst h
    refine ⟨⟨[], by simp⟩, by simp, fun n => ?_⟩
    rw [lastIdx_nil]
  | append_singleton fs f ih =>
    obtain ⟨r, d, hr, hd, rfl⟩ := addFunctions_snoc fs f p q h
    obtain ⟨⟨ds, h1, hlen, h4⟩, h2, h3⟩ := ih r hr
    refine ⟨⟨ds ++ [d], by simp [Prelude.insert, h1], by simp [hlen], ?_⟩, by simp [Prelude.insert, h2], fun n => ?_⟩
    · intro i g hg
      by_cases hi : i < fs.length
      · rw [List.getElem?_append_left hi] at hg
        obtain ⟨e, he, hi'⟩ := h4 i g hg
        exact ⟨e, he, by rw [List.getElem?_append_left (by omega)]; exact hi'⟩
      · have hi2 : i = fs.length := by
          have := (List.getElem?_eq_some_iff.1 hg).1
          simp at this; omega
        subst hi2
        rw [List.getElem?_append_right (Nat.le_refl _)] at hg
        simp only [Nat.sub_self, List.getElem?_cons_zero, Option.some.injEq] at hg
        subst hg
        exact ⟨d, hd, by rw [List.getElem?_append_right (by omega)]; simp [hlen]⟩
    · rw [lastIdx_snoc]
      simp only [Prelude.insert, Map.insert, h1, h3, List.length_append, hlen]
      by_cases hn : n = f.name
      · simp [hn]
      · have : ¬ (f.name == n) = true := by simpa using fun h => hn h.symm
        rw [if_neg hn, if_neg this]

/-- The prelude of a module: external functions first, loaded functions after them; the
last function of a name is the one found. -/
theorem fromModule_spec {m : Module} {p : Prelude} (h : Prelude.fromModule m = some p) :
    (∀ (k : Nat) e, m.externals[k]? = some e → p.list[k]? = some e.p) ∧
    (∀ (i : Nat) f, m.functions[i]? = some f → ∃ d, Dfn.new f = some d ∧ p.list[m.externals.length + i]? = some d) ∧
    p.namespaces = m.externals.map (fun e => (e.ns, e.name)) ++ m.functions.map (fun f => (f.ns, f.name)) ∧
    ∀ n, p.functions n = match lastIdx (fun f => f.name == n) m.functions with
      | some i => some (m.externals.length + i)
      | none => lastIdx (fun e => e.name == n) m.externals := by
  obtain ⟨a1, a2, a3⟩ := addExternals_spec m.externals ⟨Map.empty, [], []⟩
  obtain ⟨⟨ds, b1, blen, b4⟩, b2, b3⟩ := addFunctions_spec m.functions _ p h
  rw [a1] at b1
  rw [a2] at b2
  refine ⟨?_, ?_, by simpa using b2, ?_⟩
  · intro k e hk
    rw [b1]
    have := (List.getElem?_eq_some_iff.1 hk).1
    rw [List.getElem?_append_left (by simpa using this)]
    simp [hk]
  · intro i f hi
    obtain ⟨d, h1, h2⟩ := b4 i f hi
    refine ⟨d, h1, ?_⟩
    rw [b1, List.getElem?_append_right (by simp)]
    simpa using h2
  · intro n
    rw [b3, a3, a1]
    cases lastIdx (fun f => f.name == n) m.functions with
    | some i => simp
    | none => cases lastIdx (fun e => e.name == n) m.externals <;> simp [Map.empty]

/-! ## The specification -/

namespace Spec

/-- The same declaration: only where its calls lead may differ. -/
def SameDecl (f g : Function) : Prop :=
  f.ns = g.ns ∧ f.name = g.name ∧ f.file = g.file ∧ f.args = g.args ∧ f.ret = g.ret

/-- A call linked to `ix` in function number `index` of the module executes `g`. -/
def Runs (M : Module) (index : Nat) (ix : FnIndex) (g : Function) : Prop :=
  ∃ r, ix = .loaded r ∧ 0 ≤ r + index ∧ callee M index r = some g

/-- What the checker took the signature from and what the call executes are the same
function. `fs` are the functions of the file, `m` the module they are loaded into, `M`
the module after loading and `p` the prelude. `how` says how an external function is
called. -/
inductive Agree (m : Module) (fs : List Function) (p : Prelude) (M : Module) (index : Nat)
    (how : External → FnIndex) : Option Signature → FnIndex → Prop where
  /-- a function of the file -/
  | declared {j : Nat} {f g ix} (hf : fs[j]? = some f) (hg : SameDecl f g) (hr : Runs M index ix g) :
    Agree m fs p M index how (some (.declared j)) ix
  /-- a function that was in the module; its signature is the prelude entry -/
  | loaded {i k : Nat} {f g d ix} (hf : m.functions[i]? = some f) (hd : Dfn.new f = some d) (hk : p.list[k]? = some d)
    (hg : SameDecl f g) (hr : Runs M index ix g) : Agree m fs p M index how (some (.prelude k)) ix
  /-- an external function; its signature is the prelude entry -/
  | external {k : Nat} {e} (he : e ∈ m.externals) (hk : p.list[k]? = some e.p) :
    Agree m fs p M index how (some (.prelude k)) (how e)
  /-- not found by the checker: the file is refused; not linked -/
  | missing : Agree m fs p M index how none .none

end Spec

open Spec

/-! ## Linking -/

theorem sameDecl_link (m : Module) (a : Aliases) (i : Nat) (f : Function) : SameDecl f (linkFunction m a i f) := by
  unfold linkFunction
  by_cases h : f.lookedUp <;> simp [h, SameDecl]

theorem convert_get (m : Module) (uses : List UseImport) (fs : List Function) (i : Nat) :
    (m.convert uses fs).functions[i]? = ((m.functions ++ fs)[i]?).map
      (linkFunction { m with functions := m.functions ++ fs } (aliasesOfModule uses m) i) := by
  simp [Module.convert]

theorem runs_convert {m : Module} {uses : List UseImport} {fs : List Function} {t : Nat} {f : Function} (index : Nat)
    (h : (m.functions ++ fs)[t]? = some f) :
    ∃ g, SameDecl f g ∧ Runs (m.convert uses fs) index (.loaded ((t : Int) - index)) g := by
  refine ⟨_, sameDecl_link { m with functions := m.functions ++ fs } (aliasesOfModule uses m) t f,
    (t : Int) - index, rfl, by omega, ?_⟩
  unfold callee
  have : ((t : Int) - index + index).toNat = t := by omega
  rw [this, convert_get, h, Option.map_some]

theorem find_reverse {α} (p : α → Bool) (l : List α) : l.reverse.find? p = (lastIdx p l).bind (l[·]?) := by
  induction l using List.reverseRecOn with
  | nil => rfl
  | append_singleton l x ih =>
    rw [List.reverse_append, lastIdx_snoc]
    by_cases h : p x
    · simp [h]
    · rw [if_neg h]
      simp only [List.reverse_cons, List.reverse_nil, List.nil_append, List.cons_append, List.find?_cons]
      simp only [h, ih]
      cases hl : lastIdx p l with
      | none => simp
      | some i =>
        obtain ⟨y, hy, _⟩ := lastIdx_some hl
        simp only [Option.bind_some]
        rw [List.getElem?_append_left (List.getElem?_eq_some_iff.1 hy).1]

theorem agree_plain {m : Module} {fs : List Function} {p : Prelude} {look : Map Nat} (a : Aliases) {s : Site}
    (uses : List UseImport) (index : Nat) (hp : Prelude.fromModule m = some p)
    (hl : functionLookup (fs.map (·.name)) 0 Map.empty = some look) (hs : s.via = none) :
    Agree m fs p (m.convert uses fs) index External.index (checkCall look a p s)
      (link { m with functions := m.functions ++ fs } (aliasesOfModule uses m) index s) := by
  obtain ⟨p1, p2, _, p4⟩ := fromModule_spec hp
  have hnd : (fs.map (·.name)).Nodup := by
    by_contra h
    have := (functionLookup_none (fs.map (·.name)) 0 Map.empty).2 (Or.inr h)
    rw [this] at hl; cases hl
  obtain ⟨l1, l2⟩ := functionLookup_get _ _ _ _ hl
  unfold checkCall link
  rw [hs]
  simp only [Module.find, lastIdx_append]
  by_cases hm : s.name ∈ fs.map (·.name)
  · obtain ⟨j, hj⟩ := List.mem_iff_getElem?.1 hm
    rw [l1 j _ hj]
    rw [List.getElem?_map] at hj
    cases hf : fs[j]? with
    | none => rw [hf] at hj; cases hj
    | some f =>
      rw [hf, Option.map_some, Option.some.injEq] at hj
      rw [← hj, lastIdx_unique hnd hf]
      have ht : (m.functions ++ fs)[m.functions.length + j]? = some f := by
        rw [List.getElem?_append_right (by omega)]; simpa using hf
      obtain ⟨g, hg, hr⟩ := runs_convert (uses := uses) index ht
      simp only [Nat.zero_add]
      exact .declared hf hg hr
  · rw [l2 _ hm]
    have hno : lastIdx (fun f => f.name == s.name) fs = none := by
      rw [lastIdx_none]
      intro x hx
      simpa using fun h => hm (List.mem_map.2 ⟨x, hx, h⟩)
    rw [hno]
    simp only [Map.empty, p4]
    cases hi : lastIdx (fun f => f.name == s.name) m.functions with
    | some i =>
      obtain ⟨f, hf, _⟩ := lastIdx_some hi
      obtain ⟨d, hd, hk⟩ := p2 i f hf
      have ht : (m.functions ++ fs)[i]? = some f := by
        rw [List.getElem?_append_left (List.getElem?_eq_some_iff.1 hf).1]; exact hf
      obtain ⟨g, hg, hr⟩ := runs_convert (uses := uses) index ht
      exact .loaded hf hd hk hg hr
    | none =>
      simp only [find_reverse]
      cases hk : lastIdx (fun e => e.name == s.name) m.externals with
      | some k =>
        obtain ⟨e, he, _⟩ := lastIdx_some hk
        simp only [Option.bind_some, he]
        exact .external (List.mem_of_getElem? he) (p1 k e he)
      | none => exact .missing

/-- The call site `q` of a function that is linked by a load. -/
theorem site_link {m : Module} {uses : List UseImport} {fs : List Function} {i q : Nat} {f : Function} {s : Site}
    (hf : (m.functions ++ fs)[i]? = some f) (hu : f.lookedUp = false) (hq : f.calls[q]? = some s) :
    ∃ g s', (m.convert uses fs).functions[i]? = some g ∧ g.calls[q]? = some s' ∧ s'.via = s.via ∧
      s'.name = s.name ∧
      s'.index = link { m with functions := m.functions ++ fs } (aliasesOfModule uses m) i s := by
  refine ⟨linkFunction { m with functions := m.functions ++ fs } (aliasesOfModule uses m) i f,
    { s with index := link { m with functions := m.functions ++ fs } (aliasesOfModule uses m) i s }, ?_, ?_,
    rfl, rfl, rfl⟩
  · rw [convert_get, hf, Option.map_some]
  · simp [linkFunction, hu, hq]

/-- **C32**, plain calls: after loading the file `fs` into any module, every plain call
in it is linked to the function the checker checked it against, and executing the call
runs that function; it is not linked if the checker does not find a function. -/
theorem C32_plain {m : Module} {uses : List UseImport} {fs : List Function} {p : Prelude} {look : Map Nat}
    (a : Aliases) {i q : Nat} {f g : Function} {s s' : Site}
    (hp : Prelude.fromModule m = some p)
    (hl : functionLookup (fs.map (·.name)) 0 Map.empty = some look)
    (hf : (m.functions ++ fs)[i]? = some f) (hu : f.lookedUp = false) (hq : f.calls[q]? = some s)
    (hs : s.via = none)
    (hg : (m.convert uses fs).functions[i]? = some g) (hq' : g.calls[q]? = some s') :
    Agree m fs p (m.convert uses fs) i External.index (checkCall look a p s) s'.index := by
  obtain ⟨g', s'', h1, h2, _, _, h3⟩ := site_link (uses := uses) hf hu hq
  rw [hg] at h1; cases h1
  rw [hq'] at h2; cases h2
  rw [h3]
  exact agree_plain a uses i hp hl hs

/-! ## Aliases -/

/-- Where a function of a module is in the prelude, `e` being the number of external
functions. -/
def toPrelude (e : Nat) : FnAlias → FnAlias
  | .loaded i => .loaded (e + i)
  | .external i => .loaded i

def toPreludeN (e : Nat) (f : Named) : Named := (f.1, f.2.1, toPrelude e f.2.2)

theorem zipIdx_map_shift {α β} (l : List α) (n : Nat) (g : α → Nat → β) :
    (l.zipIdx n).map (fun x => g x.1 x.2) = l.zipIdx.map fun x => g x.1 (n + x.2) := by
  rw [List.zipIdx_eq_map_add]
  simp [Nat.add_comm]

theorem names_eq {m : Module} {p : Prelude} (h : Prelude.fromModule m = some p) :
    p.names = (m.loadedNames ++ m.externalNames).map (toPreludeN m.externals.length) := by
  obtain ⟨_, _, h3, _⟩ := fromModule_spec h
  unfold Prelude.names Module.loadedNames Module.externalNames
  rw [h3, List.zipIdx_append, List.map_append, List.reverse_append, List.map_append, List.map_reverse,
    List.map_reverse, List.map_map, List.map_map]
  congr 2
  · rw [List.length_map, Nat.zero_add,
      zipIdx_map_shift _ _ (fun (f : List String × String) i => ((f.1, f.2, FnAlias.loaded i) : Named)),
      List.zipIdx_map, List.map_map]
    rfl
  · rw [List.zipIdx_map, List.map_map]
    rfl

/-- The names known to the checker are those known to the loader. -/
def RelM (e : Nat) (a b : Map FnAlias) : Prop := ∀ k, a k = (b k).map (toPrelude e)

theorem RelM.insert {e a b} (h : RelM e a b) (k : String) (v : FnAlias) :
    RelM e (a.insert k (toPrelude e v)) (b.insert k v) := by
  intro x
  unfold Map.insert
  by_cases hx : x = k
  · simp [hx]
  · simp [hx, h x]

theorem RelM.globOne {e a b} (ns : List String) (h : RelM e a b) (f : Named) :
    RelM e (globOne ns a (toPreludeN e f)) (globOne ns b f) := by
  obtain ⟨fn, n, v⟩ := f
  unfold Mod.globOne
  by_cases hn : fn = ns
  · rw [if_pos (show (toPreludeN e (fn, n, v)).1 = ns from hn), if_pos (show (fn, n, v).1 = ns from hn)]
    exact h.insert _ _
  · rw [if_neg (show ¬ (toPreludeN e (fn, n, v)).1 = ns from hn), if_neg (show ¬ (fn, n, v).1 = ns from hn)]
    exact h

/-- A selective import in which the wrong key of line 163 is harmless: a function with
mutable arguments is not renamed. -/
def KeepsName (ns : List String) (use : String × Option String) (f : Named) : Prop :=
  f.1 = ns → (use.1 ++ "(").toList.isPrefixOf f.2.1.toList = true → use.2 = none

theorem drop_prefix {u n : String} (h : (u ++ "(").toList.isPrefixOf n.toList = true) :
    u ++ String.ofList (n.toList.drop u.toList.length) = n := by
  apply String.toList_injective
  rw [List.isPrefixOf_iff_prefix] at h
  obtain ⟨r, hr⟩ := h
  rw [String.toList_append, String.toList_ofList, ← hr]
  simp

theorem RelM.pickOne {e a b} {keep : Bool} {ns : List String} {use : String × Option String} (h : RelM e a b)
    {f : Named} (hk : keep = true → KeepsName ns use f) :
    RelM e (pickOne false ns use a (toPreludeN e f)) (pickOne keep ns use b f) := by
  obtain ⟨fn, n, v⟩ := f
  unfold Mod.pickOne
  by_cases hn : fn = ns
  · rw [if_neg (show ¬ (toPreludeN e (fn, n, v)).1 ≠ ns from fun h => h hn),
      if_neg (show ¬ (fn, n, v).1 ≠ ns from fun h => h hn)]
    by_cases h1 : n = use.1
    · rw [if_pos (show (toPreludeN e (fn, n, v)).2.1 = use.1 from h1), if_pos (show (fn, n, v).2.1 = use.1 from h1)]
      exact h.insert _ _
    · rw [if_neg (show ¬ (toPreludeN e (fn, n, v)).2.1 = use.1 from h1),
        if_neg (show ¬ (fn, n, v).2.1 = use.1 from h1)]
      by_cases h2 : (use.1 ++ "(").toList.isPrefixOf n.toList = true
      · rw [if_pos (show (use.1 ++ "(").toList.isPrefixOf (toPreludeN e (fn, n, v)).2.1.toList = true from h2),
          if_pos (show (use.1 ++ "(").toList.isPrefixOf (fn, n, v).2.1.toList = true from h2)]
        cases keep with
        | false => exact h.insert _ _
        | true =>
          have hu := hk rfl hn h2
          have hd := drop_prefix h2
          rw [if_neg (by simp), if_pos rfl, hu, Option.getD_none]
          show RelM e (a.insert (use.1 ++ String.ofList (n.toList.drop use.1.toList.length)) (toPrelude e v)) (b.insert n v)
          rw [hd]
          exact h.insert _ _
      · rw [if_neg (show ¬ (use.1 ++ "(").toList.isPrefixOf (toPreludeN e (fn, n, v)).2.1.toList = true from h2),
          if_neg (show ¬ (use.1 ++ "(").toList.isPrefixOf (fn, n, v).2.1.toList = true from h2)]
        exact h
  · rw [if_pos (show (toPreludeN e (fn, n, v)).1 ≠ ns from hn), if_pos (show (fn, n, v).1 ≠ ns from hn)]
    exact h

theorem RelM.foldl {e} {f g : Map FnAlias → Named → Map FnAlias} (l : List Named)
    (hs : ∀ a b x, x ∈ l → RelM e a b → RelM e (f a (toPreludeN e x)) (g b x)) :
    ∀ {a b}, RelM e a b → RelM e ((l.map (toPreludeN e)).foldl f a) (l.foldl g b) := by
  induction l with
  | nil => exact fun h => h
  | cons x l ih =>
    intro a b h
    exact ih (fun a b y hy => hs a b y (List.mem_cons_of_mem _ hy)) (hs a b x (by simp) h)

def RelA (e : Nat) (a b : Aliases) : Prop := ∀ al, RelM e (a.entry al) (b.entry al)

theorem RelA.insert {e a b m n} (h : RelA e a b) (k : String) (hm : RelM e m n) :
    RelA e (a.insert k m) (b.insert k n) := by
  intro x
  unfold Aliases.entry Map.insert
  by_cases hx : x = k
  · simpa [hx] using hm
  · simpa [hx, Aliases.entry] using h x

theorem RelA.get {e a b} (h : RelA e a b) (al n : String) : a.get al n = (b.get al n).map (toPrelude e) := by
  have hg : ∀ c : Aliases, c.get al n = c.entry al n := by
    intro c
    unfold Aliases.get Aliases.entry
    cases c al <;> rfl
  rw [hg, hg]
  exact h al n

/-- No import renames an external function that has mutable arguments. -/
def NoRenamedMut (uses : List UseImport) (m : Module) : Prop :=
  ∀ u ∈ uses, ∀ f ∈ u.fns, ∀ e ∈ m.externals, e.ns = u.names →
    (f.1 ++ "(").toList.isPrefixOf e.name.toList = true → f.2 = none

theorem externalNames_mem {m : Module} {f : Named} (h : f ∈ m.externalNames) :
    ∃ i e, m.externals[i]? = some e ∧ f = (e.ns, e.name, .external i) := by
  unfold Module.externalNames at h
  rw [List.mem_reverse, List.mem_map] at h
  obtain ⟨⟨e, i⟩, he, rfl⟩ := h
  exact ⟨i, e, List.mem_zipIdx_iff_getElem?.1 he, rfl⟩

theorem loadedNames_mem {m : Module} {f : Named} (h : f ∈ m.loadedNames) :
    ∃ i e, m.functions[i]? = some e ∧ f = (e.ns, e.name, .loaded i) := by
  unfold Module.loadedNames at h
  rw [List.mem_reverse, List.mem_map] at h
  obtain ⟨⟨e, i⟩, he, rfl⟩ := h
  exact ⟨i, e, List.mem_zipIdx_iff_getElem?.1 he, rfl⟩

theorem relA_uses {m : Module} {p : Prelude} {uses : List UseImport} (h : Prelude.fromModule m = some p)
    (hn : NoRenamedMut uses m) :
    RelA m.externals.length (aliasesOfPrelude uses p) (aliasesOfModule uses m) := by
  have hnames := names_eq h
  set e := m.externals.length with he
  have glob : ∀ (us : List UseImport) a b, RelA e a b → RelA e (us.foldl (globPrelude p) a) (us.foldl (globModule m) b) := by
    intro us
    induction us with
    | nil => exact fun _ _ h => h
    | cons u us ih =>
      intro a b hab
      refine ih _ _ ?_
      unfold globPrelude globModule
      by_cases hu : u.fns.isEmpty
      · rw [if_pos hu, if_pos hu]
        refine hab.insert _ ?_
        rw [hnames, List.map_append, List.foldl_append]
        exact RelM.foldl _ (fun a b x _ h => h.globOne _ x) (RelM.foldl _ (fun a b x _ h => h.globOne _ x) (hab _))
      · rw [if_neg hu, if_neg hu]; exact hab
  have pick : ∀ (us : List UseImport) a b, (∀ u ∈ us, u ∈ uses) → RelA e a b →
      RelA e (us.foldl (pickPrelude p) a) (us.foldl (pickModule m) b) := by
    intro us
    induction us with
    | nil => exact fun _ _ _ h => h
    | cons u us ih =>
      intro a b hus hab
      refine ih _ _ (fun v hv => hus v (List.mem_cons_of_mem _ hv)) ?_
      unfold pickPrelude pickModule
      by_cases hu : u.fns.isEmpty
      · rw [if_pos hu, if_pos hu]; exact hab
      · rw [if_neg hu, if_neg hu]
        refine hab.insert _ ?_
        have fns : ∀ (fl : List (String × Option String)) x y, (∀ f ∈ fl, f ∈ u.fns) → RelM e x y →
            RelM e (fl.foldl (fun fns use => p.names.foldl (Mod.pickOne false u.names use) fns) x)
              (fl.foldl (fun fns use => m.externalNames.foldl (Mod.pickOne true u.names use)
                (m.loadedNames.foldl (Mod.pickOne false u.names use) fns)) y) := by
          intro fl
          induction fl with
          | nil => exact fun _ _ _ h => h
          | cons f fl ihf =>
            intro x y hfl hxy
            refine ihf _ _ (fun v hv => hfl v (List.mem_cons_of_mem _ hv)) ?_
            beta_reduce
            rw [hnames, List.map_append, List.foldl_append]
            refine RelM.foldl _ (fun a b z hz h => h.pickOne (fun _ => ?_))
              (RelM.foldl _ (fun a b z _ h => h.pickOne (fun h => by cases h)) hxy)
            obtain ⟨i, ex, hi, rfl⟩ := externalNames_mem hz
            exact fun h1 h2 => hn u (hus u (by simp)) f (hfl f (by simp)) ex (List.mem_of_getElem? hi) h1 h2
        exact fns _ _ _ (fun _ h => h) (hab _)
  refine pick uses _ _ (fun _ h => h) (glob uses _ _ ?_)
  intro al k
  rfl

/-- Every alias leads to a function of the module. -/
def Valid (m : Module) : FnAlias → Prop
  | .loaded i => i < m.functions.length
  | .external i => i < m.externals.length

theorem valid_uses (uses : List UseImport) (m : Module) :
    ∀ al n v, (aliasesOfModule uses m).get al n = some v → Valid m v := by
  have ins : ∀ (x : Map FnAlias) k v, (∀ n w, x n = some w → Valid m w) → Valid m v →
      ∀ n w, (x.insert k v) n = some w → Valid m w := by
    intro x k v hx hv n w hw
    unfold Map.insert at hw
    by_cases hn : n = k
    · rw [if_pos hn] at hw; cases hw; exact hv
    · rw [if_neg hn] at hw; exact hx n w hw
  have globF : ∀ (l : List Named) ns (x : Map FnAlias), (∀ f ∈ l, Valid m f.2.2) → (∀ n w, x n = some w → Valid m w) →
      ∀ n w, (l.foldl (globOne ns) x) n = some w → Valid m w := by
    intro l ns
    induction l with
    | nil => exact fun _ _ h => h
    | cons f l ih =>
      intro x hl hx
      refine ih _ (fun g hg => hl g (List.mem_cons_of_mem _ hg)) ?_
      unfold globOne
      by_cases hn : f.1 = ns
      · rw [if_pos hn]; exact ins _ _ _ hx (hl f (by simp))
      · rw [if_neg hn]; exact hx
  have pickF : ∀ (l : List Named) keep ns use (x : Map FnAlias), (∀ f ∈ l, Valid m f.2.2) →
      (∀ n w, x n = some w → Valid m w) → ∀ n w, (l.foldl (pickOne keep ns use) x) n = some w → Valid m w := by
    intro l keep ns use
    induction l with
    | nil => exact fun _ _ h => h
    | cons f l ih =>
      intro x hl hx
      refine ih _ (fun g hg => hl g (List.mem_cons_of_mem _ hg)) ?_
      unfold pickOne
      split
      · exact hx
      · split
        · exact ins _ _ _ hx (hl f (by simp))
        · split
          · exact ins _ _ _ hx (hl f (by simp))
          · exact hx
  have hL : ∀ f ∈ m.loadedNames, Valid m f.2.2 := by
    intro f hf
    obtain ⟨i, e, hi, rfl⟩ := loadedNames_mem hf
    exact (List.getElem?_eq_some_iff.1 hi).1
  have hE : ∀ f ∈ m.externalNames, Valid m f.2.2 := by
    intro f hf
    obtain ⟨i, e, hi, rfl⟩ := externalNames_mem hf
    exact (List.getElem?_eq_some_iff.1 hi).1
  have insA : ∀ (a : Aliases) k x, (∀ al n w, a.entry al n = some w → Valid m w) → (∀ n w, x n = some w → Valid m w) →
      ∀ al n w, Aliases.entry (a.insert k x) al n = some w → Valid m w := by
    intro a k x ha hx al n w
    unfold Aliases.entry Map.insert
    by_cases hk : al = k
    · simpa [hk] using hx n w
    · simpa [hk, Aliases.entry] using ha al n w
  have glob : ∀ (us : List UseImport) (a : Aliases), (∀ al n w, a.entry al n = some w → Valid m w) →
      ∀ al n w, Aliases.entry (us.foldl (globModule m) a) al n = some w → Valid m w := by
    intro us
    induction us with
    | nil => exact fun _ h => h
    | cons u us ih =>
      intro a ha
      refine ih _ ?_
      unfold globModule
      by_cases hu : u.fns.isEmpty
      · rw [if_pos hu]
        exact insA _ _ _ ha (globF _ _ _ hE (globF _ _ _ hL (ha _)))
      · rw [if_neg hu]; exact ha
  have pick : ∀ (us : List UseImport) (a : Aliases), (∀ al n w, a.entry al n = some w → Valid m w) →
      ∀ al n w, Aliases.entry (us.foldl (pickModule m) a) al n = some w → Valid m w := by
    intro us
    induction us with
    | nil => exact fun _ h => h
    | cons u us ih =>
      intro a ha
      refine ih _ ?_
      unfold pickModule
      by_cases hu : u.fns.isEmpty
      · rw [if_pos hu]; exact ha
      · rw [if_neg hu]
        refine insA _ _ _ ha ?_
        generalize u.fns = fl
        have : ∀ (x : Map FnAlias), (∀ n w, x n = some w → Valid m w) →
            ∀ n w, (fl.foldl (fun fns use => m.externalNames.foldl (pickOne true u.names use)
                (m.loadedNames.foldl (pickOne false u.names use) fns)) x) n = some w → Valid m w := by
          induction fl with
          | nil => exact fun _ h => h
          | cons f fl ihf => exact fun x hx => ihf _ (pickF _ _ _ _ _ hE (pickF _ _ _ _ _ hL hx))
        exact this _ (ha _)
  intro al n v h
  have : (aliasesOfModule uses m).entry al n = some v := by
    revert h
    unfold Aliases.get Aliases.entry
    cases aliasesOfModule uses m al with
    | none => exact fun h => by cases h
    | some x => exact fun h => h
  exact pick uses _ (glob uses _ (by intro al n w h; cases h)) al n v this

/-- **C32**, calls through an alias of a namespace: after loading the file `fs` into any
module, such a call is linked to the function the checker checked it against. External
functions with mutable arguments must not be renamed by an import: the loader registers
them under the wrong name (`C32_renamed_mut`). External functions are called without
their lazy invariants (`C32_alias_lazy`). -/
theorem C32_alias_partial {m : Module} {uses : List UseImport} {fs : List Function} {p : Prelude} {look : Map Nat}
    {i q : Nat} {f g : Function} {s s' : Site} {al : String}
    (hp : Prelude.fromModule m = some p) (hn : NoRenamedMut uses m)
    (hf : (m.functions ++ fs)[i]? = some f) (hu : f.lookedUp = false) (hq : f.calls[q]? = some s)
    (hs : s.via = some al)
    (hg : (m.convert uses fs).functions[i]? = some g) (hq' : g.calls[q]? = some s') :
    Agree m fs p (m.convert uses fs) i External.aliasIndex (checkCall look (aliasesOfPrelude uses p) p s) s'.index := by
  obtain ⟨g', s'', h1, h2, _, _, h3⟩ := site_link (uses := uses) hf hu hq
  rw [hg] at h1; cases h1
  rw [hq'] at h2; cases h2
  rw [h3]
  obtain ⟨p1, p2, _, _⟩ := fromModule_spec hp
  have hget := (relA_uses hp hn).get al s.name
  unfold checkCall link
  rw [hs]
  simp only [hget]
  cases hv : (aliasesOfModule uses m).get al s.name with
  | none => exact .missing
  | some v =>
    have hval := valid_uses uses m al s.name v hv
    cases v with
    | loaded t =>
      have ht : m.functions[t]? = some m.functions[t] := List.getElem?_eq_getElem hval
      obtain ⟨d, hd, hk⟩ := p2 t _ ht
      obtain ⟨g, hg, hr⟩ := runs_convert (uses := uses) (fs := fs) (m := m) i (t := t) (f := m.functions[t])
        (by rw [List.getElem?_append_left hval]; exact ht)
      exact .loaded ht hd hk hg hr
    | external t =>
      have ht : m.externals[t]? = some m.externals[t] := List.getElem?_eq_getElem hval
      simp only [ht, Option.map_some, toPrelude]
      exact .external (List.mem_of_getElem? ht) (p1 t _ ht)

/-! ## Arguments -/

/-- **C32**, number of arguments: a plain call that the checker accepts has as many
arguments as the function it executes has parameters. -/
theorem C32_arity {m : Module} {fs : List Function} {p : Prelude} {look : Map Nat} (a : Aliases)
    {s : Site} {n : Nat} {sg : Signature}
    (hp : Prelude.fromModule m = some p)
    (hl : functionLookup (fs.map (·.name)) 0 Map.empty = some look)
    (hs : s.via = none) (hc : checkCall look a p s = some sg)
    (ha : checkArity (fs.map (·.args.length)) p s n sg = true) :
    (∃ f ∈ fs, f.name = s.name ∧ f.args.length = n) ∨
    (∃ f ∈ m.functions, f.name = s.name ∧ f.args.length = n) ∨
    (∃ e ∈ m.externals, e.name = s.name ∧ e.p.lts.length = n) := by
  obtain ⟨p1, p2, _, p4⟩ := fromModule_spec hp
  obtain ⟨l1, l2⟩ := functionLookup_get _ _ _ _ hl
  unfold checkCall at hc
  rw [hs] at hc
  simp only at hc
  by_cases hm : s.name ∈ fs.map (·.name)
  · obtain ⟨j, hj⟩ := List.mem_iff_getElem?.1 hm
    rw [l1 j _ hj] at hc
    simp only [Nat.zero_add, Option.some.injEq] at hc
    subst hc
    rw [List.getElem?_map] at hj
    cases hf : fs[j]? with
    | none => rw [hf] at hj; cases hj
    | some f =>
      rw [hf, Option.map_some, Option.some.injEq] at hj
      refine Or.inl ⟨f, List.mem_of_getElem? hf, hj, ?_⟩
      simpa [checkArity, hf] using ha
  · rw [l2 _ hm] at hc
    simp only [Map.empty, p4] at hc
    cases hi : lastIdx (fun f => f.name == s.name) m.functions with
    | some i =>
      rw [hi] at hc
      simp only [Option.some.injEq] at hc
      subst hc
      obtain ⟨f, hf, hn⟩ := lastIdx_some hi
      obtain ⟨d, hd, hk⟩ := p2 i f hf
      refine Or.inr (Or.inl ⟨f, List.mem_of_getElem? hf, by simpa using hn, ?_⟩)
      simp only [checkArity, hs, hk, Option.isSome_none, Bool.false_or, Option.map_some, beq_iff_eq,
        Option.some.injEq] at ha
      unfold Dfn.new at hd
      cases hlt : f.args.mapM (ltOf f.args) with
      | none => rw [hlt] at hd; cases hd
      | some lts =>
        rw [hlt] at hd
        simp only [Option.some.injEq] at hd
        subst hd
        have hlen : ∀ (l : List Param) r, l.mapM (ltOf f.args) = some r → r.length = l.length := by
          intro l
          induction l with
          | nil => intro r h; simp at h; subst h; rfl
          | cons x l ih =>
            intro r h
            rw [List.mapM_cons] at h
            cases h1 : ltOf f.args x with
            | none => rw [h1] at h; cases h
            | some y =>
              rw [h1] at h
              cases h2 : l.mapM (ltOf f.args) with
              | none => rw [h2] at h; cases h
              | some ys =>
                rw [h2] at h
                cases h
                simp [ih ys h2]
        rw [← hlen _ _ hlt]
        exact ha
    | none =>
      rw [hi] at hc
      cases hk : lastIdx (fun e => e.name == s.name) m.externals with
      | none => rw [hk] at hc; cases hc
      | some k =>
        rw [hk] at hc
        simp only [Option.some.injEq] at hc
        subst hc
        obtain ⟨e, he, hn⟩ := lastIdx_some hk
        refine Or.inr (Or.inr ⟨e, List.mem_of_getElem? he, by simpa using hn, ?_⟩)
        simpa [checkArity, hs, p1 k e he] using ha

/-! ## Signatures of loaded functions -/

/-- The lifetime written for an argument: none, `'return`, or the first argument with the name. -/
inductive LtOf (args : List Param) (a : Param) : Lt → Prop
  | default : a.lifetime = none → LtOf args a .default
  | ret : a.lifetime = some "return" → LtOf args a .ret
  | arg (n : String) (i : Nat) (b : Param) : a.lifetime = some n → n ≠ "return" → args[i]? = some b → b.name = n →
      (∀ j < i, ∀ b', args[j]? = some b' → b'.name ≠ n) → LtOf args a (.arg i)

theorem ltOf_iff {args : List Param} {a : Param} {l : Lt} : ltOf args a = some l ↔ LtOf args a l := by
  unfold ltOf
  constructor
  · intro h
    cases ha : a.lifetime with
    | none => rw [ha] at h; cases h; exact .default ha
    | some n =>
      rw [ha] at h
      simp only at h
      split at h
      · rename_i hn; subst hn; cases h; exact .ret ha
      · rename_i hn
        cases hf : args.findIdx? fun b => b.name == n with
        | none => rw [hf] at h; cases h
        | some i =>
          rw [hf] at h
          cases h
          obtain ⟨hi, hp, hlt⟩ := List.findIdx?_eq_some_iff_getElem.1 hf
          refine .arg n i args[i] ha hn (List.getElem?_eq_getElem hi) (by simpa using hp) fun j hj b' hb' => ?_
          obtain ⟨hj', rfl⟩ := List.getElem?_eq_some_iff.1 hb'
          simpa using hlt j hj
  · intro h
    cases h with
    | default ha => rw [ha]
    | ret ha => rw [ha]; simp
    | arg n i b ha hn hi hb hlt =>
      rw [ha]
      simp only [hn, if_false]
      obtain ⟨hi', rfl⟩ := List.getElem?_eq_some_iff.1 hi
      have : args.findIdx? (fun b => b.name == n) = some i :=
        List.findIdx?_eq_some_iff_getElem.2 ⟨hi', by simpa using hb, fun j hj => by
          simpa using hlt j hj _ (List.getElem?_eq_getElem (by omega))⟩
      rw [this]

theorem mapM_some_iff {α β} (g : α → Option β) : ∀ (l : List α) (r : List β),
    l.mapM g = some r ↔ l.length = r.length ∧ ∀ (i : Nat) (a : α) (b : β), l[i]? = some a → r[i]? = some b → g a = some b := by
  intro l
  induction l with
  | nil => intro r; cases r <;> simp
  | cons x l ih =>
    intro r
    rw [List.mapM_cons]
    cases hx : g x with
    | none =>
      simp only [Option.bind_eq_bind, Option.bind_none, reduceCtorEq, false_iff]
      rintro ⟨h1, h2⟩
      cases r with
      | nil => cases h1
      | cons y r => have := h2 0 x y rfl rfl; rw [hx] at this; cases this
    | some y =>
      simp only [Option.bind_eq_bind, Option.bind_some, Option.pure_def]
      constructor
      · intro h
        cases hm : l.mapM g with
        | none => rw [hm] at h; cases h
        | some ys =>
          rw [hm] at h
          cases h
          obtain ⟨h1, h2⟩ := (ih ys).1 hm
          refine ⟨by simp [h1], fun i a b ha hb => ?_⟩
          cases i with
          | zero => cases ha; cases hb; exact hx
          | succ i => exact h2 i a b ha hb
      · rintro ⟨h1, h2⟩
        cases r with
        | nil => cases h1
        | cons z r =>
          have hz := h2 0 x z rfl rfl
          rw [hx] at hz
          cases hz
          rw [(ih r).2 ⟨by simpa using h1, fun i a b ha hb => h2 (i + 1) a b ha hb⟩]
          rfl

/-- **C32.** What the checker is told about a function of an imported module is what is
written: number, types and lifetimes of its arguments, and its result. -/
theorem C32_signature (f : Function) (d : Dfn) : Dfn.new f = some d ↔
    d.tys = f.args.map (·.ty) ∧ d.ret = f.ret ∧ d.ext = [] ∧ d.lazy = [] ∧ d.lts.length = f.args.length ∧
    ∀ (i : Nat) (a : Param) (l : Lt), f.args[i]? = some a → d.lts[i]? = some l → LtOf f.args a l := by
  unfold Dfn.new
  constructor
  · intro h
    cases hm : f.args.mapM (ltOf f.args) with
    | none => rw [hm] at h; cases h
    | some lts =>
      rw [hm] at h
      cases h
      obtain ⟨h1, h2⟩ := (mapM_some_iff _ _ _).1 hm
      exact ⟨rfl, rfl, rfl, rfl, h1.symm, fun i a l ha hl => ltOf_iff.1 (h2 i a l ha hl)⟩
  · rintro ⟨h1, h2, h3, h4, h5, h6⟩
    rw [(mapM_some_iff _ f.args d.lts).2 ⟨h5.symm, fun i a l ha hl => ltOf_iff.2 (h6 i a l ha hl)⟩]
    obtain ⟨a, b, c, e, g⟩ := d
    simp_all

/-- A function that would crash the loader: a lifetime that is no argument.  (The checker refuses
such functions before, C10.) -/
theorem C32_signature_crash (f : Function) :
    Dfn.new f = none ↔ ∃ a ∈ f.args, ∃ n, a.lifetime = some n ∧ n ≠ "return" ∧ ∀ b ∈ f.args, b.name ≠ n := by
  have hm : ∀ l : List Param, l.mapM (ltOf f.args) = none ↔ ∃ a ∈ l, ltOf f.args a = none := by
    intro l
    induction l with
    | nil => simp
    | cons x l ih =>
      rw [List.mapM_cons]
      cases hx : ltOf f.args x with
      | none => simp [hx]
      | some y =>
        cases hl : l.mapM (ltOf f.args) with
        | none =>
          obtain ⟨a, ha, h⟩ := ih.1 hl
          simpa using .inr ⟨a, ha, h⟩
        | some ys =>
          have : ¬ ∃ a ∈ l, ltOf f.args a = none := fun h => by rw [ih.2 h] at hl; cases hl
          simp only [List.mem_cons, exists_eq_or_imp, hx, reduceCtorEq, false_or]
          simpa using this
  have hlt : ∀ a, ltOf f.args a = none ↔ ∃ n, a.lifetime = some n ∧ n ≠ "return" ∧ ∀ b ∈ f.args, b.name ≠ n := by
    intro a
    unfold ltOf
    cases a.lifetime with
    | none => simp
    | some n =>
      by_cases hn : n = "return"
      · simp [hn]
      · simp only [hn, if_false, Option.some.injEq, exists_eq_left', ne_eq, not_false_eq_true, true_and]
        cases hf : f.args.findIdx? fun b => b.name == n with
        | none => simpa [List.findIdx?_eq_none_iff] using hf
        | some i =>
          obtain ⟨hi, hp, -⟩ := List.findIdx?_eq_some_iff_getElem.1 hf
          simp only [reduceCtorEq, false_iff]
          intro h
          exact h _ (List.getElem_mem hi) (by simpa using hp)
  unfold Dfn.new
  simp only [← hlt, ← hm]
  cases f.args.mapM (ltOf f.args) <;> simp

/-! ## A concrete load, and what goes wrong -/

namespace Demo

/-- Signature with `n` arguments. -/
def dfn (n : Nat) : Dfn := ⟨List.replicate n .default, List.replicate n .any, .any, [], []⟩

def fn (ns : List String) (name file : String) (n : Nat) (calls : List Site) : Function :=
  ⟨ns, name, file, (List.range n).map (fun i => ⟨toString i, none, .any, false⟩), .any, calls, false⟩

def site (via : Option String) (name : String) : Site := ⟨via, name, .none⟩

/-- A module with a host function with a mutable argument and a lazy one, and a loaded
function. -/
def host : Module :=
  ⟨[fn ["lib"] "h" "lib.dyon" 1 []], 0,
   [⟨["lib"], "f(mut)", .void 1, dfn 1⟩, ⟨["lib"], "g", .ret 2, { dfn 2 with lazy := [[.variable (.bool false none)]] }⟩,
    ⟨[], "h", .ret 3, dfn 1⟩], []⟩

def uses : List UseImport := [⟨["lib"], [], "all"⟩, ⟨["lib"], [("f", some "k")], "some"⟩]

/-- The file: `main` calls `h(..)`, `all::h(..)`, `all::g(..)`, `some::k(mut ..)` and
itself. -/
def file : List Function :=
  [fn [] "main" "main.dyon" 0 [site none "h", site (some "all") "h", site (some "all") "g",
    site (some "some") "k(mut)", site none "main"]]

end Demo

open Demo

def Demo.linked : List FnIndex := ((host.convert uses file).functions[1]?.map fun f => f.calls.map (·.index)).getD []

/-- The calls are linked as expected, except that the renamed function is missing and
that the lazy function is called like an ordinary one. -/
example : linked = [.loaded (-1), .loaded (-1), .ret 2, .none, .loaded 0] := rfl

example : (Prelude.fromModule host).isSome ∧
    (functionLookup (file.map (·.name)) 0 Map.empty).isSome := by decide

/-- **Finding (C32).** The checker accepts a call through an alias of a host function
with a mutable argument that the import renames, the loader does not link it: the name
is registered under a wrong key (ast/mod.rs:163), and the call fails with
"Unknown function" when it is executed. -/
theorem C32_renamed_mut {p : Prelude} (hp : Prelude.fromModule host = some p) (look : Map Nat) :
    checkCall look (aliasesOfPrelude uses p) p (site (some "some") "k(mut)") = some (.prelude 0) ∧
    link { host with functions := host.functions ++ file } (aliasesOfModule uses host) 1
      (site (some "some") "k(mut)") = .none := by
  cases hp
  exact ⟨rfl, rfl⟩

/-- **Finding (C32).** Through an alias a lazy host function is called like an ordinary
one: its lazy invariants are lost (ast/mod.rs:2862). -/
theorem C32_alias_lazy : ∃ e ∈ host.externals, e.name = "g" ∧ e.index = .lazy 2 [[.variable (.bool false none)]] ∧
    link { host with functions := host.functions ++ file } (aliasesOfModule uses host) 1
      (site (some "all") "g") = .ret 2 :=
  ⟨host.externals[1], by simp [host], rfl, rfl, rfl⟩

/-- **Finding (C32).** The number of arguments of a call through an alias is not
checked. -/
theorem C32_alias_arity (args : List Nat) (p : Prelude) (al name : String) (n i : Nat) :
    checkArity args p (site (some al) name) n (.prelude i) = true := rfl

/-- **Finding (C32).** `go` looks the function up again when it is executed, by its
plain name: the alias is ignored. Here `go all::g(..)` is checked against the host
function `g`, but the thread executes the function `g` of the file. -/
theorem C32_go_alias {p : Prelude} (hp : Prelude.fromModule host = some p) (look : Map Nat) :
    checkCall look (aliasesOfPrelude uses p) p (site (some "all") "g") = some (.prelude 1) ∧
    goIndex (host.convert uses (file ++ [fn [] "g" "main.dyon" 0 []])) 1 (site (some "all") "g") = .loaded 1 := by
  cases hp
  exact ⟨rfl, rfl⟩

end Dyon.Mod
