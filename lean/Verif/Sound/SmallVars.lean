import Verif.Sound.SmallNodes

/-!
# The variables of small programs

Lemmas for C81: in the arena of a file of the language of `Sound/Small.lean` a variable is linked to the last declaration before the
statement, else to a parameter.
-/

namespace Dyon.Sound.Small

open Check Check.Spec
open Check.EndDemo (nd)
open Lost (box)
open Sound.Spec (Frag TypedNode Honest HostFn Plain Vague)
open Ty (HasTy)

section
variable {env : Check.Env} {fs : List Fn} {ns0 ns1 ns2 : Nodes} {is : List Nat}

/-- What is at a node. -/
structure NodeIs (ns : Nodes) (i : Nat) (k : Kind) (names : List String) (ty : Option Ty) (cs : List Nat) : Prop where
  kind : (ns.at i).kind = k
  names : (ns.at i).names = names
  ty : (ns.at i).ty = ty
  children : (ns.at i).children = cs
  tryFlag : (ns.at i).tryFlag = false
  als : (ns.at i).alias = none

theorem NodeIs.name {ns i k x ty cs} (h : NodeIs ns i k [x] ty cs) : (ns.at i).name = some x := by
  simp [Node.name, h.names]

theorem laid_nd {p : Option Nat} {i : Nat} {k names ty kids} (h : Laid ns0 p i (nd k names ty kids)) :
    ∃ cs, LaidAll ns0 i cs kids ∧ NodeIs ns0 i k names ty cs := by
  cases h with
  | mk e hl => exact ⟨_, hl, by rw [e], by rw [e], by rw [e], by rw [e], by rw [e], by rw [e]⟩

theorem laid_box {p : Option Nat} {i : Nat} {k kids} (h : Laid ns0 p i (box k kids)) :
    ∃ cs, LaidAll ns0 i cs kids ∧ NodeIs ns0 i k [] none cs := by
  cases h with
  | mk e hl => exact ⟨_, hl, by rw [e], by rw [e], by rw [e], by rw [e], by rw [e], by rw [e]⟩

theorem laid_box1 {p : Option Nat} {i : Nat} {k t} (h : Laid ns0 p i (box k [t])) :
    ∃ c, Laid ns0 (some i) c t ∧ NodeIs ns0 i k [] none [c] := by
  obtain ⟨cs, hl, hn⟩ := laid_box h
  cases hl with
  | cons _ _ h1 h2 => cases h2 with | nil => exact ⟨_, h1, hn⟩

theorem NodeIs.like {a b : Nodes} (hL : Like a b) {i k names ty cs} (h : NodeIs a i k names ty cs) : NodeIs b i k names ty cs :=
  ⟨by rw [hL.kind, h.kind], by rw [hL.names, h.names], by rw [Like.ty' hL, h.ty], by rw [hL.children, h.children],
    by rw [Like.tryFlag' hL, h.tryFlag], by rw [hL.alias, h.als]⟩

/-- The nodes of a declaration: the statement, the assignment, both sides, the name and the expression. -/
structure LetAt (ns : Nodes) (s : Nat) (q : String × Ex) (a l d r z : Nat) : Prop where
  stmt : (ns.at s).children = [a]
  kind : (ns.at a).kind = .assign
  op : (ns.at a).op = some .assign
  sides : (ns.at a).children = [l, r]
  left : NodeIs ns l .left [] none [d]
  item : NodeIs ns d .item [q.1] none []
  right : NodeIs ns r .right [] none [z]
  expr : Laid ns (some r) z (q.2.tr false)
  up1 : (ns.at a).parent = some s
  up2 : (ns.at l).parent = some a
  up3 : (ns.at r).parent = some a
  up4 : (ns.at d).parent = some l

theorem laid_let {p : Option Nat} {s : Nat} {q : String × Ex} (h : Laid ns0 p s (letTr q)) : ∃ a l d r z, LetAt ns0 s q a l d r z := by
  obtain ⟨a, la, hs⟩ := laid_box1 h
  have ha := la
  cases la with
  | mk e hl =>
    cases hl with
    | @cons _ l _ _ _ _ _ l1 hl =>
      cases hl with
      | @cons _ r _ _ _ _ _ l2 hl =>
        cases hl
        obtain ⟨d, l3, hleft⟩ := laid_box1 l1
        obtain ⟨z, l4, hright⟩ := laid_box1 l2
        obtain ⟨cs, hl, hit⟩ := laid_nd l3
        cases hl
        exact ⟨a, l, d, r, z, hs.children, by rw [e], by rw [e], by rw [e], hleft, hit, hright, l4, laid_parent ha, laid_parent l1,
          laid_parent l2, laid_parent l3⟩

theorem LetAt.declares {s : Nat} {q : String × Ex} {a l d r z : Nat} (h : LetAt ns0 s q a l d r z) : Declares ns0 q.1 s d :=
  ⟨a, l, by rw [h.stmt]; rfl, h.op, by rw [h.sides]; rfl, by rw [h.left.children]; rfl, h.item.name, fun h' => h'.2 h.item.children⟩

theorem LetAt.same {s : Nat} {q : String × Ex} {a l d r z : Nat} (h : LetAt ns0 s q a l d r z) {x : String} {d' : Nat}
    (hd : Declares ns0 x s d') : x = q.1 ∧ d' = d := by
  obtain ⟨a', l', h1, -, h2, h3, h4, -⟩ := hd
  rw [h.stmt] at h1
  cases h1
  rw [h.sides] at h2
  cases h2
  rw [h.left.children] at h3
  cases h3
  rw [h.item.name] at h4
  cases h4
  exact ⟨rfl, rfl⟩

/-- An early return declares nothing. -/
theorem guard_declares {p : Option Nat} {s : Nat} {tc te : Tr} (h : Laid ns0 p s (guardBox tc te)) {x : String} {d : Nat} : ¬ Declares ns0 x s d := by
  rintro ⟨a, l, h1, h2, -⟩
  obtain ⟨y, ly, hs⟩ := laid_box1 h
  rw [hs.children] at h1
  cases h1
  cases ly with
  | mk e _ => rw [e] at h2; cases h2

/-- The statements of a function. -/
theorem Setup.stmts (S : Setup env fs ns0 ns1 ns2 is) {j : Nat} {f : Fn} (hf : fs[j]? = some f) :
    ∃ r b ss, InFn ns0 is fs j r f b ∧ NodeIs ns0 b .block [] none ss ∧ LaidAll ns0 b ss (f.stms.map Stm.tr ++ [box .expr [box .ret [f.body.tr false]]]) := by
  obtain ⟨r, hr⟩ := S.root_of hf
  have hroot := S.root hr hf
  cases hroot with
  | mk e hl =>
    obtain ⟨cs', b, rfl, h1, h2⟩ := laid_snoc hl
    obtain ⟨ss, hs, hn⟩ := laid_box h2
    exact ⟨r, b, ss, ⟨hr, hf, by rw [e]; simp, h2⟩, hn, hs⟩

theorem Setup.before (S : Setup env fs ns0 ns1 ns2 is) : ∀ c p, (ns0.at c).parent = some p → p < c := fun c p h => (S.parent c p h).1

/-- A declaration is in the block of its function. -/
theorem Setup.declared (S : Setup env fs ns0 ns1 ns2 is) {x : String} {s d p : Nat} (h : Declares ns0 x s d) (hs : s ∈ (ns0.at p).children) :
    ∃ j r f q, InFn ns0 is fs j r f p ∧ Laid ns0 (some p) s (letTr q) := by
  obtain ⟨a, l, h1, h2, -⟩ := h
  obtain ⟨j, r, f, b, s', q, F, hl, ha⟩ := (S.every a).1 (by rw [h2]; simp)
  have e1 := laid_parent ha
  rw [S.back s a (List.mem_of_mem_head? h1)] at e1
  cases e1
  have e2 := laid_parent hl
  rw [S.back p s hs] at e2
  cases e2
  exact ⟨j, r, f, q, F, hl⟩

theorem stms_get {b : Nat} {ss : List Nat} {f : Fn} (hl : LaidAll ns0 b ss (f.stms.map Stm.tr ++ [box .expr [box .ret [f.body.tr false]]]))
    {m : Nat} {q : Stm} (hq : f.stms[m]? = some q) : ∃ s, ss[m]? = some s ∧ Laid ns0 (some b) s q.tr := by
  have hlt := (List.getElem?_eq_some_iff.1 hq).1
  exact (laid_get hl).2 m q.tr (by rw [List.getElem?_append_left (by simpa using hlt), List.getElem?_map, hq]; rfl)

theorem nodup_at {α} {ss pre suf : List α} {s : α} (h : ss.Nodup) (e : ss = pre ++ s :: suf) {k : Nat} (hk : ss[k]? = some s) : k = pre.length := by
  subst e
  obtain ⟨h1, h2⟩ := List.getElem?_eq_some_iff.1 hk
  have h3 : (pre ++ s :: suf)[pre.length]'(by simp) = s := by simp
  exact (List.Nodup.getElem_inj_iff h).1 (h2.trans h3.symm)

/-- A variable is linked to a parameter of the function or to a declaration before. -/
theorem Setup.isVar (S : Setup env fs ns0 ns1 ns2 is) {j r : Nat} {f : Fn} {b : Nat} {ss : List Nat} (F : InFn ns0 is fs j r f b)
    (hb : (ns0.at b).children = ss) (hl : LaidAll ns0 b ss (f.stms.map Stm.tr ++ [box .expr [box .ret [f.body.tr false]]]))
    {k s i p : Nat} {x : String} (hs : ss[k]? = some s) (hc : Chain ns0 i s) (hlt : i < ns0.length) (hk : (ns0.at i).kind = .item)
    (hn : (ns0.at i).name = some x) (hx : x ≠ "return") (hp : (ns0.at i).parent = some p) (hpk : (ns0.at p).kind ≠ .left) :
    ∃ d, (ns2.at i).declaration = some d ∧
      ((∃ T, (ns2.at d).kind = .arg ∧ (ns2.at d).ty = some (Ft.ty T) ∧ (x, T) ∈ f.params ∧ ∀ (m : Nat) y e, m < k → f.stms[m]? = some (.decl y e) → y ≠ x) ∨
       (∃ (m : Nat) (e : Ex) (s' : Nat), m < k ∧ f.stms[m]? = some (.decl x e) ∧ (∀ (m' : Nat) y e, m < m' → m' < k → f.stms[m']? = some (.decl y e) → y ≠ x) ∧
        ss[m]? = some s' ∧ Declares ns0 x s' d ∧ LastBefore ns0 x b s d)) := by
  have hdecl : ¬ IsDeclared ns0 i := by
    rintro ⟨a, l, -, h, h1, h2, -⟩
    obtain ⟨_, _, _, _, _, q, -, -, ha⟩ := (S.every a).1 (by rw [h]; simp)
    have hl' := S.back _ _ (List.mem_of_mem_head? h2)
    rw [hp] at hl'
    cases hl'
    cases ha with
    | mk e hl =>
      rw [e] at h1
      cases hl with
      | cons _ _ h3 _ =>
        cases h1
        obtain ⟨_, _, h4⟩ := laid_box1 h3
        exact hpk h4.kind
  obtain ⟨d, hd, hm⟩ := C55_accepted S.link1 (i := i) (x := x) ⟨hlt, hk, hn, hx, hdecl⟩
  have hd2 : (ns2.at i).declaration = some d := by
    rw [(linkFns_decl S.link2).2 i (by rw [S.like1.kind, hk]; decide), hd]
  refine ⟨d, hd2, ?_⟩
  have hrl := S.root F.root F.fn
  have hsb : (ns0.at s).parent = some b := S.back b s (by rw [hb]; exact List.mem_of_getElem? hs)
  have hbr : (ns0.at b).parent = some r := laid_parent F.block
  have hir : Chain ns0 i r := (hc.snoc hsb).snoc hbr
  have hlen := (laid_get hl).1
  have hnd := laid_nodup hl
  have hkl : k ≤ f.stms.length := by
    have := (List.getElem?_eq_some_iff.1 hs).1
    rw [hlen] at this
    simp at this
    omega
  cases hm with
  | loop _ h =>
    have h1 := h.1
    have h2 := (S.every d).2.2.1
    generalize (ns0.at d).kind = k at h1 h2
    exfalso
    revert k
    decide
  | @«local» c p' it hse _ h =>
    right
    have hlast := h
    obtain ⟨pre, s', mid, suf, h1, h2, h3, h4⟩ := h
    obtain ⟨j', r', f', q', F', hq'⟩ := S.declared h3 (by rw [h1]; simp)
    have hbr' : (ns0.at p').parent = some r' := laid_parent F'.block
    have e : r' = r := ((sees_chain hse).snoc hbr').top hir (laid_parent (S.root F'.root F'.fn)) (laid_parent hrl)
    subst e
    have e : p' = b := by
      have := F'.last
      rw [F.last] at this
      exact (Option.some.inj this).symm
    subst e
    obtain ⟨a1, a2⟩ := sees_child hse
    have e : c = s := a1.same S.before hc a2 hsb
    subst e
    rw [hb] at h1
    have ek : k = pre.length + 1 + mid.length := by
      have := nodup_at hnd (pre := pre ++ s' :: mid) (by rw [h1]) hs
      rw [this]; simp; omega
    have hm : ss[pre.length]? = some s' := by rw [h1]; simp
    obtain ⟨q, hq⟩ : ∃ q, f.stms[pre.length]? = some q := ⟨_, List.getElem?_eq_getElem (by omega)⟩
    obtain ⟨s2, hs2, hl2⟩ := stms_get hl hq
    rw [hm] at hs2
    cases hs2
    obtain ⟨y, e, rfl⟩ : ∃ y e, q = .decl y e := by
      cases q with
      | decl y e => exact ⟨y, e, rfl⟩
      | guard c e => exact absurd h3 (guard_declares hl2)
    obtain ⟨a, l, d', r, z, hL⟩ := laid_let (q := (y, e)) hl2
    obtain ⟨rfl, -⟩ := hL.same h3
    refine ⟨pre.length, e, s', by omega, hq, ?_, hm, h3, hlast⟩
    intro m' y' e' hm1 hm2 hq' e
    obtain ⟨s3, hs3, hl3⟩ := stms_get hl hq'
    obtain ⟨a, l, d', r, z, hL⟩ := laid_let (q := (y', e')) hl3
    refine h4 s3 ?_ d' (by rw [← e]; exact hL.declares)
    have : mid[m' - pre.length - 1]? = some s3 := by
      rw [← hs3, h1, List.append_assoc, List.getElem?_append_right (by omega), List.cons_append, List.getElem?_cons, if_neg (by omega),
        List.getElem?_append_left (by omega)]
    exact List.mem_of_getElem? this
  | @param c p' g f' _ hse hnb ho hpa =>
    left
    obtain ⟨hfk, ho⟩ := ho
    rcases ho with ⟨hpn, rfl⟩ | ⟨-, hcl, -⟩
    · have e := (sees_chain hse).top hir hpn (laid_parent hrl)
      subst e
      have hno : ∀ (m : Nat) y e, m < k → f.stms[m]? = some (.decl y e) → y ≠ x := by
        intro m y e' hmk hq e
        obtain ⟨a1, a2⟩ := sees_child hse
        have hcb : c = b := a1.same S.before (hc.snoc hsb) a2 hbr
        refine sees_passed S.before hse hc hsb (by rw [hcb]; exact .refl) (.inr ?_)
        obtain ⟨s', hs', hl'⟩ := stms_get hl hq
        obtain ⟨a, l, d', r, z, hL⟩ := laid_let (q := (y, e')) hl'
        have h1 := (List.getElem?_eq_some_iff.1 hs).1
        have h2 := (List.getElem?_eq_some_iff.1 hs').1
        have e1 : ss = ss.take k ++ s :: ss.drop (k + 1) := by
          rw [← (List.getElem?_eq_some_iff.1 hs).2, ← List.drop_eq_getElem_cons h1, List.take_append_drop]
        have e2 : ss.take k = (ss.take k).take m ++ s' :: (ss.take k).drop (m + 1) := by
          have h3 : m < (ss.take k).length := by simp; omega
          have : (ss.take k)[m]'h3 = s' := by rw [List.getElem_take]; exact (List.getElem?_eq_some_iff.1 hs').2
          rw [← this, ← List.drop_eq_getElem_cons h3, List.take_append_drop]
        refine ⟨_, s', _, _, d', by rw [hb, ← e2]; exact e1, ?_, by rw [← e]; exact hL.declares⟩
        rw [← e2]
        intro hm
        obtain ⟨n, hn1, hn2⟩ := List.mem_take_iff_getElem.1 hm
        have := (List.Nodup.getElem_inj_iff hnd).1 (hn2.trans (List.getElem?_eq_some_iff.1 hs).2.symm)
        omega
      obtain ⟨pre, suf, hch, ⟨hpk, hpn⟩, -⟩ := hpa
      cases hrl with
      | mk e hl =>
        rw [e] at hch
        simp only at hch
        obtain ⟨t, ht, hlt⟩ := laid_mem hl d (by rw [hch]; simp)
        rcases List.mem_append.1 ht with ht | ht
        · obtain ⟨q, hq, rfl⟩ := List.mem_map.1 ht
          cases hlt with
          | mk e' _ =>
            refine ⟨q.2, by rw [S.like.kind, e'], by rw [Like.ty' S.like, e'], ?_, hno⟩
            rw [e'] at hpn
            simp only [Node.name, List.head?_cons, Option.some.injEq] at hpn
            rw [← hpn]
            exact hq
        · simp only [List.mem_cons, List.not_mem_nil, or_false] at ht
          subst ht
          cases hlt with
          | mk e' _ => rw [e'] at hpk; rcases hpk with h | h <;> cases h
    · have h2 := (S.every f').2.2.1
      rw [hcl] at h2
      exact absurd h2 (by decide)

/-- The name on the left of a declaration is not linked. -/
theorem Setup.unlinked (S : Setup env fs ns0 ns1 ns2 is) {s : Nat} {q : String × Ex} {a l d r z : Nat} (h : LetAt ns0 s q a l d r z) :
    (ns2.at d).declaration = none := by
  rw [(linkFns_decl S.link2).2 d (by rw [S.like1.kind, h.item.kind]; decide)]
  cases hd : (ns1.at d).declaration with
  | none => rfl
  | some d' =>
    exfalso
    rcases (linkItems_decl S.link1).2.2 d d' hd with h' | ⟨h', -⟩
    · rw [(S.every d).2.1] at h'; cases h'
    · simp only [Nodes.items, List.mem_filter, List.mem_range, Bool.and_eq_true, Bool.not_eq_true', List.contains_eq_mem,
        decide_eq_false_iff_not] at h'
      refine h'.2.2 ?_
      simp only [Nodes.locals, List.mem_filterMap, List.mem_filter, List.mem_range]
      refine ⟨a, ⟨?_, ?_⟩, ?_⟩
      · have := S.before l a h.up2
        have := S.before d l h.up4
        have := h'.1
        omega
      · simp [Nodes.isDeclare, h.op, h.sides, h.left.children]
      · simp [Nodes.leftItem, h.sides, h.left.children, Node.itemIds, h.item.children]

/-- The use of a declared variable. -/
theorem Setup.use (S : Setup env fs ns0 ns1 ns2 is) {s : Nat} {q : String × Ex} {a l d r z : Nat} (h : LetAt ns0 s q a l d r z)
    {u : Nat} (hu : NodeIs ns0 u .item [q.1] none []) (hd : (ns2.at u).declaration = some d) (hlt : u < ns0.length) (hdu : d < u) :
    LocalUse ns2 a l d r u where
  assign := by rw [S.like.kind, h.kind]
  left := by
    simp [Nodes.child, S.like.children, h.sides, S.like.kind, h.left.kind]
  right := by
    simp [Nodes.child, S.like.children, h.sides, S.like.kind, h.left.kind, h.right.kind]
  kids := by rw [S.like.children, h.left.children]
  only := by
    intro k hk
    have e : (ns2.at k).parent = (ns0.at k).parent := by have := congrArg Node.parent (S.like.2 k); exact this
    rw [e] at hk
    have := (S.parent k l hk).2
    rw [h.left.children] at this
    simpa using this
  plain := by rw [Like.tryFlag' S.like, h.left.tryFlag]
  item := by rw [S.like.kind, h.item.kind]
  noIds := by rw [S.like.children, h.item.children]
  declares := S.unlinked h
  use := by rw [S.like.kind, hu.kind]
  useNoIds := by rw [S.like.children, hu.children]
  uses := hd
  later := hdu
  inside := by rw [S.like.1]; exact hlt
  fresh := by rw [Like.ty' S.like, h.item.ty]

end

/-! ## Types are determined -/

theorem local_same {ns : Nodes} (ht : Tree ns) {a l d r a' l' d' r' u : Nat} (h : LocalUse ns a l d r u) (h' : LocalUse ns a' l' d' r' u) : r = r' := by
  have e := h.uses
  rw [h'.uses] at e
  cases e
  have e1 := (ht l d (by rw [h.kids]; simp)).1
  rw [(ht l' d (by rw [h'.kids]; simp)).1] at e1
  cases e1
  have e2 := (ht a l (child_mem h.left)).1
  rw [(ht a' l (child_mem h'.left)).1] at e2
  cases e2
  have e3 := h.right
  rw [h'.right] at e3
  exact (Option.some.inj e3).symm

theorem hostFn_same {env : Check.Env} {ns : Nodes} {i f f' : Nat} {d d' : Mod.Dfn} (h : HostFn env ns i f d) (h' : HostFn env ns i f' d') : d = d' := by
  obtain ⟨-, -, h1, h2⟩ := h
  obtain ⟨-, -, h3, h4⟩ := h'
  rw [h1] at h3
  cases h3
  rw [h2] at h4
  exact Option.some.inj h4

/-- The rules give at most one type. -/
theorem typed_unique {env : Check.Env} {ns : Nodes} (ht : Tree ns) {i : Nat} {T U : Ty} (h : TypedNode env ns i T) (h' : TypedNode env ns i U) : T = U := by
  induction h generalizing U with
  | lit h1 h2 h3 =>
    cases h' with
    | lit _ _ h => rw [h3] at h; exact Option.some.inj h
    | wrap _ h => rw [h2] at h; cases h
    | «local» h => rw [h.use] at h1; cases h1
    | var h | ite h | own h | host h | ext h => rw [h1] at h; cases h
  | var h1 h2 h3 h4 h5 =>
    cases h' with
    | var _ _ h _ h' =>
      rw [h3] at h; cases h
      rw [h5] at h'; exact Option.some.inj h'
    | wrap _ h => rw [h2] at h; cases h
    | «local» h =>
      have := h.uses
      rw [h3] at this; cases this
      rw [h.item] at h4; cases h4
    | lit h | ite h | own h | host h | ext h => rw [h1] at h; cases h
  | «local» h1 _ ih =>
    cases h' with
    | var _ _ h h' =>
      rw [h1.uses] at h; cases h
      rw [h1.item] at h'; cases h'
    | wrap _ h => rw [h1.useNoIds] at h; cases h
    | «local» h h' =>
      rw [← local_same ht h1 h] at h'
      exact ih h'
    | lit h | ite h | own h | host h | ext h => rw [h1.use] at h; cases h
  | wrap h1 h2 _ ih =>
    cases h' with
    | wrap _ h h' => rw [h2] at h; cases h; exact ih h'
    | lit _ h | var _ h => rw [h2] at h; cases h
    | «local» h => rw [h.useNoIds] at h2; cases h2
    | ite h | own h | host h | ext h => rw [h] at h1; cases h1
  | ite h1 h2 _ _ _ _ _ _ _ ih _ =>
    cases h' with
    | ite _ h _ _ _ _ h' => rw [h2] at h; cases h; exact ih h'
    | wrap h => rw [h1] at h; cases h
    | «local» h => rw [h.use] at h1; cases h1
    | lit h | var h | own h | host h | ext h => rw [h1] at h; cases h
  | own h1 h2 h3 h4 =>
    cases h' with
    | own _ h _ h' =>
      rw [h2] at h; cases h
      rw [h4] at h'; exact Option.some.inj h'
    | host _ h | ext _ h => rw [h.1] at h2; cases h2
    | wrap h => rw [h1] at h; cases h
    | «local» h => rw [h.use] at h1; cases h1
    | lit h | var h | ite h => rw [h1] at h; cases h
  | host h1 h2 h3 =>
    cases h' with
    | own _ h => rw [h2.1] at h; cases h
    | host _ h => rw [hostFn_same h2 h]
    | ext _ h h' => rw [hostFn_same h2 h] at h3; exact absurd h3 h'
    | wrap h => rw [h1] at h; cases h
    | «local» h => rw [h.use] at h1; cases h1
    | lit h | var h | ite h => rw [h1] at h; cases h
  | @ext i f d T ts h1 h2 h3 h4 _ h6 ih =>
    cases h' with
    | own _ h => rw [h2.1] at h; cases h
    | host _ h h' => rw [hostFn_same h2 h] at h3; exact absurd h' h3
    | @ext _ f' d' _ ts' _ h _ h4' h5' h6' =>
      rw [← hostFn_same h2 h] at h6'
      have : ts = ts' := by
        refine List.ext_getElem? fun k => ?_
        by_cases hk : k < ts.length
        · rw [List.getElem?_eq_getElem hk, List.getElem?_eq_getElem (by omega)]
          have hc : k < (ns.at i).children.length := by omega
          exact congrArg some (ih k _ _ (List.getElem?_eq_getElem hc) (List.getElem?_eq_getElem hk)
            (h5' k _ _ (List.getElem?_eq_getElem hc) (List.getElem?_eq_getElem (by omega))))
        · rw [List.getElem?_eq_none (by omega), List.getElem?_eq_none (by omega)]
      subst this
      rw [h6] at h6'
      cases h6'
      rfl
    | wrap h => rw [h1] at h; cases h
    | «local» h => rw [h.use] at h1; cases h1
    | lit h | var h | ite h => rw [h1] at h; cases h

end Dyon.Sound.Small
