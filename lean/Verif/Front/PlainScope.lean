import Verif.Front.PlainDecl
import Verif.Front.PlainNumber

/-!
# Scopes of the checker and scopes of the run
-/

namespace Dyon.Plain

open Front (Src Prod' Opd ItemSrc IdSrc Var Callee FnSrc BodySrc)
open Front.Spec (app)
open Syn (BinOp callName)
open Check.Spec (Bind seen usable after afterOpt afters declared plainItem itemName varNames grabLevel closureName
  leftName isVar)

/-- Names that the checker sees are in the environments of the run, but for the ones in `B` and
`Bt`. -/
structure Sees (B : List String) (Bt : List (List String)) (D : List Bind) (E : Env) (os : List Env) : Prop where
  here : ∀ x, x ∉ B → usable x D → some x ∈ E
  out : ∀ i Bg, Bt[i]? = some Bg → ∃ Γ', os[i]? = some Γ' ∧ ∀ x, x ∉ Bg → seen x (i + 1) D = true → some x ∈ Γ'

variable {B : List String} {Bt : List (List String)} {D : List Bind} {E E' : Env} {os : List Env}

theorem Sees.mono (h : Sees B Bt D E os) (hE : ∀ x, some x ∈ E → some x ∈ E') : Sees B Bt D E' os :=
  ⟨fun x hx hu => hE x (h.here x hx hu), h.out⟩

theorem Sees.app (h : Sees B Bt D E os) (z : Env) : Sees B Bt D (E ++ z) os :=
  h.mono fun _ hx => List.mem_append_left _ hx

theorem Sees.loop (h : Sees B Bt D E os) {xs u : List String} (hx : ∀ x ∈ xs, x ∈ u ∨ some x ∈ E')
    (hE : ∀ x, some x ∈ E → some x ∈ E') : Sees (u ++ B) (Bt.map (xs ++ ·)) (.loop xs :: D) E' os := by
  constructor
  · intro x hn hu
    rw [List.mem_append, not_or] at hn
    rcases hu with rfl | hu
    · exact hE _ (h.here _ hn.2 (.inl rfl))
    · simp only [seen, Bool.or_eq_true, List.contains_iff_mem] at hu
      rcases hu with hu | hu
      · rcases hx x hu with hu | hu
        · exact absurd hu hn.1
        · exact hu
      · exact hE _ (h.here _ hn.2 (.inr hu))
  · intro i Bg hi
    rw [List.getElem?_map, Option.map_eq_some_iff] at hi
    obtain ⟨Bg, hi, rfl⟩ := hi
    obtain ⟨Γ', h1, h2⟩ := h.out i Bg hi
    refine ⟨Γ', h1, fun x hn hu => ?_⟩
    rw [List.mem_append, not_or] at hn
    simp only [seen, Bool.or_eq_true, List.contains_iff_mem] at hu
    exact h2 x hn.2 (hu.resolve_left hn.1)

theorem Sees.var (h : Sees B Bt D E os) (y : String) : Sees B Bt (.var y :: D) (E ++ [some y]) os := by
  constructor
  · intro x hn hu
    rcases hu with rfl | hu
    · exact List.mem_append_left _ (h.here _ hn (.inl rfl))
    · simp only [seen] at hu
      split at hu
      · simp [*]
      · exact List.mem_append_left _ (h.here _ hn (.inr hu))
  · intro i Bg hi
    obtain ⟨Γ', h1, h2⟩ := h.out i Bg hi
    refine ⟨Γ', h1, fun x hn hu => ?_⟩
    simp only [seen] at hu
    split at hu
    · simp at hu
    · exact h2 x hn hu

theorem Sees.after (h : Sees B Bt D E os) (s : Src) :
    Sees B Bt (after s D) (E ++ (declared s).toList.map some) os := by
  unfold Check.Spec.after
  cases declared s with
  | none => simpa using h
  | some y => exact h.var y

theorem Sees.closure (h : Sees B Bt D E os) (args cur : List String) :
    Sees [] (B :: Bt) (.closure (args ++ cur) :: D) (fnEnv true args cur) (E :: os) := by
  constructor
  · intro x _ hu
    rcases hu with rfl | hu
    · simp [fnEnv]
    · simp only [seen, if_true, List.contains_iff_mem, List.mem_append] at hu
      simpa [fnEnv] using .inr hu
  · intro i Bg hi
    cases i with
    | zero =>
      refine ⟨E, rfl, fun x hn hu => h.here x ?_ (.inr ?_)⟩
      · simp only [List.getElem?_cons_zero, Option.some.injEq] at hi
        rwa [hi]
      · simp only [seen] at hu
        simp at hu
        exact hu.2
    | succ i =>
      obtain ⟨Γ', h1, h2⟩ := h.out i Bg (by simpa using hi)
      refine ⟨Γ', by simpa using h1, fun x hn hu => h2 x hn ?_⟩
      simp only [seen] at hu
      simp at hu
      exact hu.2

theorem Sees.grab (h : Sees B Bt D E os) {g : Nat} (hg : 0 < g) {Bg} (hb : Bt[g - 1]? = some Bg) :
    ∃ Γ', os[g - 1]? = some Γ' ∧ Sees ("return" :: Bg) [] (.grab g :: D) Γ' [] := by
  obtain ⟨Γ', h1, h2⟩ := h.out _ Bg hb
  refine ⟨Γ', h1, fun x hn hu => ?_, fun i Bg hi => by simp at hi⟩
  simp only [List.mem_cons, not_or] at hn
  refine h2 x hn.2 ?_
  have := hu.resolve_left hn.1
  simp only [seen] at this
  rwa [Nat.sub_add_cancel hg]

theorem Sees.hide (h : Sees B Bt D E os) : Sees ("return" :: B) Bt D (hideRet E ++ [none]) os := by
  refine ⟨fun x hn hu => ?_, h.out⟩
  simp only [List.mem_cons, not_or] at hn
  refine List.mem_append_left _ ?_
  unfold hideRet
  refine List.mem_map.2 ⟨some x, h.here x hn.2 hu, ?_⟩
  simp [hn.1]

theorem Sees.fn (args cur : List String) (r : Bool) :
    Sees (if r then [] else ["return"]) [] [.fn (args ++ cur)] (fnEnv r args cur) [] := by
  constructor
  · intro x hn hu
    rcases hu with rfl | hu
    · cases r <;> simp [fnEnv] at hn ⊢
    · simp only [seen, List.contains_iff_mem, List.mem_append] at hu
      simpa [fnEnv] using .inr hu
  · intro i Bg hi
    simp at hi

theorem after_none {e : Src} (h : declared e = none) : after e D = D := by
  unfold Check.Spec.after
  rw [h]

/-! ## Calls -/

variable {find : String → FnIndex} {k : Ctx} {C : String → Called} {ar : Int → Nat}

/-- Variables of a converted expression with its callees are in scope, and it is well formed. -/
def Ok (find : String → FnIndex) (k : Ctx) (ar : Int → Nat) (E : Env) (os : List Env) (e : Expr) : Prop :=
  (e.looked find).Scoped k ar E os ∧ (e.looked find).WF k

theorem app_ok (hC : ∀ name, C name = calledOf k ar (find name))
    (hlazy : ∀ name f inv, find name = .lazy f inv → ∀ l ∈ inv.tail, l = []) {name : String} {args : List Expr}
    (h1 : SAll k ar (lookedList find args) E os)
    (h2 : ∀ z, SArgs k ar (lookedList find args) (E ++ z) os) (h3 : WFs k (lookedList find args))
    (hfit : match C name with
      | .nothing | .op => True
      | .own n _ => argLen (lookedList find args) = n ∧ vecArgsOk k (lookedList find args) = true
      | .host n _ => args.length = n) : Ok find k ar E os (app name args) := by
  unfold Ok
  rw [hC] at hfit
  simp only [app, Expr.looked, Expr.Scoped, Expr.WF]
  cases hf : find name <;> rw [hf] at hfit <;> dsimp only [calledOf] at hfit ⊢
  · exact ⟨⟨h2 _, trivial⟩, h3, trivial⟩
  · exact ⟨⟨h2 _, hfit⟩, h3, trivial⟩
  · exact ⟨⟨h2 _, trivial⟩, h3, by rw [lookedList_length, hfit]⟩
  · exact ⟨⟨h2 _, trivial⟩, h3, by rw [lookedList_length, hfit]⟩
  · exact ⟨⟨h1, trivial⟩, h3, trivial⟩
  · exact ⟨⟨h2 _, trivial⟩, h3, trivial⟩
  · exact ⟨⟨h2 _, trivial⟩, h3, by rw [lookedList_length, hfit], hlazy _ _ _ hf⟩

theorem op_ok (hC : ∀ name, C name = calledOf k ar (find name))
    (hlazy : ∀ name f inv, find name = .lazy f inv → ∀ l ∈ inv.tail, l = []) {name : String} (hop : isOp C name)
    {args : List Expr}
    (h1 : SAll k ar (lookedList find args) E os)
    (h2 : ∀ z, SArgs k ar (lookedList find args) (E ++ z) os) (h3 : WFs k (lookedList find args)) :
    Ok find k ar E os (app name args) := by
  refine app_ok hC hlazy h1 h2 h3 ?_
  unfold isOp at hop
  cases hx : C name <;> rw [hx] at hop <;> trivial

/-- One operand. -/
theorem op1_ok (hC : ∀ name, C name = calledOf k ar (find name))
    (hlazy : ∀ name f inv, find name = .lazy f inv → ∀ l ∈ inv.tail, l = []) {name : String} (hop : isOp C name)
    {a : Expr} (h : ∀ z, Ok find k ar (E ++ z) os a) : Ok find k ar E os (app name [a]) := by
  have h0 := h []
  rw [List.append_nil] at h0
  exact op_ok hC hlazy hop ⟨h0.1, trivial⟩ (fun z => ⟨(h z).1, trivial⟩) ⟨h0.2, trivial⟩

/-- Two operands. -/
theorem op2_ok (hC : ∀ name, C name = calledOf k ar (find name))
    (hlazy : ∀ name f inv, find name = .lazy f inv → ∀ l ∈ inv.tail, l = []) {name : String} (hop : isOp C name)
    {a b : Expr} (h : ∀ z, Ok find k ar (E ++ z) os a) (h' : ∀ z, Ok find k ar (E ++ z) os b) :
    Ok find k ar E os (app name [a, b]) := by
  have h0 := h []
  have h0' := h' []
  rw [List.append_nil] at h0 h0'
  refine op_ok hC hlazy hop ⟨h0.1, h0'.1, trivial⟩ (fun z => ⟨(h z).1, ?_, trivial⟩) ⟨h0.2, h0'.2, trivial⟩
  rw [List.append_assoc]
  exact (h' _).1

/-! ## Names of closures called with words -/

theorem joined_words {w : String} {ws : List String} (h : w ≠ "") :
    Check.Spec.joinWords (w :: ws) = some (Front.Spec.joined (w :: ws)) := by
  simp only [Check.Spec.joinWords, Front.Spec.joined, Option.some.injEq]
  induction ws generalizing w with
  | nil => rfl
  | cons x ws ih =>
    simp only [List.foldl_cons, if_neg h]
    refine ih ?_
    intro he
    have := congrArg String.length he
    simp [String.length_append] at this
    

theorem sids_last (k : Ctx) (ar : Int → Nat) (ids : List Id) (s s' : String) (E : Env) (os : List Env) :
    SIds k ar (lookedIds find (ids ++ [.str s])) E os → SIds k ar (lookedIds find (ids ++ [.str s'])) E os := by
  induction ids generalizing E with
  | nil => exact fun h => h
  | cons i r ih =>
    cases i with
    | str _ => exact ih E
    | num _ => exact ih E
    | expr e => exact fun h => ⟨h.1, ih _ h.2⟩

theorem wids_last (k : Ctx) (ids : List Id) (s s' : String) :
    WFids k (lookedIds find (ids ++ [.str s])) → WFids k (lookedIds find (ids ++ [.str s'])) := by
  induction ids with
  | nil => exact fun h => h
  | cons i r ih =>
    cases i with
    | str _ => exact ih
    | num _ => exact ih
    | expr e => exact fun h => ⟨h.1, ih h.2⟩

theorem closureItem_ok {words n : String} {sid cur t ids tids} {E : Env} {os : List Env}
    (hn : some (if ids.isEmpty then n ++ "__" ++ words else n) ∈ E)
    (h1 : SIds k ar (lookedIds find ids) E os) (h2 : WFids k (lookedIds find ids)) :
    SItem k ar (lookedItem find (Front.Spec.closureItem words (.mk n sid cur t ids tids))) E os ∧
    WFitem k (lookedItem find (Front.Spec.closureItem words (.mk n sid cur t ids tids))) := by
  unfold Front.Spec.closureItem
  cases hl : ids.getLast? with
  | none =>
    have : ids = [] := List.getLast?_eq_none_iff.1 hl
    subst this
    exact ⟨⟨hn, trivial⟩, trivial⟩
  | some i =>
    have he : ids.isEmpty = false := by cases ids <;> simp_all
    rw [he] at hn
    simp only [Bool.false_eq_true, if_false] at hn
    have hd : ids = ids.dropLast ++ [i] := by
      rw [List.dropLast_append_getLast? _ hl]
    cases i with
    | str s =>
      simp only [hl]
      rw [hd] at h1 h2
      exact ⟨⟨hn, sids_last k ar _ s _ E os h1⟩, wids_last k _ s _ h2⟩
    | num _ => simp only [hl]; exact ⟨⟨hn, h1⟩, h2⟩
    | expr _ => simp only [hl]; exact ⟨⟨hn, h1⟩, h2⟩

end Dyon.Plain
