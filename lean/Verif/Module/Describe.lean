import Verif.Module.Listing

/-!
# C50: types in the listing of functions

The listing gives types as texts.  Here the texts are specified apart from `Type::description`: they are
the types as they are written in programs.
-/

namespace Dyon.Mod

/-! ## Specification -/

namespace Spec

/-- Types as they are written in programs: simple types by their names, others with the type inside
in brackets, which is left out if it can be any type.  `void` and `unreachable` have no written form and are
given by their names. -/
inductive Written : Ty → String → Prop
  | unreachable : Written .unreachable "unreachable"
  | void : Written .void "void"
  | any : Written .any "any"
  | bool : Written .bool "bool"
  | f64 : Written .f64 "f64"
  | vec4 : Written .vec4 "vec4"
  | mat4 : Written .mat4 "mat4"
  | str : Written .str "str"
  | link : Written .link "link"
  | object : Written .object "{}"
  | anyArray : Written (.array .any) "[]"
  | array {t s} (h : t ≠ .any) (ht : Written t s) : Written (.array t) ("[" ++ s ++ "]")
  | anyOption : Written (.option .any) "opt"
  | option {t s} (h : t ≠ .any) (ht : Written t s) : Written (.option t) ("opt[" ++ s ++ "]")
  | anyResult : Written (.result .any) "res"
  | result {t s} (h : t ≠ .any) (ht : Written t s) : Written (.result t) ("res[" ++ s ++ "]")
  | anyThread : Written (.thread .any) "thr"
  | thread {t s} (h : t ≠ .any) (ht : Written t s) : Written (.thread t) ("thr[" ++ s ++ "]")
  | anyIn : Written (.inTy .any) "in"
  | inTy {t s} (h : t ≠ .any) (ht : Written t s) : Written (.inTy t) ("in[" ++ s ++ "]")
  | secretBool : Written (.secret .bool) "sec[bool]"
  | secretF64 : Written (.secret .f64) "sec[f64]"
  | adHoc {ad t s} (ht : Written t s) : Written (.adHoc ad t) (ad ++ " " ++ s)
  | closure {tys ss ret r} (hl : ss.length = tys.length)
      (ha : ∀ p ∈ tys.zip ss, Written p.1 p.2) (hr : Written ret r) :
      Written (.closure tys ret) ("\\(" ++ ", ".intercalate ss ++ ") -> " ++ r)

end Spec

open Spec

/-! ## Theorems -/

theorem description_args_some {tys : List Ty} {a : String} (h : description.args tys = some a) :
    ∃ ss : List String, ss.length = tys.length ∧ a = ", ".intercalate ss ∧
      ∀ p ∈ tys.zip ss, description p.1 = some p.2 := by
  induction tys generalizing a with
  | nil => simp only [description.args, Option.some.injEq] at h; subst h; exact ⟨[], rfl, rfl, by simp⟩
  | cons t ts ih =>
    cases ts with
    | nil =>
      simp only [description.args] at h
      exact ⟨[a], rfl, rfl, by simpa using h⟩
    | cons u ts =>
      simp only [description.args] at h
      cases hs : description t with
      | none => simp [hs] at h
      | some s =>
        cases hr : description.args (u :: ts) with
        | none => simp [hs, hr] at h
        | some r =>
          simp [hs, hr] at h
          obtain ⟨ss, hl, ha, hz⟩ := ih hr
          refine ⟨s :: ss, by simp [hl], ?_, ?_⟩
          · subst h
            cases ss with
            | nil => simp at hl
            | cons x xs => rw [ha, String.intercalate_cons_cons]
          · intro p hp
            rw [List.zip_cons_cons, List.mem_cons] at hp
            rcases hp with rfl | hp
            · exact hs
            · exact hz p hp

/-- **C50** A type is listed as it is written in programs. -/
theorem C50_types : ∀ (t : Ty) (s : String), description t = some s → Written t s
  | .unreachable, s, h | .void, s, h | .any, s, h | .bool, s, h | .f64, s, h | .vec4, s, h | .mat4, s, h
  | .str, s, h | .link, s, h | .object, s, h => by
    simp only [description, Option.some.injEq] at h; subst h; constructor
  | .secret t, s, h => by
    cases t <;> simp [description] at h <;> subst h <;> constructor
  | .array t, s, h => by
    by_cases ha : t = .any
    · subst ha; simp [description] at h; subst h; constructor
    · rw [description] at h
      · obtain ⟨x, hx, rfl⟩ := Option.map_eq_some_iff.1 h
        exact .array ha (C50_types t x hx)
      · exact ha
  | .option t, s, h => by
    by_cases ha : t = .any
    · subst ha; simp [description] at h; subst h; constructor
    · rw [description] at h
      · obtain ⟨x, hx, rfl⟩ := Option.map_eq_some_iff.1 h
        exact .option ha (C50_types t x hx)
      · exact ha
  | .result t, s, h => by
    by_cases ha : t = .any
    · subst ha; simp [description] at h; subst h; constructor
    · rw [description] at h
      · obtain ⟨x, hx, rfl⟩ := Option.map_eq_some_iff.1 h
        exact .result ha (C50_types t x hx)
      · exact ha
  | .thread t, s, h => by
    by_cases ha : t = .any
    · subst ha; simp [description] at h; subst h; constructor
    · rw [description] at h
      · obtain ⟨x, hx, rfl⟩ := Option.map_eq_some_iff.1 h
        exact .thread ha (C50_types t x hx)
      · exact ha
  | .inTy t, s, h => by
    by_cases ha : t = .any
    · subst ha; simp [description] at h; subst h; constructor
    · rw [description] at h
      · obtain ⟨x, hx, rfl⟩ := Option.map_eq_some_iff.1 h
        exact .inTy ha (C50_types t x hx)
      · exact ha
  | .adHoc ad t, s, h => by
    rw [description] at h
    obtain ⟨x, hx, rfl⟩ := Option.map_eq_some_iff.1 h
    exact .adHoc (C50_types t x hx)
  | .closure tys ret, s, h => by
    rw [description] at h
    cases ha : description.args tys with
    | none => simp [ha] at h
    | some a =>
      cases hr : description ret with
      | none => simp [ha, hr] at h
      | some r =>
        simp [ha, hr] at h
        obtain ⟨ss, hl, rfl, hz⟩ := description_args_some ha
        rw [← h]
        exact .closure hl (fun p hp =>
          have := (List.of_mem_zip (a := p.1) (b := p.2) hp).1
          C50_types p.1 p.2 (hz p hp)) (C50_types ret r hr)
termination_by t => sizeOf t
decreasing_by
  all_goals simp_wf
  all_goals first
    | omega
    | (have := List.sizeOf_lt_of_mem this; omega)

/-- A closure from an array of numbers and any option to a result. -/
example : description (.closure [.array .f64, .option .any] (.result .str)) = some "\\([f64], opt) -> res[str]" := by
  simp [description, description.args]

end Dyon.Mod
