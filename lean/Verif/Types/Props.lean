import Verif.Types.Lemmas
import Verif.Value

/-!
# C04, C05: type compatibility

`S.goesWith T`: a value of type `T` may be passed where `S` is declared.
-/

namespace Dyon.Ty

/-! ## Specification vocabulary -/

/-- Types that can be written in source code (grammar rule `type`): `void` and
`unreachable` do not occur, and secrets are `sec[bool]` and `sec[f64]`. -/
inductive Source : Ty → Prop
  | any : Source any
  | bool : Source bool
  | f64 : Source f64
  | vec4 : Source vec4
  | mat4 : Source mat4
  | str : Source str
  | link : Source link
  | object : Source object
  | secBool : Source (secret bool)
  | secF64 : Source (secret f64)
  | array {t} : Source t → Source (array t)
  | option {t} : Source t → Source (option t)
  | result {t} : Source t → Source (result t)
  | thread {t} : Source t → Source (thread t)
  | inTy {t} : Source t → Source (inTy t)
  | adHoc {n t} : Source t → Source (adHoc n t)
  | closure {args ret} : (∀ a ∈ args, Source a) → Source ret → Source (closure args ret)

/-- No ad-hoc name occurs in the type. -/
inductive NoAdHoc : Ty → Prop
  | unreachable : NoAdHoc unreachable
  | void : NoAdHoc void
  | any : NoAdHoc any
  | bool : NoAdHoc bool
  | f64 : NoAdHoc f64
  | vec4 : NoAdHoc vec4
  | mat4 : NoAdHoc mat4
  | str : NoAdHoc str
  | link : NoAdHoc link
  | object : NoAdHoc object
  | secret {t} : NoAdHoc t → NoAdHoc (secret t)
  | array {t} : NoAdHoc t → NoAdHoc (array t)
  | option {t} : NoAdHoc t → NoAdHoc (option t)
  | result {t} : NoAdHoc t → NoAdHoc (result t)
  | thread {t} : NoAdHoc t → NoAdHoc (thread t)
  | inTy {t} : NoAdHoc t → NoAdHoc (inTy t)

/-- No `sec[..]` and no closure type occurs in the type. -/
inductive NoSecret : Ty → Prop
  | void : NoSecret void
  | any : NoSecret any
  | bool : NoSecret bool
  | f64 : NoSecret f64
  | vec4 : NoSecret vec4
  | mat4 : NoSecret mat4
  | str : NoSecret str
  | link : NoSecret link
  | object : NoSecret object
  | array {t} : NoSecret t → NoSecret (array t)
  | option {t} : NoSecret t → NoSecret (option t)
  | result {t} : NoSecret t → NoSecret (result t)
  | thread {t} : NoSecret t → NoSecret (thread t)
  | inTy {t} : NoSecret t → NoSecret (inTy t)
  | adHoc {n t} : NoSecret t → NoSecret (adHoc n t)

/-- The type makes a definite promise: no `any`, no `unreachable`, no closure. -/
inductive Definite : Ty → Prop
  | void : Definite void
  | bool : Definite bool
  | f64 : Definite f64
  | vec4 : Definite vec4
  | mat4 : Definite mat4
  | str : Definite str
  | link : Definite link
  | object : Definite object
  | secBool : Definite (secret bool)
  | secF64 : Definite (secret f64)
  | array {t} : Definite t → Definite (array t)
  | option {t} : Definite t → Definite (option t)
  | result {t} : Definite t → Definite (result t)
  | thread {t} : Definite t → Definite (thread t)
  | inTy {t} : Definite t → Definite (inTy t)
  | adHoc {n t} : Definite t → Definite (adHoc n t)

/-- Which run-time values have a type.  `void` has none; ad-hoc names are erased
at run time; a `sec[..]` value carries a secret; what a thread will return, a
channel will deliver or a closure does is not visible in the value. -/
def HasTy : Ty → Val → Prop
  | unreachable, _ => False
  | void, _ => False
  | any, _ => True
  | bool, v => ∃ b s, v = .bool b s
  | f64, v => ∃ x s, v = .f64 x s
  | vec4, v => ∃ x, v = .vec4 x
  | mat4, v => ∃ x, v = .mat4 x
  | str, v => ∃ x, v = .str x
  | link, v => ∃ x, v = .link x
  | array t, v => ∃ xs, v = .array xs ∧ ∀ x ∈ xs, HasTy t x
  | object, v => ∃ kvs, v = .object kvs
  | option t, v => v = .option none ∨ ∃ x, v = .option (some x) ∧ HasTy t x
  | result t, v => (∃ x, v = .resOk x ∧ HasTy t x) ∨ ∃ m tr, v = .resErr m tr
  | secret t, v => HasTy t v ∧ ((∃ b s, v = .bool b (some s)) ∨ ∃ x s, v = .f64 x (some s))
  | thread _, v => ∃ i, v = .thread i
  | inTy _, v => ∃ i, v = .inTy i
  | adHoc _ t, v => HasTy t v
  | closure _ _, v => ∃ i, v = .closure i

/-! ## C04: laws -/

/-- **C04** Every type accepts itself. -/
theorem C04_refl (t : Ty) : t.goesWith t = true := by
  induction t using single_induction with
  | h a ih =>
    cases a with
    | closure ss q =>
      rw [goesWith.eq_def]
      have h1 : allGoWith ss ss = true := by
        rw [allGoWith_iff]
        intro p hp
        have : ∀ (l : List Ty) (p : Ty × Ty), p ∈ l.zip l → p.1 = p.2 ∧ p.1 ∈ l := by
          intro l p hp
          induction l with
          | nil => simp at hp
          | cons x l ihl =>
            simp only [List.zip_cons_cons, List.mem_cons] at hp
            rcases hp with hp | hp
            · subst hp; simp
            · have := ihl hp; exact ⟨this.1, by simp [this.2]⟩
        obtain ⟨e, hm⟩ := this ss p hp
        rw [← e]
        exact ih p.1 (by have := size_mem hm; simp only [size]; omega)
      have h2 := ih q (by simp only [size]; omega)
      simp [isAdHoc, isUnreachable, h1, h2]
    | array t => have := ih t (by simp [size]); rw [goesWith.eq_def]; simp [isAdHoc, isUnreachable, this]
    | option t => have := ih t (by simp [size]); rw [goesWith.eq_def]; simp [isAdHoc, isUnreachable, this]
    | result t => have := ih t (by simp [size]); rw [goesWith.eq_def]; simp [isAdHoc, isUnreachable, this]
    | secret t => have := ih t (by simp [size]); rw [goesWith.eq_def]; simp [isAdHoc, this]
    | thread t => have := ih t (by simp [size]); rw [goesWith.eq_def]; simp [isAdHoc, isUnreachable, this]
    | inTy t => have := ih t (by simp [size]); rw [goesWith.eq_def]; simp [isAdHoc, isUnreachable, this]
    | adHoc n t => have := ih t (by simp [size]); rw [goesWith.eq_def]; simp [isAdHoc, isUnreachable, this]
    | _ => rw [goesWith.eq_def]; simp [isAdHoc, isUnreachable, isVoid]

/-- **C04** `unreachable` goes with everything, in both directions. -/
theorem C04_unreachable (t : Ty) :
    unreachable.goesWith t = true ∧ t.goesWith unreachable = true := by
  refine ⟨?_, gw_unreachable_right t⟩
  induction t using single_induction with
  | h a ih =>
    cases a with
    | adHoc n t => rw [gw_swap _ _ rfl]; exact gw_unreachable_right _
    | secret t => rw [gw_secret _ rfl]; exact ih t (by simp [size])
    | _ => rw [goesWith.eq_def]; simp [isAdHoc]

theorem source_not_void {t : Ty} (h : Source t) : t ≠ void ∧ t ≠ unreachable := by
  cases h <;> simp

theorem source_gw_any {t : Ty} (h : Source t) : t.goesWith any = true := by
  induction h with
  | adHoc _ ih => rw [gw_adHoc_plain _ _ _ rfl]; exact ih
  | _ => rw [goesWith.eq_def]; simp [isAdHoc, isUnreachable, isVoid, isAny]

theorem any_gw_source {t : Ty} (h : Source t) : any.goesWith t = true := by
  cases h with
  | adHoc h => rw [gw_swap _ _ rfl, gw_adHoc_plain _ _ _ rfl]; exact source_gw_any h
  | secBool => rw [gw_secret _ rfl, goesWith.eq_def]; simp [isAdHoc, isUnreachable, isVoid]
  | secF64 => rw [gw_secret _ rfl, goesWith.eq_def]; simp [isAdHoc, isUnreachable, isVoid]
  | _ => rw [goesWith.eq_def]; simp [isAdHoc, isUnreachable, isVoid]

/-- **C04** `any` accepts every type of the language and is accepted by every type
of the language, but not `void`. -/
theorem C04_any (t : Ty) (h : Source t) :
    any.goesWith t = true ∧ t.goesWith any = true ∧
    any.goesWith void = false ∧ void.goesWith any = false := by
  refine ⟨any_gw_source h, source_gw_any h, ?_, ?_⟩ <;> rw [goesWith.eq_def] <;>
    simp [isAdHoc, isUnreachable, isVoid]

/-- **C04** `void` goes with `void` only: no type of the language accepts `void` or
is accepted where `void` is declared. -/
theorem C04_void (t : Ty) (h : Source t) :
    void.goesWith void = true ∧ void.goesWith t = false ∧ t.goesWith void = false := by
  refine ⟨C04_refl _, ?_, ?_⟩
  · cases h with
    | adHoc h => rw [gw_swap _ _ rfl, gw_adHoc_void]
    | secBool => rw [gw_secret _ rfl, goesWith.eq_def]; simp [isAdHoc, isUnreachable, isVoid]
    | secF64 => rw [gw_secret _ rfl, goesWith.eq_def]; simp [isAdHoc, isUnreachable, isVoid]
    | _ => rw [goesWith.eq_def]; simp [isAdHoc, isUnreachable, isVoid]
  · cases h with
    | adHoc h => rw [gw_adHoc_void]
    | _ => rw [goesWith.eq_def]; simp [isAdHoc, isUnreachable, isVoid, isAny]

/-- **C04** Two different ad-hoc names are never compatible, whatever they wrap;
the same name reduces to what is wrapped. -/
theorem C04_adHoc_names (m n : String) (s t : Ty) :
    (adHoc m s).goesWith (adHoc n t) = true ↔ m = n ∧ s.goesWith t = true := by
  rw [gw_adHoc_adHoc]; simp

/-- **C04** (partial) An ad-hoc type is compatible with its inner type in both
directions, when the inner type is an ordinary type (not itself ad-hoc and not
`sec[..]`; for those the law fails, see `C04_adHoc_secret_fails`). -/
theorem C04_adHoc_inner_partial (n : String) (t : Ty) (h : Source t)
    (h1 : ∀ m s, t ≠ adHoc m s) (h2 : ∀ s, t ≠ secret s) :
    (adHoc n t).goesWith t = true ∧ t.goesWith (adHoc n t) = true := by
  have hp : t.plain = true := by cases h <;> simp_all [plain]
  have ha : t.isAdHoc = false := by cases h <;> simp_all [isAdHoc]
  rw [gw_swap _ _ ha, gw_adHoc_plain _ _ _ hp]
  exact ⟨C04_refl t, C04_refl t⟩

/-- **C04** finding: `Foo sec[bool]` and its inner type `sec[bool]` are rejected in
both directions, so the law above cannot be stated for all types. -/
theorem C04_adHoc_secret_fails :
    (adHoc "Foo" (secret bool)).goesWith (secret bool) = false ∧
    (secret bool).goesWith (adHoc "Foo" (secret bool)) = false := by
  have h : (adHoc "Foo" (secret bool)).goesWith (secret bool) = false := by
    rw [gw_secret _ rfl, gw_adHoc_plain _ _ _ rfl, goesWith.eq_def]
    simp [isAdHoc, isUnreachable, isAny]
  exact ⟨h, by rw [gw_swap _ _ rfl]; exact h⟩

/-- **C04** The direction matters exactly for secrets: `sec[t]` is accepted where `t`
is declared, but `t` is not accepted where `sec[t]` is declared. -/
theorem C04_secret_direction :
    bool.goesWith (secret bool) = true ∧ (secret bool).goesWith bool = false ∧
    f64.goesWith (secret f64) = true ∧ (secret f64).goesWith f64 = false := by
  refine ⟨?_, ?_, ?_, ?_⟩
  · rw [gw_secret _ rfl]; exact C04_refl _
  · rw [goesWith.eq_def]; simp [isAdHoc, isUnreachable, isAny]
  · rw [gw_secret _ rfl]; exact C04_refl _
  · rw [goesWith.eq_def]; simp [isAdHoc, isUnreachable, isAny]

/-- **C04** Without secrets (and closures) compatibility is symmetric. -/
theorem C04_symm (s t : Ty) (hs : NoSecret s) (ht : NoSecret t) :
    s.goesWith t = t.goesWith s := by
  induction s, t using pair_induction with
  | h a b ih =>
    by_cases ha : a.isAdHoc = true
    · by_cases hb : b.isAdHoc = true
      · cases hs <;> simp [isAdHoc] at ha
        cases ht <;> simp [isAdHoc] at hb
        rename_i n s hs m t ht
        rw [gw_adHoc_adHoc, gw_adHoc_adHoc, ih s t (by simp [size]; omega) hs ht]
        congr 1
        rw [Bool.eq_iff_iff, beq_iff_eq, beq_iff_eq]
        exact eq_comm
      · cases hs <;> simp [isAdHoc] at ha
        rw [gw_swap _ _ (by simpa using hb)]
    · by_cases hb : b.isAdHoc = true
      · cases ht <;> simp [isAdHoc] at hb
        rw [gw_swap _ _ (by simpa using ha)]
      · cases hs <;> cases ht <;> simp [isAdHoc] at ha hb <;>
          (rw [goesWith.eq_def, goesWith.eq_def]) <;> (try simp [isAdHoc, isUnreachable, isVoid, isAny]) <;>
          (apply ih <;> first | assumption | (simp [size]; try omega))

/-! ## C05: soundness -/

/-- The two directions that are proved together (the code swaps them midway). -/
private def Sound (a b : Ty) : Prop :=
  a.goesWith b = true →
    (NoSecret a → Definite b → ∀ v, HasTy b v → HasTy a v) ∧
    (Definite a → NoSecret b → ∀ v, HasTy a v → HasTy b v)

private theorem sound_left_adHoc (n : String) (s b : Ty)
    (ih : ∀ a' b', a'.size + b'.size < (adHoc n s).size + b.size → Sound a' b') :
    Sound (adHoc n s) b := by
  intro h
  cases b with
  | adHoc m t =>
    rw [gw_adHoc_adHoc] at h
    simp only [Bool.and_eq_true] at h
    obtain ⟨i1, i2⟩ := ih s t (by simp only [size]; omega) h.2
    refine ⟨fun ha hb v hv => ?_, fun ha hb v hv => ?_⟩
    · cases ha with | adHoc ha => cases hb with | adHoc hb => exact i1 ha hb v hv
    · cases ha with | adHoc ha => cases hb with | adHoc hb => exact i2 ha hb v hv
  | secret t =>
    rw [gw_secret _ rfl] at h
    obtain ⟨i1, -⟩ := ih (adHoc n s) t (by simp only [size]; omega) h
    refine ⟨fun ha hb v hv => ?_, fun ha hb => by cases hb⟩
    cases hb with
    | secBool => exact i1 ha .bool v hv.1
    | secF64 => exact i1 ha .f64 v hv.1
  | void => rw [gw_adHoc_void] at h; cases h
  | unreachable => exact ⟨fun _ hb => (by cases hb), fun _ hb => (by cases hb)⟩
  | _ =>
    rw [gw_adHoc_plain _ _ _ rfl] at h
    obtain ⟨i1, i2⟩ := ih s _ (by simp only [size]; omega) h
    refine ⟨fun ha hb v hv => ?_, fun ha hb v hv => ?_⟩
    · cases ha with | adHoc ha => exact i1 ha hb v hv
    · cases ha with | adHoc ha => exact i2 ha hb v hv

private theorem sound (a b : Ty) : Sound a b := by
  induction a, b using pair_induction with
  | h a b ih =>
    by_cases ha : a.isAdHoc = true
    · cases a <;> simp [isAdHoc] at ha
      exact sound_left_adHoc _ _ _ ih
    · have ha' : a.isAdHoc = false := by simpa using ha
      by_cases hb : b.isAdHoc = true
      · cases b <;> simp [isAdHoc] at hb
        rename_i n t
        have := sound_left_adHoc n t a (fun a' b' hlt => ih a' b' (by omega))
        intro h
        rw [gw_swap _ _ ha'] at h
        obtain ⟨i1, i2⟩ := this h
        exact ⟨fun x y => i2 y x, fun x y => i1 y x⟩
      · intro h
        by_cases hsb : b.isSecret = true
        · cases b <;> simp [isSecret] at hsb
          rename_i t
          refine ⟨fun hna hdb v hv => ?_, fun _ hnb => by cases hnb⟩
          by_cases hsa : a.isSecret = true
          · cases a <;> simp [isSecret] at hsa
            cases hna
          · rw [gw_secret _ (by simpa using hsa)] at h
            obtain ⟨i1, -⟩ := ih a t (by simp only [size]; omega) h
            cases hdb with
            | secBool => exact i1 hna .bool v hv.1
            | secF64 => exact i1 hna .f64 v hv.1
        · rw [goesWith.eq_def] at h
          constructor
          · intro hna hdb v hv
            cases hna <;> cases hdb <;>
              simp [isAdHoc, isUnreachable, isVoid, isAny, isSecret] at h ha' hb hsb <;>
              first
                | exact hv
                | trivial
                | (obtain ⟨i1, -⟩ := ih _ _ (by simp only [size]; omega) h
                   rename_i h1 _ h2
                   simp only [HasTy] at hv ⊢
                   have i1 := i1 h1 h2
                   first
                     | (obtain ⟨xs, rfl, hx⟩ := hv
                        exact ⟨xs, rfl, fun x hm => i1 x (hx x hm)⟩)
                     | (rcases hv with hv | ⟨x, rfl, hx⟩
                        · exact .inl hv
                        · exact .inr ⟨x, rfl, i1 x hx⟩)
                     | (rcases hv with ⟨x, rfl, hx⟩ | hv
                        · exact .inl ⟨x, rfl, i1 x hx⟩
                        · exact .inr hv)
                     | exact hv)
          · intro hda hnb v hv
            cases hda <;> cases hnb <;>
              simp [isAdHoc, isUnreachable, isVoid, isAny, isSecret] at h ha' hb hsb <;>
              first
                | exact hv
                | trivial
                | (obtain ⟨-, i1⟩ := ih _ _ (by simp only [size]; omega) h
                   rename_i h1 _ h2
                   simp only [HasTy] at hv ⊢
                   have i1 := i1 h1 h2
                   first
                     | (obtain ⟨xs, rfl, hx⟩ := hv
                        exact ⟨xs, rfl, fun x hm => i1 x (hx x hm)⟩)
                     | (rcases hv with hv | ⟨x, rfl, hx⟩
                        · exact .inl hv
                        · exact .inr ⟨x, rfl, i1 x hx⟩)
                     | (rcases hv with ⟨x, rfl, hx⟩ | hv
                        · exact .inl ⟨x, rfl, i1 x hx⟩
                        · exact .inr hv)
                     | exact hv)

/-- **C05** (partial: the declared type contains no `sec[..]` and no closure type;
with those the claim fails, see `C05_secret_unsound` and `C05_closure_unsound`).
If the checker accepts a value of type `t` where `s` is declared, and `t` makes a
definite promise, every value of type `t` is a value of type `s`. -/
theorem C05_sound_no_secret_partial (s t : Ty) (hs : NoSecret s) (ht : Definite t)
    (h : s.goesWith t = true) (v : Val) (hv : HasTy t v) : HasTy s v :=
  (sound s t h).1 hs ht v hv

/-- **C05** (partial: the supplied type contains no ad-hoc name).  Here the declared
type may contain secrets. -/
theorem C05_sound_no_adHoc_partial (s t : Ty) (hs : Source s) (ht : Definite t)
    (hn : NoAdHoc t) (h : s.goesWith t = true) (v : Val) (hv : HasTy t v) : HasTy s v := by
  induction s, t using pair_induction generalizing v with
  | h a b ih =>
    have hb : b.isAdHoc = false := by cases hn <;> rfl
    by_cases ha : a.isAdHoc = true
    · cases a <;> simp [isAdHoc] at ha
      rename_i n s
      cases hs with | adHoc hs =>
      by_cases hsb : b.isSecret = true
      · cases b <;> simp [isSecret] at hsb
        rename_i t
        rw [gw_secret _ rfl] at h
        cases ht with
        | secBool => exact ih (adHoc n s) bool (by simp only [size]; omega) (.adHoc hs) .bool .bool h v hv.1
        | secF64 => exact ih (adHoc n s) f64 (by simp only [size]; omega) (.adHoc hs) .f64 .f64 h v hv.1
      · by_cases hv0 : b = void
        · subst hv0; exact hv.elim
        · have hp : b.plain = true := by
            cases ht <;> simp_all [plain, isSecret, isAdHoc]
          rw [gw_adHoc_plain _ _ _ hp] at h
          exact ih s b (by simp only [size]; omega) hs ht hn h v hv
    · by_cases hsb : b.isSecret = true
      · cases b <;> simp [isSecret] at hsb
        rename_i t
        cases hn with | secret hn =>
        by_cases hsa : a.isSecret = true
        · cases a <;> simp [isSecret] at hsa
          rename_i s
          rw [gw_secret_secret] at h
          refine ⟨?_, hv.2⟩
          cases ht with
          | secBool => exact ih s bool (by simp only [size]; omega) (by cases hs <;> constructor) .bool .bool h v hv.1
          | secF64 => exact ih s f64 (by simp only [size]; omega) (by cases hs <;> constructor) .f64 .f64 h v hv.1
        · rw [gw_secret _ (by simpa using hsa)] at h
          cases ht with
          | secBool => exact ih a bool (by simp only [size]; omega) hs .bool .bool h v hv.1
          | secF64 => exact ih a f64 (by simp only [size]; omega) hs .f64 .f64 h v hv.1
      · rw [goesWith.eq_def] at h
        cases hs <;> cases ht <;>
          simp [isAdHoc, isUnreachable, isVoid, isAny, isSecret] at h ha hb hsb <;>
          first
            | exact hv
            | trivial
            | (cases hn
               rename_i h1 _ h2 h3
               have i1 := ih _ _ (by simp only [size]; omega) h1 h2 h3 h
               simp only [HasTy] at hv ⊢
               first
                 | (obtain ⟨xs, rfl, hx⟩ := hv
                    exact ⟨xs, rfl, fun x hm => i1 x (hx x hm)⟩)
                 | (rcases hv with hv | ⟨x, rfl, hx⟩
                    · exact .inl hv
                    · exact .inr ⟨x, rfl, i1 x hx⟩)
                 | (rcases hv with ⟨x, rfl, hx⟩ | hv
                    · exact .inl ⟨x, rfl, i1 x hx⟩
                    · exact .inr hv)
                 | exact hv)

/-- **C05** finding: `sec[bool]` accepts `Foo bool` although a `Foo bool` need not
carry a secret: the unrestricted claim is false. -/
theorem C05_secret_unsound :
    (secret bool).goesWith (adHoc "Foo" bool) = true ∧ Definite (adHoc "Foo" bool) ∧
    HasTy (adHoc "Foo" bool) (.bool true none) ∧ ¬ HasTy (secret bool) (.bool true none) := by
  refine ⟨?_, .adHoc .bool, ⟨true, none, rfl⟩, ?_⟩
  · rw [gw_swap _ _ rfl, gw_secret _ rfl, gw_adHoc_plain _ _ _ rfl]
    exact C04_refl _
  · rintro ⟨-, ⟨b, s, h⟩ | ⟨x, s, h⟩⟩ <;> cases h

/-- **C05** For closures: a closure type is accepted exactly when it takes as many
arguments as declared and the argument and return types go together one by one. -/
theorem C05_closure_partial (ss ts : List Ty) (q r : Ty) :
    (closure ss q).goesWith (closure ts r) = true ↔
      ss.length = ts.length ∧ (∀ p ∈ ss.zip ts, p.1.goesWith p.2 = true) ∧
        q.goesWith r = true := by
  rw [goesWith.eq_def, ← allGoWith_iff]
  simp only [isAdHoc, isUnreachable]
  by_cases h1 : ss.length = ts.length <;> cases h2 : allGoWith ss ts <;>
    cases h3 : q.goesWith r <;> simp [h1, h2, h3]

/-- **C05** finding: closure arguments are compared in the wrong direction: a closure
that needs a `sec[bool]` is accepted where a closure of `bool` is declared, although
`sec[bool]` does not accept the `bool` the caller will pass. -/
theorem C05_closure_unsound :
    (closure [bool] any).goesWith (closure [secret bool] any) = true ∧
    (secret bool).goesWith bool = false := by
  refine ⟨?_, C04_secret_direction.2.1⟩
  rw [goesWith.eq_def]
  simp [isAdHoc, isUnreachable, allGoWith, C04_refl, C04_secret_direction.1]

/-! ## Non-vacuity -/

example : Source (array (adHoc "Foo" (option (secret f64)))) :=
  .array (.adHoc (.option .secF64))

example : (option any).goesWith (option (array f64)) = true ∧ NoSecret (option any) ∧
    Definite (option (array f64)) ∧ HasTy (option (array f64)) (.option (some (.array []))) := by
  refine ⟨?_, .option .any, .option (.array .f64), ?_⟩
  · rw [goesWith.eq_def]
    simp [isAdHoc, isUnreachable]
    exact (C04_any _ (.array .f64)).1
  · simp [HasTy]

example : (array (secret bool)).goesWith (array (secret bool)) = true ∧
    Source (array (secret bool)) ∧ Definite (array (secret bool)) ∧
    NoAdHoc (array (secret bool)) ∧
    HasTy (array (secret bool)) (.array [.bool true (some [])]) := by
  refine ⟨C04_refl _, .array .secBool, .array .secBool, .array (.secret .bool), ?_⟩
  simp [HasTy]

end Dyon.Ty
