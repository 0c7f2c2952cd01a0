import Verif.Draw.Lemmas

/-!
# C85: what a program adds to the draw list is drawn

The specification is in `Verif.Draw.Lemmas`, namespace `Spec`: what each function of graphics2d.dyon draws with a pen, and how it
changes the pen.
-/

namespace Dyon.Draw

section
variable [FloatOps] [Gfx] {env : Env} {st : Stack} {trace : String} {n : Nat} {base : Matrix} {state : DrawState}

/-- **C85.**  The calls of drawing functions, in any number and order, are drawn by `draw_2d` one after another, each with the matrix and
the draw state left by those before it, and nothing else is drawn.  The list may be given itself or in a variable. -/
theorem C85_drawn {cs : List Call} {l : Val} (hl : Spec.Holds st (cs.map Call.entry) l) (h : ∀ c ∈ cs, Spec.Known env c) :
    draw2d env trace n base state (st ++ [l]) = (Spec.picture base ⟨base, state⟩ cs, .ok ()) := by
  rw [draw2d_holds hl, entries_calls cs h]
  simp [canvas]

/-- What is drawn for the beginning of a list stays drawn whatever follows it; after an error or a panic nothing more is drawn. -/
theorem C85_order {xs ys : List Val} {l l' : Val} (hl : Spec.Holds st xs l) (hl' : Spec.Holds st (xs ++ ys) l') :
    (draw2d env trace n base state (st ++ [l])).1 <+: (draw2d env trace n base state (st ++ [l'])).1 ∧
    ((draw2d env trace n base state (st ++ [l])).2 ≠ .ok () →
      draw2d env trace n base state (st ++ [l']) = draw2d env trace n base state (st ++ [l])) := by
  rw [draw2d_holds hl, draw2d_holds hl', entries_append]
  unfold DM.bind
  cases h : entries env st trace n base xs (canvas [] ⟨base, state⟩) with
  | mk s r =>
    cases r with
    | ok a => exact ⟨Adds.entries ys s, fun hne => absurd rfl hne⟩
    | _ => exact ⟨List.prefix_refl _, fun _ => rfl⟩

/-- Entries that are not lists, and lists that do not begin with the name of a command, are as if they were not there. -/
theorem C85_idle {xs ys : List Val} {v l l' : Val} (hv : Spec.Idle v) (hl : Spec.Holds st (xs ++ v :: ys) l)
    (hl' : Spec.Holds st (xs ++ ys) l') :
    draw2d env trace n base state (st ++ [l]) = draw2d env trace n base state (st ++ [l']) := by
  have e : entries env st trace n base (v :: ys) = entries env st trace n base ys := by
    funext s
    show DM.bind _ _ s = _
    unfold DM.bind
    rw [entry_idle hv]
  rw [draw2d_holds hl, draw2d_holds hl', entries_append, entries_append, e]

/-- A text with the number of a font that is not there ends drawing with an error; what comes before it is drawn. -/
theorem C85_font {cs : List Call} {f s : F64} {c p : Vec4} {t : String} {rest : List Val} {l : Val}
    (hl : Spec.Holds st (cs.map Call.entry ++ (Call.text f c s p t).entry :: rest) l) (h : ∀ c ∈ cs, Spec.Known env c)
    (hf : env.fonts ≤ f.toUsize) :
    draw2d env trace n base state (st ++ [l]) = (Spec.picture base ⟨base, state⟩ cs, .err "Font index out of bounds") := by
  have e : ∀ k, entry env st trace n base (Call.text f c s p t).entry k = (k, .err "Font index out of bounds") := by
    intro k
    have : ¬ f.toUsize < env.fonts := by omega
    cases n <;>
    simp [Call.entry, entry_array, command, arg, argXY, DM.lift, Pop.elem, Pop.get, popVar, deepClone, deepCloneWith, fontOf, Val.ofF64,
      this, bind, DM.bind, pure]
  rw [draw2d_holds hl, entries_append]
  unfold DM.bind
  rw [entries_calls cs h]
  simp only [entries, bind, DM.bind, e]
  simp [canvas]

/-- The claim that drawing never panics is proved for lists whose entries have no references and as many items as their commands read,
and whose images have numbers of textures that are there.  `C85_short_panics` and `C85_texture_panics` show that it is false
without this. -/
theorem C85_no_panic_partial {vs : List Val} {l : Val} (hl : Spec.Holds st vs l) (h : ∀ v ∈ vs, Spec.Long env v) :
    (draw2d env trace n base state (st ++ [l])).2 ≠ .panic := by
  rw [draw2d_holds hl]
  exact entries_fine h _

/-- An image with the number of a texture that is not there panics (`textures[id as usize]`), unlike a text with such a font. -/
theorem C85_texture_panics {cs : List Call} {t : F64} {p c : Vec4} {rest : List Val} {l : Val}
    (hl : Spec.Holds st (cs.map Call.entry ++ (Call.image t p c).entry :: rest) l) (h : ∀ c ∈ cs, Spec.Known env c)
    (ht : env.textures ≤ t.toUsize) :
    draw2d env trace n base state (st ++ [l]) = (Spec.picture base ⟨base, state⟩ cs, .panic) := by
  have e : ∀ k, entry env st trace n base (Call.image t p c).entry k = (k, .panic) := by
    intro k
    have : ¬ t.toUsize < env.textures := by omega
    cases n <;>
    simp [Call.entry, entry_array, command, arg, argXY, DM.lift, Pop.elem, Pop.get, popVar, deepClone, deepCloneWith, textureOf, Val.ofF64,
      this, bind, DM.bind, pure]
  rw [draw2d_holds hl, entries_append]
  unfold DM.bind
  rw [entries_calls cs h]
  simp only [entries, bind, DM.bind, e]
  simp [canvas]

/-- An empty entry panics, and so does the name of a command with nothing after it (`it[0]`, `it[1]`). -/
theorem C85_short_panics :
    draw2d env trace n base state (st ++ [.array [.array []]]) = ([], .panic) ∧
    draw2d env trace n base state (st ++ [.array [.array [.str "clear"]]]) = ([], .panic) := by
  constructor <;> rw [draw2d_holds .here] <;> rfl

end

/-! ## Examples -/

/-- A `Gfx` for the examples. -/
def demoGfx : Gfx where
  multiply a b := ⟨a.rx, b.ry⟩
  trans a _ := a
  newAlpha := ⟨some .alpha, none, none⟩
  newClip := ⟨none, some (.clip 255), none⟩
  newIncrement := ⟨none, some .increment, none⟩
  newInside := ⟨some .alpha, some (.inside 255), none⟩
  newOutside := ⟨some .alpha, some (.outside 255), none⟩

/-- One font and two textures. -/
def demoEnv : Env := ⟨1, 2, fun _ => none, fun _ => none, fun _ _ _ => true⟩

section
variable [FloatOps] (c p q : Vec4)

attribute [local instance] demoGfx

/-- A picture: a line, then under a new matrix and with another blend a text and an image. -/
def demoCalls : List Call :=
  [.clear c, .line c (F64.ofNat 2) p q, .blendAdd, .relTransform p q, .text (F64.ofNat 0) c (F64.ofNat 12) p "hi",
   .image (F64.ofNat 1) p c, .transform p q, .stencilClip (F64.ofNat 300), .polygon c [p, q]]

theorem demoCalls_known : ∀ k ∈ demoCalls c p q, Spec.Known demoEnv k := by
  have h0 : (F64.ofNat 0).toUsize = 0 := by decide +kernel
  have h1 : (F64.ofNat 1).toUsize < 2 := by decide +kernel
  simp [demoCalls, Spec.Known, demoEnv, h0, h1]

/-- The hypotheses of `C85_drawn` are met by a list in a variable, and the picture has five drawings. -/
example (m : Matrix) (d : DrawState) :
    draw2d demoEnv "" 0 m d ([.array ((demoCalls c p q).map Call.entry)] ++ [.ref 0]) =
      (Spec.picture m ⟨m, d⟩ (demoCalls c p q), .ok ()) ∧ (Spec.picture m ⟨m, d⟩ (demoCalls c p q)).length = 5 :=
  ⟨C85_drawn (.there rfl) (demoCalls_known c p q), rfl⟩

/-- The last drawing has the matrix of `transform` alone, and the blend and the stencil set before it. -/
example (m : Matrix) (d : DrawState) : (Spec.picture m ⟨m, d⟩ (demoCalls c p q)).getLast? =
    some (.draw (.polygon c [xy p, xy q]) { d with blend := some .add, stencil := some (.clip 255) } (Gfx.multiply m (matrix p q))) := by
  have : (F64.ofNat 300).toU8 = 255 := by decide +kernel
  simp [Spec.picture, demoCalls, Spec.drawn, Spec.after, this]

example : Spec.Idle (.array [.str "hello", .ofF64 0]) ∧ Spec.Idle (.ofF64 0) := by
  refine ⟨?_, trivial⟩
  intro k
  simp [Spec.arity]

example : ∃ v, Spec.Long demoEnv v ∧ v = .array [.str "clear", .str "not a color"] := by
  refine ⟨_, .entry ?_ (by simp) ?_ (by simp), rfl⟩
  · simp only [List.mem_cons, List.not_mem_nil, or_false]
    rintro v (rfl | rfl) <;> exact .str
  · intro name k h1 h2
    simp only [List.getElem?_cons_zero, Option.some.injEq, Val.str.injEq] at h1
    subst h1
    simp [Spec.arity] at h2
    simp [h2]

end
end Dyon.Draw
