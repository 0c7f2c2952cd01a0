import Verif.Draw.Model
import Verif.Builtin.CloneProps

/-!
# Lemmas for C85
-/

namespace Dyon.Draw

/-! ## Specification -/

namespace Spec

/-- What a pen remembers between drawings: the matrix under which shapes are drawn, and how they are put onto the screen. -/
structure Pen where
  transform : Matrix
  state : DrawState

section
variable [FloatOps] [Gfx]

/-- The pen after a call; `base` is the matrix of the window. -/
def after (base : Matrix) (p : Pen) : Call → Pen
  | .transform rx ry => { p with transform := Gfx.multiply base (matrix rx ry) }
  | .relTransform rx ry => { p with transform := Gfx.multiply p.transform (matrix rx ry) }
  | .stateAlpha => { p with state := Gfx.newAlpha }
  | .stateClip => { p with state := Gfx.newClip }
  | .stateIncrement => { p with state := Gfx.newIncrement }
  | .stateInside => { p with state := Gfx.newInside }
  | .stateOutside => { p with state := Gfx.newOutside }
  | .blendAlpha => { p with state.blend := some .alpha }
  | .blendAdd => { p with state.blend := some .add }
  | .blendLighter => { p with state.blend := some .lighter }
  | .blendMultiply => { p with state.blend := some .multiply }
  | .blendInvert => { p with state.blend := some .invert }
  | .scissor c s => { p with state.scissor := some ((xy c).1.toU32, (xy c).2.toU32, (xy s).1.toU32, (xy s).2.toU32) }
  | .stencilClip v => { p with state.stencil := some (.clip v.toU8) }
  | .stencilInside v => { p with state.stencil := some (.inside v.toU8) }
  | .stencilOutside v => { p with state.stencil := some (.outside v.toU8) }
  | .stencilIncrement => { p with state.stencil := some .increment }
  | _ => p

/-- What a call draws. -/
def drawn (p : Pen) : Call → List Op
  | .clear c => [.clear c]
  | .clearColorbuf c => [.clearColor c]
  | .clearStencil v => [.clearStencil v.toU8]
  | .line c r a b => [.draw (.line c r (xy a) (xy b)) p.state p.transform]
  | .rectangle c k s => [.draw (.rectangle c none (xy k) (xy s)) p.state p.transform]
  | .rectangleBorder r c k s => [.draw (.rectangle c (some r) (xy k) (xy s)) p.state p.transform]
  | .ellipse c k s => [.draw (.ellipse c none 16 (xy k) (xy s)) p.state p.transform]
  | .ellipseResolution c k s n => [.draw (.ellipse c none n.toU32 (xy k) (xy s)) p.state p.transform]
  | .ellipseBorder r c k s => [.draw (.ellipse c (some r) 16 (xy k) (xy s)) p.state p.transform]
  | .ellipseBorderResolution r c k s n => [.draw (.ellipse c (some r) n.toU32 (xy k) (xy s)) p.state p.transform]
  | .circle c m r => [.draw (.ellipse c none 16 (xy (minus m r)) (xy (square r))) p.state p.transform]
  | .circleResolution c m r n => [.draw (.ellipse c none n.toU32 (xy (minus m r)) (xy (square r))) p.state p.transform]
  | .polygon c ps => [.draw (.polygon c (ps.map xy)) p.state p.transform]
  | .text f c s k t => [.draw (.text (.id f.toUsize) c s.toU32 t) p.state (Gfx.trans p.transform (xy k))]
  | .image t k c => [.draw (.image (.id t.toUsize) c none) p.state (Gfx.trans p.transform (xy k))]
  | .imageSource t k c q s => [.draw (.image (.id t.toUsize) c (some (xy q, xy s))) p.state (Gfx.trans p.transform (xy k))]
  | _ => []

/-- The pen after calls one after another. -/
def afterAll (base : Matrix) (p : Pen) (cs : List Call) : Pen := cs.foldl (after base) p

/-- What calls one after another draw. -/
def picture (base : Matrix) : Pen → List Call → List Op
  | _, [] => []
  | p, c :: cs => drawn p c ++ picture base (after base p c) cs

end

/-- The fonts and textures a call uses exist, and there are glyphs for the text. -/
def Known (env : Env) : Call → Prop
  | .text f _ s _ t => f.toUsize < env.fonts ∧ env.glyphs (.id f.toUsize) s.toU32 t = true
  | .image t _ _ => t.toUsize < env.textures
  | .imageSource t _ _ _ _ => t.toUsize < env.textures
  | _ => True

/-- The names of commands, and how many things follow each. -/
def arity : List (String × Nat) :=
  [("clear", 1), ("clear__stencil", 1), ("clear__colorbuf", 1), ("transform__rx_ry", 2), ("rel_transform__rx_ry", 2),
   ("line__color_radius_from_to", 4), ("rectangle__color_corner_size", 3), ("rectangle__border_color_corner_size", 4),
   ("ellipse__color_corner_size_resolution", 4), ("ellipse__border_color_corner_size_resolution", 5),
   ("polygon__color_points", 2), ("text__font_color_size_pos_string", 5), ("image__texture_pos_color", 3),
   ("image__texture_pos_color_srccorner_srcsize", 5), ("draw_state_alpha", 0), ("draw_state_clip", 0),
   ("draw_state_increment", 0), ("draw_state_inside", 0), ("draw_state_outside", 0), ("blend_alpha", 0), ("blend_add", 0),
   ("blend_lighter", 0), ("blend_multiply", 0), ("blend_invert", 0), ("scissor__corner_size", 2), ("stencil__clip", 1),
   ("stencil__inside", 1), ("stencil__outside", 1), ("stencil_increment", 0)]

/-- An entry with nothing to do: not a list, or a list whose first item is a text that is not the name of a command. -/
def Idle : Val → Prop
  | .array (.str name :: _) => ∀ k, (name, k) ∉ arity
  | .array _ => False
  | .ref _ => False
  | _ => True

/-- An entry without references that is long enough: the name of a command is followed by as many things as that command reads, and an
image whose texture is given by number has a number of a texture. -/
inductive Long (env : Env) : Val → Prop
  | other {v : Val} : RefFree v → (∀ it, v ≠ .array it) → Long env v
  | entry {it : List Val} : (∀ v ∈ it, RefFree v) → it ≠ [] →
      (∀ name k, it[0]? = some (.str name) → (name, k) ∈ arity → k < it.length) →
      (∀ x s, it[1]? = some (.f64 x s) → x.toUsize < env.textures) → Long env (.array it)

/-- The list, or a variable with the list. -/
inductive Holds (st : Stack) (vs : List Val) : Val → Prop
  | here : Holds st vs (.array vs)
  | there {i : Nat} : st[i]? = some (.array vs) → Holds st vs (.ref i)

end Spec

/-! ## Lemmas -/

section
variable [FloatOps] [Gfx] {env : Env} {st : Stack} {trace : String} {n : Nat} {base : Matrix}

theorem points_vec4 (ps : List Vec4) : points st (ps.map .vec4) = .ok (ps.map xy) := by
  induction ps with
  | nil => rfl
  | cons p ps ih => simp [points, Pop.get, Pop.bind, ih]

theorem u32_val (x : F64) : x.toU32 % 4294967296 = x.toU32 := by
  have : x.toU32 < 2 ^ 32 := by unfold F64.toU32; omega
  exact Nat.mod_eq_of_lt this

theorem toU32_16 : (F64.ofNat 16).toU32 = 16 := by decide +kernel

/-- The canvas with the pen put back in. -/
def canvas (ops : List Op) (p : Spec.Pen) : Canvas := ⟨ops, p.transform, p.state⟩

theorem entry_array (it : List Val) (name : String) (s : Canvas) :
    entry env st trace n base (.array (.str name :: it)) s = command env st trace n base (.str name :: it) name s := rfl

theorem bind_ok {α β} {m : DM α} {f : α → DM β} {s s' : Canvas} {a : α} (h : m s = (s', .ok a)) : (m >>= f) s = f a s' := by
  show DM.bind m f s = _
  unfold DM.bind
  rw [h]

theorem arg_ok {t : HTy} {it : List Val} {i : Nat} {a : t.T} (h : Pop.elem st (popVar st trace n t) it i = .ok a) (s : Canvas) :
    arg st trace n t it i s = (s, .ok a) := by
  show (s, _) = _
  rw [h]

theorem entry_call (c : Call) (h : Spec.Known env c) (ops : List Op) (p : Spec.Pen) :
    entry env st trace n base c.entry (canvas ops p) =
      (canvas (ops ++ Spec.drawn p c) (Spec.after base p c), .ok ()) := by
  cases c with
  | text f c s k t =>
    obtain ⟨h1, h2⟩ := h
    cases n <;>
    simp [Call.entry, entry_array, command, arg, argXY, DM.lift, Pop.elem, Pop.get, popVar, deepClone, deepCloneWith, fontOf, Val.ofF64, h1, h2,
      shapeAt, u32_val, canvas, Spec.drawn, Spec.after, bind, DM.bind, pure]
  | image t k c =>
    have h1 : t.toUsize < env.textures := h
    cases n <;>
    simp [Call.entry, entry_array, command, arg, argXY, DM.lift, Pop.elem, Pop.get, popVar, deepClone, deepCloneWith, textureOf, Val.ofF64, h1,
      shapeAt, canvas, Spec.drawn, Spec.after, bind, DM.bind, pure]
  | imageSource t k c q s =>
    have h1 : t.toUsize < env.textures := h
    cases n <;>
    simp [Call.entry, entry_array, command, arg, argXY, DM.lift, Pop.elem, Pop.get, popVar, deepClone, deepCloneWith, textureOf, Val.ofF64, h1,
      shapeAt, canvas, Spec.drawn, Spec.after, bind, DM.bind, pure]
  | polygon c ps =>
    simp [Call.entry, entry_array, command, arg, DM.lift, Pop.elem, Pop.get, popVar, points_vec4,
      shape, canvas, Spec.drawn, Spec.after, bind, DM.bind]
  | _ =>
    simp [Call.entry, ellipseEntry, ellipseBorderEntry, entry_array, command, arg, argXY, DM.lift, Pop.elem, Pop.get, popVar, Val.ofF64,
      emit, setState, shape, u32_val, toU32_16, canvas, Spec.drawn, Spec.after, bind, DM.bind, pure] <;> try rfl

theorem entries_append (xs ys : List Val) :
    entries env st trace n base (xs ++ ys) = DM.bind (entries env st trace n base xs) fun _ => entries env st trace n base ys := by
  induction xs with
  | nil => rfl
  | cons x xs ih =>
    funext s
    show DM.bind _ _ s = DM.bind (DM.bind _ _) _ s
    simp only [DM.bind]
    cases h : entry env st trace n base x s with
    | mk s' r =>
      cases r with
      | ok a =>
        show entries env st trace n base (xs ++ ys) s' = _
        rw [ih]
        rfl
      | _ => rfl

theorem entries_calls (cs : List Call) (h : ∀ c ∈ cs, Spec.Known env c) (ops : List Op) (p : Spec.Pen) :
    entries env st trace n base (cs.map Call.entry) (canvas ops p) =
      (canvas (ops ++ Spec.picture base p cs) (Spec.afterAll base p cs), .ok ()) := by
  induction cs generalizing ops p with
  | nil => simp [entries, Spec.picture, Spec.afterAll, pure]
  | cons c cs ih =>
    show DM.bind _ _ _ = _
    unfold DM.bind
    rw [entry_call c (h c (by simp))]
    show entries env st trace n base (cs.map Call.entry) _ = _
    rw [ih fun c hc => h c (by simp [hc])]
    simp [Spec.picture, Spec.afterAll]

theorem command_idle {it : List Val} {name : String} (h : ∀ k, (name, k) ∉ Spec.arity) (s : Canvas) :
    command env st trace n base it name s = (s, .ok ()) := by
  unfold command
  split <;> first | rfl | (exfalso; revert h; simp [Spec.arity])

theorem entry_idle {v : Val} (h : Spec.Idle v) (s : Canvas) : entry env st trace n base v s = (s, .ok ()) := by
  cases v with
  | ref i => exact h.elim
  | array it =>
    cases it with
    | nil => exact h.elim
    | cons w it =>
      cases w with
      | str name => rw [entry_array]; exact command_idle h s
      | _ => exact h.elim
  | _ => rfl

/-! ### No panics -/

/-- No panic. -/
def Fine {α} (m : DM α) : Prop := ∀ s, (m s).2 ≠ .panic

theorem Fine.bind {α β} {m : DM α} {f : α → DM β} (hm : Fine m) (hf : ∀ a, Fine (f a)) : Fine (m >>= f) := by
  intro s
  show (DM.bind m f s).2 ≠ _
  unfold DM.bind
  have := hm s
  cases h : m s with
  | mk s' r =>
    rw [h] at this
    cases r with
    | ok a => exact hf a s'
    | err e => simp
    | panic => exact absurd rfl this
    | running => simp

theorem Fine.pure {α} (a : α) : Fine (Pure.pure a : DM α) := fun _ => by simp [Pure.pure]

theorem Fine.lift {α} {p : Pop α} (h : p ≠ .panic) : Fine (DM.lift p) := fun _ => h

theorem get_refFree {α} {pop : Val → Pop α} {v : Val} (h : RefFree v) : Pop.get st pop v = pop v := by cases h <;> rfl

/-- The types of arguments read by commands. -/
def Read : HTy → Prop
  | .vec4 | .f64 | .u32 | .string | .value => True
  | _ => False

theorem Fine.arg {t : HTy} (ht : Read t) {it : List Val} {i : Nat} (hi : i < it.length) (h : ∀ v ∈ it, RefFree v) :
    Fine (arg st trace n t it i) := by
  apply Fine.lift
  unfold Pop.elem
  rw [List.getElem?_eq_getElem hi]
  have hv : RefFree it[i] := h _ (List.getElem_mem hi)
  simp only [get_refFree hv]
  cases t <;> first
    | exact ht.elim
    | (simp only [popVar, C14_stable st n _ hv]; simp; done)
    | (simp only [popVar]; split <;> simp)

theorem Fine.argXY {it : List Val} {i : Nat} (hi : i < it.length) (h : ∀ v ∈ it, RefFree v) :
    Fine (argXY st trace n it i) :=
  (Fine.arg (t := .vec4) trivial hi h).bind fun _ => Fine.pure _

theorem points_fine {vs : List Val} (h : ∀ v ∈ vs, RefFree v) : points st vs ≠ .panic := by
  induction vs with
  | nil => simp [points]
  | cons v vs ih =>
    have := ih fun w hw => h w (by simp [hw])
    simp only [points, get_refFree (h v (by simp)), Pop.bind]
    cases hp : points st vs with
    | ok ps => cases v <;> simp
    | err e => simp
    | panic => exact absurd hp this
    | running => simp

theorem fontOf_fine (v : Val) : Fine (fontOf env v) := by
  unfold fontOf
  split
  · split
    · exact Fine.pure _
    · exact Fine.lift (by simp)
  · split
    · exact Fine.pure _
    · exact Fine.lift (by simp)
  · exact Fine.lift (by simp)

theorem textureOf_fine {v : Val} (h : ∀ x s, v = .f64 x s → x.toUsize < env.textures) : Fine (textureOf env v) := by
  unfold textureOf
  split
  · rw [if_pos (h _ _ rfl)]
    exact Fine.pure _
  · split
    · exact Fine.pure _
    · exact Fine.lift (by simp)
  · exact Fine.lift (by simp)

omit [FloatOps] [Gfx] in
theorem ok_fine {α} (f : Canvas → Canvas) (a : α) : Fine (fun s => (f s, Pop.ok a)) := fun _ => by simp

theorem textureArg {it : List Val} (h : ∀ v ∈ it, RefFree v) (ht : ∀ x s, it[1]? = some (.f64 x s) → x.toUsize < env.textures)
    {f : Val → DM Unit} (hf : ∀ v, (∀ x s, v = .f64 x s → x.toUsize < env.textures) → Fine (f v)) (hi : 1 < it.length) :
    Fine (arg st trace n .value it 1 >>= f) := by
  have hv : RefFree it[1] := h _ (List.getElem_mem hi)
  have e : Pop.elem st (popVar st trace n .value) it 1 = .ok it[1] := by
    unfold Pop.elem
    rw [List.getElem?_eq_getElem hi]
    simp only [get_refFree hv, popVar, C14_stable st n _ hv]
  intro s
  show (DM.bind _ _ s).2 ≠ _
  unfold DM.bind
  rw [arg_ok e s]
  exact hf _ (fun x sec hx => ht x sec (by rw [List.getElem?_eq_getElem hi, hx])) s

theorem command_fine {it : List Val} {name : String} (h : ∀ v ∈ it, RefFree v)
    (hk : ∀ k, (name, k) ∈ Spec.arity → k < it.length)
    (ht : ∀ x s, it[1]? = some (.f64 x s) → x.toUsize < env.textures) :
    Fine (command env st trace n base it name) := by
  unfold command
  split
  all_goals try exact Fine.pure _
  all_goals try exact ok_fine _ _
  all_goals first | (have hk1 := hk 1 (by decide)) | skip
  all_goals first | (have hk1 := hk 2 (by decide)) | skip
  all_goals first | (have hk1 := hk 3 (by decide)) | skip
  all_goals first | (have hk1 := hk 4 (by decide)) | skip
  all_goals first | (have hk1 := hk 5 (by decide)) | skip
  case h_11 =>
    refine (Fine.arg (by exact trivial) (by omega) h).bind fun color => ?_
    have hv : RefFree it[2] := h _ (List.getElem_mem hk1)
    have e : Pop.elem st Pop.ok it 2 = .ok it[2] := by
      unfold Pop.elem
      rw [List.getElem?_eq_getElem hk1]
      simp only [get_refFree hv]
    intro s
    show (DM.bind _ _ s).2 ≠ _
    unfold DM.bind DM.lift
    rw [e]
    dsimp only
    clear e
    revert hv
    generalize it[2] = v
    intro hv
    cases hv with
    | array hvs => exact Fine.bind (Fine.lift (points_fine hvs)) (fun _ => ok_fine _ _) s
    | _ => exact Fine.pure _ s
  case h_12 =>
    refine (Fine.arg (by exact trivial) (by omega) h).bind fun _ => ?_
    refine (Fine.arg (by exact trivial) (by omega) h).bind fun _ => ?_
    refine (Fine.arg (by exact trivial) (by omega) h).bind fun _ => ?_
    refine (Fine.argXY (by omega) h).bind fun _ => ?_
    refine (Fine.arg (by exact trivial) (by omega) h).bind fun _ => ?_
    refine (fontOf_fine _).bind fun _ => ?_
    refine Fine.bind (ok_fine _ _) fun _ => ?_
    split
    · exact Fine.pure _
    · exact Fine.lift (by simp)
  case h_13 =>
    refine textureArg h ht (fun v hv => ?_) (by omega)
    refine (Fine.argXY (by omega) h).bind fun _ => ?_
    refine (Fine.arg (by exact trivial) (by omega) h).bind fun _ => ?_
    exact (textureOf_fine hv).bind fun _ => ok_fine _ _
  case h_14 =>
    refine textureArg h ht (fun v hv => ?_) (by omega)
    refine (Fine.argXY (by omega) h).bind fun _ => ?_
    refine (Fine.arg (by exact trivial) (by omega) h).bind fun _ => ?_
    refine (Fine.argXY (by omega) h).bind fun _ => ?_
    refine (Fine.argXY (by omega) h).bind fun _ => ?_
    exact (textureOf_fine hv).bind fun _ => ok_fine _ _
  all_goals
    repeat first
      | exact ok_fine _ _
      | refine (Fine.arg (by exact trivial) (by omega) h).bind fun _ => ?_
      | refine (Fine.argXY (by omega) h).bind fun _ => ?_

theorem entry_fine {v : Val} (h : Spec.Long env v) : Fine (entry env st trace n base v) := by
  cases h with
  | other hv hne =>
    cases hv with
    | array _ => exact absurd rfl (hne _)
    | _ => exact ok_fine _ _
  | @entry it hv hne hk ht =>
    have h0 : 0 < it.length := by cases it with | nil => exact absurd rfl hne | cons _ _ => simp
    intro s
    show (DM.bind (arg st trace n .string it 0) _ s).2 ≠ _
    have hv0 : RefFree it[0] := hv _ (List.getElem_mem h0)
    cases e : it[0] with
    | str name =>
      have e' : Pop.elem st (popVar st trace n .string) it 0 = .ok name := by
        unfold Pop.elem
        rw [List.getElem?_eq_getElem h0, e]
        rfl
      unfold DM.bind
      rw [arg_ok e' s]
      exact command_fine hv (fun k hm => hk name k (by rw [List.getElem?_eq_getElem h0, e]) hm) ht s
    | _ =>
      have e' : ∃ m, Pop.elem st (popVar st trace n .string) it 0 = .err m := by
        unfold Pop.elem
        rw [List.getElem?_eq_getElem h0, e]
        rw [e] at hv0
        first | exact ⟨_, rfl⟩ | cases hv0
      obtain ⟨m, e'⟩ := e'
      have e'' : arg st trace n .string it 0 s = (s, .err m) := by
        show (s, _) = _
        rw [e']
      unfold DM.bind
      rw [e'']
      simp

theorem entries_fine {vs : List Val} (h : ∀ v ∈ vs, Spec.Long env v) : Fine (entries env st trace n base vs) := by
  induction vs with
  | nil => exact ok_fine _ _
  | cons v vs ih => exact (entry_fine (h v (by simp))).bind fun _ => ih fun w hw => h w (by simp [hw])

/-- What has been drawn stays. -/
def Adds {α} (m : DM α) : Prop := ∀ s, s.ops <+: (m s).1.ops

theorem Adds.bind {α β} {m : DM α} {f : α → DM β} (hm : Adds m) (hf : ∀ a, Adds (f a)) : Adds (m >>= f) := by
  intro s
  show _ <+: (DM.bind m f s).1.ops
  unfold DM.bind
  have := hm s
  cases h : m s with
  | mk s' r =>
    rw [h] at this
    cases r with
    | ok a => exact this.trans (hf a s')
    | _ => exact this

theorem Adds.lift {α} (p : Pop α) : Adds (DM.lift p) := fun _ => List.prefix_refl _

theorem Adds.pure {α} (a : α) : Adds (Pure.pure a : DM α) := fun _ => List.prefix_refl _

theorem Adds.arg {t : HTy} {it : List Val} {i : Nat} : Adds (arg st trace n t it i) := Adds.lift _

theorem Adds.argXY {it : List Val} {i : Nat} : Adds (argXY st trace n it i) := Adds.arg.bind fun _ => Adds.pure _

theorem Adds.fontOf (v : Val) : Adds (fontOf env v) := by
  unfold Draw.fontOf
  repeat' split
  all_goals first | exact Adds.pure _ | exact Adds.lift _

theorem Adds.textureOf (v : Val) : Adds (textureOf env v) := by
  unfold Draw.textureOf
  repeat' split
  all_goals first | exact Adds.pure _ | exact Adds.lift _

theorem Adds.command (it : List Val) (name : String) : Adds (command env st trace n base it name) := by
  unfold Draw.command
  split
  all_goals
    repeat' first
      | exact Adds.pure _
      | exact Adds.lift _
      | exact fun _ => List.prefix_append _ _
      | exact fun _ => List.prefix_refl _
      | exact Adds.arg
      | exact Adds.argXY
      | exact Adds.fontOf _
      | exact Adds.textureOf _
      | refine Adds.bind ?_ fun _ => ?_
      | split

theorem Adds.entry (v : Val) : Adds (entry env st trace n base v) := by
  refine Adds.bind (Adds.lift _) fun w => ?_
  split
  · exact Adds.arg.bind fun _ => Adds.command _ _
  · exact Adds.pure _

theorem Adds.entries (vs : List Val) : Adds (entries env st trace n base vs) := by
  induction vs with
  | nil => exact Adds.pure _
  | cons v vs ih => exact (Adds.entry v).bind fun _ => ih

theorem draw2d_holds {l : Val} {vs : List Val} (h : Spec.Holds st vs l) (state : DrawState) :
    draw2d env trace n base state (st ++ [l]) =
      ((entries env st trace n base vs (canvas [] ⟨base, state⟩)).1.ops, (entries env st trace n base vs (canvas [] ⟨base, state⟩)).2) := by
  unfold draw2d
  simp only [List.getLast?_append_of_ne_nil, List.getLast?_singleton, List.dropLast_concat, Option.some_or, List.getLast?_append]
  cases h with
  | here => rfl
  | there hi => simp only [Pop.get, hi]; rfl

end
end Dyon.Draw
