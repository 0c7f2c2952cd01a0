import Verif.Host.Embed

/-!
# Model of drawing in 2D from a list

`draw_2d` of `interactive/src/lib.rs`, which walks through a list made by a program and draws, and the functions of
`interactive/src/graphics2d.dyon` that add to that list.

The crates `graphics` and `texture` are external: what reaches them is recorded as a list of `Op`, products of matrices and the
ready-made draw states are those of `Gfx`, about which nothing is assumed.  Textures and fonts are known by number or by Rust object;
which of them exist is given by `Env`.  The functions `rotate`, `translate`, `scale`, `zoom` and `shear` and those with `alpha` of
graphics2d.dyon, which add an entry `rel_transform__rx_ry` or an image with a computed vector, are in `Moves.lean`.
-/

namespace Dyon

/-- `x as u8`: towards zero, within the bounds, `NaN` is 0. -/
def F64.toU8 (x : F64) : Nat := min (F64.toUsize x) 255

namespace Draw

/-- `Matrix2d = [[f64; 3]; 2]`. -/
structure Matrix where
  rx : F64 × F64 × F64
  ry : F64 × F64 × F64
deriving DecidableEq, Repr

/-- `graphics::draw_state::Blend`. -/
inductive Blend where
  | alpha | add | lighter | multiply | invert
deriving DecidableEq, Repr

/-- `graphics::draw_state::Stencil`. -/
inductive Stencil where
  | clip (v : Nat) | inside (v : Nat) | outside (v : Nat) | increment
deriving DecidableEq, Repr

/-- `graphics::DrawState`. -/
structure DrawState where
  blend : Option Blend
  stencil : Option Stencil
  scissor : Option (Nat × Nat × Nat × Nat)
deriving DecidableEq, Repr

/-- The parts of the crate `graphics` used by `draw_2d`. -/
class Gfx where
  /-- `math::multiply` -/
  multiply : Matrix → Matrix → Matrix
  /-- `Transformed::trans` -/
  trans : Matrix → F64 × F64 → Matrix
  newAlpha : DrawState
  newClip : DrawState
  newIncrement : DrawState
  newInside : DrawState
  newOutside : DrawState

/-- A font or a texture: by number, or by Rust object. -/
inductive Handle where
  | id (n : Nat)
  | object (i : Nat)
deriving DecidableEq, Repr

/-- What is drawn. -/
inductive Shape where
  | line (color : Vec4) (radius : F64) (start stop : F64 × F64)
  | rectangle (color : Vec4) (border : Option F64) (corner size : F64 × F64)
  | ellipse (color : Vec4) (border : Option F64) (resolution : Nat) (corner size : F64 × F64)
  | polygon (color : Vec4) (points : List (F64 × F64))
  | text (font : Handle) (color : Vec4) (size : Nat) (string : String)
  | image (texture : Handle) (color : Vec4) (source : Option ((F64 × F64) × (F64 × F64)))
deriving DecidableEq, Repr

/-- A call to the crate `graphics`. -/
inductive Op where
  | clear (color : Vec4)
  | clearStencil (v : Nat)
  | clearColor (color : Vec4)
  | draw (shape : Shape) (state : DrawState) (transform : Matrix)
deriving DecidableEq, Repr

/-- The numbers of fonts and textures, the errors for Rust objects that are locked or of another kind, and whether the glyphs of a text
can be got. -/
structure Env where
  fonts : Nat
  textures : Nat
  fontObject : Nat → Option String
  textureObject : Nat → Option String
  glyphs : Handle → Nat → String → Bool

/-- What `draw_2d` has done and remembers: the calls to `graphics`, `transform` and `c.draw_state`. -/
structure Canvas where
  ops : List Op
  transform : Matrix
  state : DrawState
deriving DecidableEq, Repr

/-- Code that draws and may end with an error or a panic. -/
abbrev DM (α : Type) := Canvas → Canvas × Pop α

/-- `?` and sequence. -/
def DM.bind {α β} (m : DM α) (f : α → DM β) : DM β := fun s =>
  match m s with
  | (s, .ok a) => f a s
  | (s, .err e) => (s, .err e)
  | (s, .panic) => (s, .panic)
  | (s, .running) => (s, .running)

instance : Monad DM where
  pure a := fun s => (s, .ok a)
  bind := DM.bind

/-- Something that does not draw. -/
def DM.lift {α} (p : Pop α) : DM α := fun s => (s, p)

/-- A call to `graphics`. -/
def emit (o : Op) : DM Unit := fun s => ({ s with ops := s.ops ++ [o] }, .ok ())

/-- `.draw(.., &c.draw_state, transform, g)`. -/
def shape (sh : Shape) : DM Unit := fun s => ({ s with ops := s.ops ++ [.draw sh s.state s.transform] }, .ok ())

/-- Changes `c.draw_state`. -/
def setState (f : DrawState → DrawState) : DM Unit := fun s => ({ s with state := f s.state }, .ok ())

section
variable [FloatOps] [Gfx] (env : Env) (st : Stack) (trace : String) (n : Nat)

/-- `.draw(.., &c.draw_state, transform.trans(pos[0], pos[1]), g)`. -/
def shapeAt (pos : F64 × F64) (sh : Shape) : DM Unit := fun s =>
  ({ s with ops := s.ops ++ [.draw sh s.state (Gfx.trans s.transform pos)] }, .ok ())

/-- `rt.var(&it[i])?`, runtime/mod.rs:412-414. -/
def arg (t : HTy) (it : List Val) (i : Nat) : DM t.T := DM.lift (Pop.elem st (popVar st trace n t) it i)

/-- `[f64; 2]` of a vector, embed.rs:439-448. -/
def xy (v : Vec4) : F64 × F64 := (FloatOps.ofF32 v.x, FloatOps.ofF32 v.y)

/-- `rt.var_vec4::<[f64; 2]>(&it[i])?`, runtime/mod.rs:451-456. -/
def argXY (it : List Val) (i : Nat) : DM (F64 × F64) := do
  let v ← arg st trace n .vec4 it i
  pure (xy v)

/-- The matrix of two vectors, interactive/src/lib.rs:673-676, 683-686. -/
def matrix (rx ry : Vec4) : Matrix :=
  ⟨(FloatOps.ofF32 rx.x, FloatOps.ofF32 rx.y, FloatOps.ofF32 rx.z), (FloatOps.ofF32 ry.x, FloatOps.ofF32 ry.y, FloatOps.ofF32 ry.z)⟩

/-- The vectors among the points, interactive/src/lib.rs:737-743; the others are left out. -/
def points : List Val → Pop (List (F64 × F64))
  | [] => .ok []
  | v :: vs => (Pop.get st Pop.ok v).bind fun w => (points vs).bind fun ps =>
    match w with
    | .vec4 p => .ok (xy p :: ps)
    | _ => .ok ps

/-- The font of a text, interactive/src/lib.rs:755-777. -/
def fontOf (v : Val) : DM Handle :=
  match v with
  | .f64 id _ => if id.toUsize < env.fonts then pure (.id id.toUsize) else DM.lift (.err "Font index out of bounds")
  | .rustObject i => match env.fontObject i with
    | none => pure (.object i)
    | some e => DM.lift (.err e)
  | _ => DM.lift (.err "Expected `f64` (font id) or `any` (rust object)")

/-- The texture of an image, interactive/src/lib.rs:783-802, 812-831. -/
def textureOf (v : Val) : DM Handle :=
  match v with
  | .f64 id _ => if id.toUsize < env.textures then pure (.id id.toUsize) else DM.lift .panic
  | .rustObject i => match env.textureObject i with
    | none => pure (.object i)
    | some e => DM.lift (.err e)
  | _ => DM.lift (.err "Expected `f64` (image id) or `any` (rust object)")

/-- One entry with the name of a command, `match &**ty`, interactive/src/lib.rs:656-889; `base` is `c.transform`. -/
def command (base : Matrix) (it : List Val) (name : String) : DM Unit :=
  match name with
  | "clear" => do
    let color ← arg st trace n .vec4 it 1
    emit (.clear color)
  | "clear__stencil" => do
    let v ← arg st trace n .f64 it 1
    emit (.clearStencil v.toU8)
  | "clear__colorbuf" => do
    let color ← arg st trace n .vec4 it 1
    emit (.clearColor color)
  | "transform__rx_ry" => do
    let rx ← arg st trace n .vec4 it 1
    let ry ← arg st trace n .vec4 it 2
    fun s => ({ s with transform := Gfx.multiply base (matrix rx ry) }, .ok ())
  | "rel_transform__rx_ry" => do
    let rx ← arg st trace n .vec4 it 1
    let ry ← arg st trace n .vec4 it 2
    fun s => ({ s with transform := Gfx.multiply s.transform (matrix rx ry) }, .ok ())
  | "line__color_radius_from_to" => do
    let color ← arg st trace n .vec4 it 1
    let radius ← arg st trace n .f64 it 2
    let start ← argXY st trace n it 3
    let stop ← argXY st trace n it 4
    shape (.line color radius start stop)
  | "rectangle__color_corner_size" => do
    let color ← arg st trace n .vec4 it 1
    let corner ← argXY st trace n it 2
    let size ← argXY st trace n it 3
    shape (.rectangle color none corner size)
  | "rectangle__border_color_corner_size" => do
    let radius ← arg st trace n .f64 it 1
    let color ← arg st trace n .vec4 it 2
    let corner ← argXY st trace n it 3
    let size ← argXY st trace n it 4
    shape (.rectangle color (some radius) corner size)
  | "ellipse__color_corner_size_resolution" => do
    let color ← arg st trace n .vec4 it 1
    let corner ← argXY st trace n it 2
    let size ← argXY st trace n it 3
    let resolution ← arg st trace n .u32 it 4
    shape (.ellipse color none resolution.val corner size)
  | "ellipse__border_color_corner_size_resolution" => do
    let border ← arg st trace n .f64 it 1
    let color ← arg st trace n .vec4 it 2
    let corner ← argXY st trace n it 3
    let size ← argXY st trace n it 4
    let resolution ← arg st trace n .u32 it 5
    shape (.ellipse color (some border) resolution.val corner size)
  | "polygon__color_points" => do
    let color ← arg st trace n .vec4 it 1
    let v ← DM.lift (Pop.elem st Pop.ok it 2)
    match v with
    | .array vs =>
      let ps ← DM.lift (points st vs)
      shape (.polygon color ps)
    | _ => pure ()
  | "text__font_color_size_pos_string" => do
    let font ← arg st trace n .value it 1
    let color ← arg st trace n .vec4 it 2
    let size ← arg st trace n .u32 it 3
    let pos ← argXY st trace n it 4
    let string ← arg st trace n .string it 5
    let h ← fontOf env font
    shapeAt pos (.text h color size.val string)
    if env.glyphs h size.val string then pure () else DM.lift (.err "Could not get glyph")
  | "image__texture_pos_color" => do
    let image ← arg st trace n .value it 1
    let pos ← argXY st trace n it 2
    let color ← arg st trace n .vec4 it 3
    let h ← textureOf env image
    shapeAt pos (.image h color none)
  | "image__texture_pos_color_srccorner_srcsize" => do
    let image ← arg st trace n .value it 1
    let pos ← argXY st trace n it 2
    let color ← arg st trace n .vec4 it 3
    let srccorner ← argXY st trace n it 4
    let srcsize ← argXY st trace n it 5
    let h ← textureOf env image
    shapeAt pos (.image h color (some (srccorner, srcsize)))
  | "draw_state_alpha" => setState fun _ => Gfx.newAlpha
  | "draw_state_clip" => setState fun _ => Gfx.newClip
  | "draw_state_increment" => setState fun _ => Gfx.newIncrement
  | "draw_state_inside" => setState fun _ => Gfx.newInside
  | "draw_state_outside" => setState fun _ => Gfx.newOutside
  | "blend_alpha" => setState fun d => { d with blend := some .alpha }
  | "blend_add" => setState fun d => { d with blend := some .add }
  | "blend_lighter" => setState fun d => { d with blend := some .lighter }
  | "blend_multiply" => setState fun d => { d with blend := some .multiply }
  | "blend_invert" => setState fun d => { d with blend := some .invert }
  | "scissor__corner_size" => do
    let corner ← argXY st trace n it 1
    let size ← argXY st trace n it 2
    setState fun d => { d with scissor := some (corner.1.toU32, corner.2.toU32, size.1.toU32, size.2.toU32) }
  | "stencil__clip" => do
    let v ← arg st trace n .f64 it 1
    setState fun d => { d with stencil := some (.clip v.toU8) }
  | "stencil__inside" => do
    let v ← arg st trace n .f64 it 1
    setState fun d => { d with stencil := some (.inside v.toU8) }
  | "stencil__outside" => do
    let v ← arg st trace n .f64 it 1
    setState fun d => { d with stencil := some (.outside v.toU8) }
  | "stencil_increment" => setState fun d => { d with stencil := some .increment }
  | _ => pure ()

/-- One entry of the list, interactive/src/lib.rs:653-655, 890: entries that are not arrays are passed over. -/
def entry (base : Matrix) (v : Val) : DM Unit := do
  match ← DM.lift (Pop.get st Pop.ok v) with
  | .array it =>
    let name ← arg st trace n .string it 0
    command env st trace n base it name
  | _ => pure ()

/-- `for it in &**arr`, interactive/src/lib.rs:652-891. -/
def entries (base : Matrix) : List Val → DM Unit
  | [] => pure ()
  | v :: vs => do
    entry env st trace n base v
    entries base vs

end

section
variable [FloatOps] [Gfx]

/-- `draw_2d`, interactive/src/lib.rs:635-894, with the list on top of the stack: the calls to `graphics`, and how it ends.  `base` and `state` are those
of the context `c`. -/
def draw2d (env : Env) (trace : String) (n : Nat) (base : Matrix) (state : DrawState) (st : Stack) : List Op × Pop Unit :=
  match st.getLast? with
  | none => ([], .panic)
  | some l =>
    match Pop.get st.dropLast Pop.ok l with
    | .ok (.array vs) =>
      let r := entries env st.dropLast trace n base vs ⟨[], base, state⟩
      (r.1.ops, r.2)
    | .ok _ => ([], .ok ())
    | .err e => ([], .err e)
    | .panic => ([], .panic)
    | .running => ([], .running)

end

/-! ## The functions of graphics2d.dyon -/

/-- A call of a function of graphics2d.dyon with arguments of the types it asks for. -/
inductive Call where
  | clear (color : Vec4)
  | clearColorbuf (color : Vec4)
  | clearStencil (v : F64)
  | line (color : Vec4) (radius : F64) (start stop : Vec4)
  | rectangle (color corner size : Vec4)
  | rectangleBorder (radius : F64) (color corner size : Vec4)
  | ellipse (color corner size : Vec4)
  | ellipseResolution (color corner size : Vec4) (resolution : F64)
  | ellipseBorder (radius : F64) (color corner size : Vec4)
  | ellipseBorderResolution (radius : F64) (color corner size : Vec4) (resolution : F64)
  | circle (color center : Vec4) (radius : F64)
  | circleResolution (color center : Vec4) (radius resolution : F64)
  | polygon (color : Vec4) (points : List Vec4)
  | text (font : F64) (color : Vec4) (size : F64) (pos : Vec4) (string : String)
  | image (texture : F64) (pos color : Vec4)
  | imageSource (texture : F64) (pos color srccorner srcsize : Vec4)
  | transform (rx ry : Vec4)
  | relTransform (rx ry : Vec4)
  | stateAlpha | stateClip | stateIncrement | stateInside | stateOutside
  | blendAlpha | blendAdd | blendLighter | blendMultiply | blendInvert
  | scissor (corner size : Vec4)
  | stencilClip (v : F64)
  | stencilInside (v : F64)
  | stencilOutside (v : F64)
  | stencilIncrement

section
variable [FloatOps]

/-- `center - radius`: the number is taken from all four parts, runtime/mod.rs. -/
def minus (v : Vec4) (x : F64) : Vec4 :=
  let r := FloatOps.toF32 x
  ⟨FloatOps.sub32 v.x r, FloatOps.sub32 v.y r, FloatOps.sub32 v.z r, FloatOps.sub32 v.w r⟩

/-- `(width, width)` for `width := 2 * radius`. -/
def square (radius : F64) : Vec4 :=
  let w := FloatOps.toF32 (FloatOps.mul (F64.ofNat 2) radius)
  ⟨w, w, F32.zero, F32.zero⟩

/-- The entry `["ellipse__color_corner_size_resolution", color, corner, size, resolution]`, graphics2d.dyon:40-44. -/
def ellipseEntry (color corner size : Vec4) (resolution : F64) : Val :=
  .array [.str "ellipse__color_corner_size_resolution", .vec4 color, .vec4 corner, .vec4 size, .ofF64 resolution]

/-- The entry of an ellipse with a border, graphics2d.dyon:46-51. -/
def ellipseBorderEntry (radius : F64) (color corner size : Vec4) (resolution : F64) : Val :=
  .array [.str "ellipse__border_color_corner_size_resolution", .ofF64 radius, .vec4 color, .vec4 corner, .vec4 size, .ofF64 resolution]

/-- The entry a function pushes to `draw_list`, graphics2d.dyon:8-236.  `push` stores a deep clone, so that there is no reference in
it. -/
def Call.entry : Call → Val
  | .clear c => .array [.str "clear", .vec4 c]
  | .clearColorbuf c => .array [.str "clear__colorbuf", .vec4 c]
  | .clearStencil v => .array [.str "clear__stencil", .ofF64 v]
  | .line c r a b => .array [.str "line__color_radius_from_to", .vec4 c, .ofF64 r, .vec4 a, .vec4 b]
  | .rectangle c p s => .array [.str "rectangle__color_corner_size", .vec4 c, .vec4 p, .vec4 s]
  | .rectangleBorder r c p s => .array [.str "rectangle__border_color_corner_size", .ofF64 r, .vec4 c, .vec4 p, .vec4 s]
  | .ellipse c p s => ellipseEntry c p s (F64.ofNat 16)
  | .ellipseResolution c p s k => ellipseEntry c p s k
  | .ellipseBorder r c p s => ellipseBorderEntry r c p s (F64.ofNat 16)
  | .ellipseBorderResolution r c p s k => ellipseBorderEntry r c p s k
  | .circle c p r => ellipseEntry c (minus p r) (square r) (F64.ofNat 16)
  | .circleResolution c p r k => ellipseEntry c (minus p r) (square r) k
  | .polygon c ps => .array [.str "polygon__color_points", .vec4 c, .array (ps.map .vec4)]
  | .text f c s p t => .array [.str "text__font_color_size_pos_string", .ofF64 f, .vec4 c, .ofF64 s, .vec4 p, .str t]
  | .image t p c => .array [.str "image__texture_pos_color", .ofF64 t, .vec4 p, .vec4 c]
  | .imageSource t p c k s =>
    .array [.str "image__texture_pos_color_srccorner_srcsize", .ofF64 t, .vec4 p, .vec4 c, .vec4 k, .vec4 s]
  | .transform rx ry => .array [.str "transform__rx_ry", .vec4 rx, .vec4 ry]
  | .relTransform rx ry => .array [.str "rel_transform__rx_ry", .vec4 rx, .vec4 ry]
  | .stateAlpha => .array [.str "draw_state_alpha"]
  | .stateClip => .array [.str "draw_state_clip"]
  | .stateIncrement => .array [.str "draw_state_increment"]
  | .stateInside => .array [.str "draw_state_inside"]
  | .stateOutside => .array [.str "draw_state_outside"]
  | .blendAlpha => .array [.str "blend_alpha"]
  | .blendAdd => .array [.str "blend_add"]
  | .blendLighter => .array [.str "blend_lighter"]
  | .blendMultiply => .array [.str "blend_multiply"]
  | .blendInvert => .array [.str "blend_invert"]
  | .scissor p s => .array [.str "scissor__corner_size", .vec4 p, .vec4 s]
  | .stencilClip v => .array [.str "stencil__clip", .ofF64 v]
  | .stencilInside v => .array [.str "stencil__inside", .ofF64 v]
  | .stencilOutside v => .array [.str "stencil__outside", .ofF64 v]
  | .stencilIncrement => .array [.str "stencil_increment"]

end
end Draw
end Dyon
