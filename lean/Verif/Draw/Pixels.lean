import Verif.Draw.Model

/-!
# Model of images and their pixels

`load_image`, `create_image__name_size`, `create_image__size`, `image_size`, `pxl__image_pos_color` and `pxl__image_pos` of
`interactive/src/lib.rs`.

The crate `image` is external: an `RgbaImage` is its width, its height and its pixels row after row; `open` gives an image or the text of
an error.  Running out of memory is not modelled.  Rust objects are known by number; the first number that is free is given to a new one.
-/

namespace Dyon.Draw

/-- `Rgba<u8>`. -/
structure Pixel where
  r : Nat
  g : Nat
  b : Nat
  a : Nat
deriving DecidableEq, Repr

/-- `RgbaImage`: width, height, and the pixels row after row. -/
structure Image where
  w : Nat
  h : Nat
  data : List Pixel
deriving DecidableEq, Repr

/-- A Rust object: an image, one that cannot be locked, or something else. -/
inductive Obj where
  | image (i : Image)
  | locked
  | other

/-- The current objects `Vec<RgbaImage>` and `ImageNames`, and the Rust objects. -/
structure World where
  images : List Image
  names : List String
  objects : List Obj

/-- Code of a host function: reads the stack and the images. -/
abbrev PM (α : Type) := World × Stack → (World × Stack) × Pop α

/-- `?` and sequence. -/
def PM.bind {α β} (m : PM α) (f : α → PM β) : PM β := fun s =>
  match m s with
  | (s, .ok a) => f a s
  | (s, .err e) => (s, .err e)
  | (s, .panic) => (s, .panic)
  | (s, .running) => (s, .running)

instance : Monad PM where
  pure a := fun s => (s, .ok a)
  bind := PM.bind

/-- An error. -/
def PM.err {α} (e : String) : PM α := fun s => (s, .err e)

/-- A panic. -/
def PM.panic {α} : PM α := fun s => (s, .panic)

/-- `Current::new()`: reads the images. -/
def PM.world : PM World := fun s => (s, .ok s.1)

/-- Changes the images. -/
def PM.set (w : World) : PM Unit := fun s => ((w, s.2), .ok ())

/-- Where an image is. -/
inductive Slot where
  | num (n : Nat)
  | obj (i : Nat)
deriving DecidableEq, Repr

/-- The image of a slot or the error, interactive/src/lib.rs:541-551, 569-571, 586-588, 608-610, 617-619. -/
def World.find (w : World) : Slot → Except String Image
  | .num n => match w.images[n]? with
    | some i => .ok i
    | none => .error "Image id is out of bounds"
  | .obj i => match w.objects[i]? with
    | some (.image i) => .ok i
    | some .locked => .error "Could not obtain lock on Mutex"
    | _ => .error "Expected RgbaImage"

/-- The image of a slot is changed in place (`&mut RgbaImage`). -/
def World.replace (w : World) (s : Slot) (i : Image) : World :=
  match s with
  | .num n => { w with images := w.images.set n i }
  | .obj k => { w with objects := w.objects.set k (.image i) }

/-- `match image { F64(id, _) => .., RustObject(obj) => .., _ => Err(..) }`, interactive/src/lib.rs:567-597, 605-625. -/
def slotOf (v : Val) : PM Slot :=
  match v with
  | .f64 id _ => pure (.num id.toUsize)
  | .rustObject i => pure (.obj i)
  | _ => PM.err "Expected `f64` (image id) or `any` (rust object)"

/-- The image of a slot. -/
def imageAt (s : Slot) : PM Image := do
  match (← PM.world).find s with
  | .ok i => pure i
  | .error e => PM.err e

section
variable [FloatOps] (trace : String) (n : Nat)

/-- `rt.pop()?`. -/
def popArg (t : HTy) : PM t.T := fun s =>
  let r := rtPop trace n t s.2
  ((s.1, r.2), r.1)

/-- `pos.into()` for `[u32; 2]`, vec4.rs:229-233. -/
def posOf (v : Vec4) : Nat × Nat := ((FloatOps.ofF32 v.x).toU32, (FloatOps.ofF32 v.y).toU32)

/-- `255.0` as `f32`. -/
def f255 : F32 := 0x437f0000#32

/-- `(c * 255.0) as u8`, interactive/src/lib.rs:575-578, 590-593. -/
def byteOf (c : F32) : Nat := (FloatOps.ofF32 (FloatOps.mul32 c f255)).toU8

/-- `c as f32 / 255.0`, interactive/src/lib.rs:627-630. -/
def partOf (b : Nat) : F32 := FloatOps.div32 (FloatOps.toF32 (F64.ofNat b)) f255

/-- `pxl__image_pos_color`, interactive/src/lib.rs:557-599. -/
def pixelSet : PM Unit := do
  let color ← popArg trace n .vec4
  let pos ← popArg trace n .vec4
  let image ← popArg trace n .value
  let (x, y) := posOf pos
  let s ← slotOf image
  let i ← imageAt s
  if x ≥ i.w || y ≥ i.h then PM.err "Pixel is out of image bounds"
  else if y * i.w + x < i.data.length then do
    let w ← PM.world
    PM.set (w.replace s { i with data := i.data.set (y * i.w + x) ⟨byteOf color.x, byteOf color.y, byteOf color.z, byteOf color.w⟩ })
  else PM.panic

/-- The body of `pxl__image_pos`, interactive/src/lib.rs:602-631. -/
def pixelInner (image : Val) (pos : Vec4) : PM Val := do
  let (x, y) := posOf pos
  let s ← slotOf image
  let i ← imageAt s
  if x ≥ i.w || y ≥ i.h then PM.err "Pixel is out of image bounds"
  else match i.data[y * i.w + x]? with
    | some p => pure (.vec4 ⟨partOf p.r, partOf p.g, partOf p.b, partOf p.a⟩)
    | none => PM.panic

/-- `Ok(push_var(&inner(..)))` of `dyon_fn!`, macros.rs:205-216, for an `inner` with a result in Rust, embed.rs:332-341: it becomes a
result in Dyon. -/
def asResult (m : PM Val) : PM Val := fun s =>
  match m s with
  | (s, .ok v) => (s, .ok (.resOk v))
  | (s, .err e) => (s, .ok (.resErr (.str e) []))
  | (s, .panic) => (s, .panic)
  | (s, .running) => (s, .running)

/-- `pxl__image_pos`, interactive/src/lib.rs:601-632, with the arguments read by `dyon_fn!` from the last to the first. -/
def pixelGet : PM Val := do
  let pos ← popArg trace n .vec4
  let image ← popArg trace n .value
  asResult (pixelInner image pos)

/-- `image_size`, interactive/src/lib.rs:534-555. -/
def imageSize : PM Val := do
  let image ← popArg trace n .value
  let s ← slotOf image
  let i ← imageAt s
  pure (.vec4 ⟨FloatOps.toF32 (F64.ofNat i.w), FloatOps.toF32 (F64.ofNat i.h), F32.zero, F32.zero⟩)

/-- `RgbaImage::new`: all parts are 0.  The length in bytes must fit into `usize`. -/
def newImage (w h : Nat) : PM Image :=
  if 4 * (w * h) < 2 ^ 64 then pure ⟨w, h, List.replicate (w * h) ⟨0, 0, 0, 0⟩⟩ else PM.panic

/-- `create_image__name_size`, interactive/src/lib.rs:505-515. -/
def createImage : PM Val := do
  let size ← popArg trace n .vec4
  let name ← popArg trace n .string
  let w ← PM.world
  let (x, y) := posOf size
  let i ← newImage x y
  PM.set { w with images := w.images ++ [i], names := w.names ++ [name] }
  pure (.ofF64 (F64.ofNatRound w.images.length))

/-- `create_image__size`, interactive/src/lib.rs:517-522. -/
def createObject : PM Val := do
  let size ← popArg trace n .vec4
  let w ← PM.world
  let (x, y) := posOf size
  let i ← newImage x y
  PM.set { w with objects := w.objects ++ [.image i] }
  pure (.rustObject w.objects.length)

/-- `load_image`, interactive/src/lib.rs:476-492; `opened` is what `open` and `to_rgba8` give. -/
def loadImage (opened : String → Except String Image) : PM Val := do
  let file ← popArg trace n .string
  let w ← PM.world
  match opened file with
  | .ok i =>
    PM.set { w with images := w.images ++ [i], names := w.names ++ [file] }
    pure (.resOk (.ofF64 (F64.ofNatRound w.images.length)))
  | .error e => pure (.resErr (.str e) [])

end
end Dyon.Draw
