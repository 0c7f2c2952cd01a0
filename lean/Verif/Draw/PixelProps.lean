import Verif.Draw.Pixels
import Verif.Host.EmbedProps

/-!
# C86: pixels of images

## Specification

A world has images under numbers and in Rust objects, each with a size and a pixel at every position inside.
-/

namespace Dyon.Draw
namespace Spec

/-- The image at a place. -/
def image (w : World) : Slot → Option Image
  | .num n => w.images[n]?
  | .obj i => match w.objects[i]? with
    | some (.image i) => some i
    | _ => none

/-- Width and height. -/
def size (w : World) (s : Slot) : Option (Nat × Nat) := (image w s).map fun i => (i.w, i.h)

/-- The pixel in column `x` and row `y`. -/
def look (w : World) (s : Slot) (x y : Nat) : Option Pixel :=
  (image w s).bind fun i => if x < i.w ∧ y < i.h then i.data[y * i.w + x]? else none

/-- Every image has as many pixels as its size says. -/
def Sound (w : World) : Prop := ∀ s i, image w s = some i → i.data.length = i.w * i.h

/-- A value that tells the place of an image. -/
inductive Means : Val → Slot → Prop
  | num {x : F64} {sec : Option (List Val)} : Means (.f64 x sec) (.num x.toUsize)
  | obj {i : Nat} : Means (.rustObject i) (.obj i)

end Spec

/-! ## Lemmas -/

theorem row_lt {x y w h : Nat} (hx : x < w) (hy : y < h) : y * w + x < w * h := by
  calc y * w + x < y * w + w := by omega
    _ = (y + 1) * w := by rw [Nat.add_mul, Nat.one_mul]
    _ ≤ h * w := Nat.mul_le_mul_right w hy
    _ = w * h := Nat.mul_comm _ _

theorem row_inj {x y x' y' w : Nat} (hx : x < w) (hx' : x' < w) (h : y * w + x = y' * w + x') : x = x' ∧ y = y' := by
  have h1 : x = x' := by
    have := congrArg (· % w) h
    simpa [Nat.add_mod, Nat.mod_eq_of_lt hx, Nat.mod_eq_of_lt hx'] using this
  subst h1
  have h2 : y * w = y' * w := by omega
  exact ⟨rfl, Nat.eq_of_mul_eq_mul_right (by omega) h2⟩

theorem find_ok {w : World} {s : Slot} {i : Image} (h : Spec.image w s = some i) : w.find s = .ok i := by
  cases s with
  | num n => simp only [Spec.image] at h; simp [World.find, h]
  | obj k =>
    simp only [Spec.image] at h
    split at h
    · next j hj => cases h; simp [World.find, hj]
    · cases h

theorem find_err {w : World} {s : Slot} (h : Spec.image w s = none) : ∃ e, w.find s = .error e := by
  cases s with
  | num n => simp only [Spec.image] at h; refine ⟨"Image id is out of bounds", ?_⟩; simp only [World.find, h]
  | obj k =>
    simp only [Spec.image] at h
    split at h
    · cases h
    · next hj =>
      simp only [World.find]
      split
      · next i hi => exact absurd hi (hj i)
      · exact ⟨_, rfl⟩
      · exact ⟨_, rfl⟩

theorem image_replace {w : World} {s u : Slot} {i j : Image} (h : Spec.image w s = some i) :
    Spec.image (w.replace s j) u = if u = s then some j else Spec.image w u := by
  cases s with
  | num n =>
    cases u with
    | num m =>
      simp only [Spec.image] at h
      simp only [Spec.image, World.replace, List.getElem?_set, Slot.num.injEq, List.getElem?_eq_some_iff] at *
      obtain ⟨hn, _⟩ := h
      by_cases hm : m = n
      · subst hm; simp [hn]
      · simp [hm, Ne.symm hm]
    | obj k => simp [Spec.image, World.replace]
  | obj n =>
    cases u with
    | num m => simp [Spec.image, World.replace]
    | obj m =>
      have hn : n < w.objects.length := by
        by_contra hc
        simp [Spec.image, List.getElem?_eq_none (Nat.le_of_not_lt hc)] at h
      by_cases hm : m = n
      · subst hm; simp [Spec.image, World.replace, hn]
      · simp only [Spec.image, World.replace, Slot.obj.injEq, hm, if_false, List.getElem?_set, Ne.symm hm]

section
variable [FloatOps] {trace : String} {n : Nat} {w : World} {st : Stack}

theorem popArg_vec4 (v : Vec4) : popArg trace n .vec4 (w, st ++ [.vec4 v]) = ((w, st), .ok v) := by
  simp [popArg, rtPop, Pop.get, popVar]

theorem popArg_str (v : String) : popArg trace n .string (w, st ++ [.str v]) = ((w, st), .ok v) := by
  simp [popArg, rtPop, Pop.get, popVar]

theorem popArg_means {v : Val} {s : Slot} (h : Spec.Means v s) : popArg trace n .value (w, st ++ [v]) = ((w, st), .ok v) := by
  cases h <;> cases n <;> simp [popArg, rtPop, Pop.get, popVar, deepClone, deepCloneWith]

theorem slotOf_means {v : Val} {s : Slot} (h : Spec.Means v s) (k : World × Stack) : slotOf v k = (k, .ok s) := by
  cases h <;> rfl

theorem pbind_ok {α β} {m : PM α} {f : α → PM β} {s s' : World × Stack} {a : α} (h : m s = (s', .ok a)) : (m >>= f) s = f a s' := by
  show PM.bind m f s = _
  unfold PM.bind
  rw [h]

theorem pbind_err {α β} {m : PM α} {f : α → PM β} {s s' : World × Stack} {e : String} (h : m s = (s', .err e)) :
    (m >>= f) s = (s', .err e) := by
  show PM.bind m f s = _
  unfold PM.bind
  rw [h]

theorem imageAt_ok {s : Slot} {i : Image} (h : Spec.image w s = some i) : imageAt s (w, st) = ((w, st), .ok i) := by
  unfold imageAt
  rw [pbind_ok (a := w) (s' := (w, st)) rfl, find_ok h]
  rfl

theorem imageAt_err {s : Slot} (h : Spec.image w s = none) : ∃ e, imageAt s (w, st) = ((w, st), .err e) := by
  obtain ⟨e, he⟩ := find_err h
  refine ⟨e, ?_⟩
  unfold imageAt
  rw [pbind_ok (a := w) (s' := (w, st)) rfl, he]
  rfl

/-! ## Theorems -/

/-- **C86.**  Setting a pixel inside an image changes that pixel to the color in steps of 1/255, and no other pixel of this or another
image, and no size. -/
theorem C86_set {v : Val} {s : Slot} {i : Image} {pos color : Vec4} (hw : Spec.Sound w) (hv : Spec.Means v s) (hi : Spec.image w s = some i)
    (hx : (posOf pos).1 < i.w) (hy : (posOf pos).2 < i.h) :
    ∃ w', pixelSet trace n (w, st ++ [v, .vec4 pos, .vec4 color]) = ((w', st), .ok ()) ∧ Spec.Sound w' ∧
      (∀ u, Spec.size w' u = Spec.size w u) ∧
      ∀ u x y, Spec.look w' u x y =
        if u = s ∧ (x, y) = posOf pos then some ⟨byteOf color.x, byteOf color.y, byteOf color.z, byteOf color.w⟩
        else Spec.look w u x y := by
  have hl := row_lt hx hy
  have hlen := hw s i hi
  refine ⟨w.replace s { i with
      data := i.data.set ((posOf pos).2 * i.w + (posOf pos).1) ⟨byteOf color.x, byteOf color.y, byteOf color.z, byteOf color.w⟩ }, ?_, ?_, ?_, ?_⟩
  · unfold pixelSet
    rw [show st ++ [v, .vec4 pos, .vec4 color] = ((st ++ [v]) ++ [.vec4 pos]) ++ [.vec4 color] by simp]
    rw [pbind_ok (popArg_vec4 color), pbind_ok (popArg_vec4 pos), pbind_ok (popArg_means hv)]
    dsimp only
    rw [pbind_ok (slotOf_means hv _), pbind_ok (imageAt_ok hi)]
    rw [if_neg (by simp; omega), if_pos (by omega)]
    rfl
  · intro u j hj
    rw [image_replace hi] at hj
    split at hj
    · cases hj; simpa using hlen
    · exact hw u j hj
  · intro u
    unfold Spec.size
    rw [image_replace hi]
    split
    · next h => subst h; simp [hi]
    · rfl
  · intro u x y
    unfold Spec.look
    rw [image_replace hi]
    by_cases hu : u = s
    · subst hu
      simp only [if_pos, hi, Option.bind_some, true_and, List.getElem?_set]
      by_cases hb : x < i.w ∧ y < i.h
      · rw [if_pos hb]
        by_cases hp : (x, y) = posOf pos
        · rw [if_pos hp]
          have h1 : (posOf pos).1 = x := by rw [← hp]
          have h2 : (posOf pos).2 = y := by rw [← hp]
          rw [h1, h2] at hl
          rw [h1, h2, if_pos rfl, if_pos (by omega)]
        · rw [if_neg hp, if_neg, if_pos hb]
          intro h
          obtain ⟨h1, h2⟩ := row_inj hx hb.1 h
          exact hp (by rw [← h1, ← h2])
      · rw [if_neg hb, if_neg, if_neg hb]
        intro h
        have h1 : (posOf pos).1 = x := by rw [← h]
        have h2 : (posOf pos).2 = y := by rw [← h]
        omega
    · simp [hu]

/-- Setting a pixel outside an image, or of an image that is not there, is an error and changes nothing. -/
theorem C86_set_outside {v : Val} {s : Slot} {pos color : Vec4} (hv : Spec.Means v s)
    (h : ∀ x y, Spec.size w s = some (x, y) → x ≤ (posOf pos).1 ∨ y ≤ (posOf pos).2) :
    ∃ e, pixelSet trace n (w, st ++ [v, .vec4 pos, .vec4 color]) = ((w, st), .err e) := by
  unfold pixelSet
  rw [show st ++ [v, .vec4 pos, .vec4 color] = ((st ++ [v]) ++ [.vec4 pos]) ++ [.vec4 color] by simp]
  rw [pbind_ok (popArg_vec4 color), pbind_ok (popArg_vec4 pos), pbind_ok (popArg_means hv)]
  dsimp only
  rw [pbind_ok (slotOf_means hv _)]
  cases hi : Spec.image w s with
  | none =>
    obtain ⟨e, he⟩ := imageAt_err (st := st) hi
    exact ⟨e, pbind_err he⟩
  | some i =>
    rw [pbind_ok (imageAt_ok hi)]
    have := h i.w i.h (by simp [Spec.size, hi])
    rw [if_pos (by simpa using this)]
    exact ⟨_, rfl⟩

/-- Reading a pixel inside an image gives its color, as the result `ok(color)`, and changes nothing. -/
theorem C86_get {v : Val} {s : Slot} {pos : Vec4} {p : Pixel} (hv : Spec.Means v s)
    (hp : Spec.look w s (posOf pos).1 (posOf pos).2 = some p) :
    pixelGet trace n (w, st ++ [v, .vec4 pos]) = ((w, st), .ok (.resOk (.vec4 ⟨partOf p.r, partOf p.g, partOf p.b, partOf p.a⟩))) := by
  unfold pixelGet
  rw [show st ++ [v, .vec4 pos] = (st ++ [v]) ++ [.vec4 pos] by simp]
  rw [pbind_ok (popArg_vec4 pos), pbind_ok (popArg_means hv)]
  unfold asResult pixelInner
  dsimp only
  rw [pbind_ok (slotOf_means hv _)]
  unfold Spec.look at hp
  cases hi : Spec.image w s with
  | none => simp [hi] at hp
  | some i =>
    rw [hi] at hp
    simp only [Option.bind_some] at hp
    split at hp
    · next hb =>
      rw [pbind_ok (imageAt_ok hi), if_neg (by simp; omega), hp]
      rfl
    · cases hp

/-- Reading a pixel outside an image, or of an image that is not there, gives the result `err(..)` and changes nothing. -/
theorem C86_get_outside {v : Val} {s : Slot} {pos : Vec4} (hv : Spec.Means v s)
    (h : ∀ x y, Spec.size w s = some (x, y) → x ≤ (posOf pos).1 ∨ y ≤ (posOf pos).2) :
    ∃ e, pixelGet trace n (w, st ++ [v, .vec4 pos]) = ((w, st), .ok (.resErr (.str e) [])) := by
  unfold pixelGet
  rw [show st ++ [v, .vec4 pos] = (st ++ [v]) ++ [.vec4 pos] by simp]
  rw [pbind_ok (popArg_vec4 pos), pbind_ok (popArg_means hv)]
  unfold asResult pixelInner
  dsimp only
  rw [pbind_ok (slotOf_means hv _)]
  cases hi : Spec.image w s with
  | none =>
    obtain ⟨e, he⟩ := imageAt_err (st := st) hi
    exact ⟨e, by rw [pbind_err he]⟩
  | some i =>
    rw [pbind_ok (imageAt_ok hi)]
    have := h i.w i.h (by simp [Spec.size, hi])
    rw [if_pos (by simpa using this)]
    exact ⟨_, rfl⟩

/-- What is set is read, in steps of 1/255. -/
theorem C86_back {v : Val} {s : Slot} {i : Image} {pos color : Vec4} (hw : Spec.Sound w) (hv : Spec.Means v s) (hi : Spec.image w s = some i)
    (hx : (posOf pos).1 < i.w) (hy : (posOf pos).2 < i.h) :
    ∃ w', pixelSet trace n (w, st ++ [v, .vec4 pos, .vec4 color]) = ((w', st), .ok ()) ∧
      pixelGet trace n (w', st ++ [v, .vec4 pos]) = ((w', st), .ok (.resOk (.vec4
        ⟨partOf (byteOf color.x), partOf (byteOf color.y), partOf (byteOf color.z), partOf (byteOf color.w)⟩))) := by
  obtain ⟨w', h1, -, -, h2⟩ := C86_set (trace := trace) (n := n) (st := st) (color := color) hw hv hi hx hy
  refine ⟨w', h1, C86_get (p := ⟨byteOf color.x, byteOf color.y, byteOf color.z, byteOf color.w⟩) hv ?_⟩
  rw [h2, if_pos ⟨rfl, rfl⟩]

/-- `pxl(image, pos)` is declared to give `vec4` (interactive/src/lib.rs:154-156), but never gives one: the type checker accepts programs
that use its result as a vector, and these fail when they run. -/
theorem C86_never_vec4 (k : World × Stack) (u : Vec4) : (pixelGet trace n k).2 ≠ .ok (.vec4 u) := by
  have h : ∀ (m : PM Val) k, (asResult m k).2 ≠ .ok (.vec4 u) := by
    intro m k
    unfold asResult
    split <;> simp
  have hb : ∀ {α} (m : PM α) (f : α → PM Val) (_ : ∀ a k, (f a k).2 ≠ .ok (.vec4 u)) k, ((m >>= f) k).2 ≠ .ok (.vec4 u) := by
    intro α m f hf k
    show (PM.bind m f k).2 ≠ _
    unfold PM.bind
    split
    · exact hf _ _
    · simp
    · simp
    · simp
  exact hb _ _ (fun _ => hb _ _ fun _ => h _) k

/-- A position left of the image is taken for its first column: the claim that every pixel outside is an error is false of positions
below zero. -/
theorem C86_below_zero {v : Val} {s : Slot} {i : Image} {pos color : Vec4} (hw : Spec.Sound w) (hv : Spec.Means v s)
    (hi : Spec.image w s = some i) (hneg : (FloatOps.ofF32 pos.x).neg? = true) (hx : 0 < i.w) (hy : (posOf pos).2 < i.h) :
    ∃ w', pixelSet trace n (w, st ++ [v, .vec4 pos, .vec4 color]) = ((w', st), .ok ()) ∧
      Spec.look w' s 0 (posOf pos).2 = some ⟨byteOf color.x, byteOf color.y, byteOf color.z, byteOf color.w⟩ := by
  have h0 : (posOf pos).1 = 0 := by simp [posOf, F64.toU32, F64.toUsize, hneg]
  obtain ⟨w', h1, -, -, h2⟩ := C86_set (trace := trace) (n := n) (st := st) (color := color) hw hv hi (by omega) hy
  refine ⟨w', h1, ?_⟩
  rw [h2, if_pos ⟨rfl, by rw [← h0]⟩]

theorem image_append {i : Image} (s : Slot) {names : List String} :
    Spec.image { w with images := w.images ++ [i], names := names } s = if s = .num w.images.length then some i else Spec.image w s := by
  cases s with
  | num m =>
    simp only [Spec.image, Slot.num.injEq, List.getElem?_append]
    split
    · next h => rw [if_neg (by omega)]
    · next h =>
      split
      · next h2 => subst h2; simp
      · next h2 =>
        rw [List.getElem?_eq_none (by simp; omega), List.getElem?_eq_none (by omega)]
  | obj m => simp [Spec.image]

theorem Sound.append {i : Image} {names : List String} (hw : Spec.Sound w) (hi : i.data.length = i.w * i.h) :
    Spec.Sound { w with images := w.images ++ [i], names := names } := by
  intro s j hj
  rw [image_append] at hj
  split at hj
  · cases hj; exact hi
  · exact hw s j hj

theorem look_append {i : Image} {names : List String} {s : Slot} {j : Image} (hs : Spec.image w s = some j) :
    Spec.image { w with images := w.images ++ [i], names := names } s = some j := by
  rw [image_append, if_neg, hs]
  rintro rfl
  simp [Spec.image] at hs

/-- Creating an image gives its number.  It has the size asked for and only empty pixels; every image that was there before stays what it
was, under its number. -/
theorem C86_create {name : String} {size : Vec4} (hw : Spec.Sound w) (hc : w.images.length < 2 ^ 53)
    (hfit : 4 * ((posOf size).1 * (posOf size).2) < 2 ^ 64) :
    ∃ w' v s, createImage trace n (w, st ++ [.str name, .vec4 size]) = ((w', st), .ok v) ∧ Spec.Sound w' ∧ Spec.Means v s ∧
      Spec.image w s = none ∧ Spec.size w' s = some (posOf size) ∧
      (∀ x y, x < (posOf size).1 → y < (posOf size).2 → Spec.look w' s x y = some ⟨0, 0, 0, 0⟩) ∧
      ∀ u j, Spec.image w u = some j → Spec.image w' u = some j := by
  have hnum : (F64.ofNatRound w.images.length).toUsize = w.images.length := by
    rw [ofNatRound_small hc, F64.ofNat_toUsize hc]
  let i : Image := ⟨(posOf size).1, (posOf size).2, List.replicate ((posOf size).1 * (posOf size).2) ⟨0, 0, 0, 0⟩⟩
  refine ⟨{ w with images := w.images ++ [i], names := w.names ++ [name] }, .ofF64 (F64.ofNatRound w.images.length), .num w.images.length,
    ?_, Sound.append hw (by simp [i]), ?_, ?_, ?_, ?_, fun u j hu => look_append hu⟩
  · unfold createImage
    rw [show st ++ [.str name, .vec4 size] = (st ++ [.str name]) ++ [.vec4 size] by simp]
    rw [pbind_ok (popArg_vec4 size), pbind_ok (popArg_str name), pbind_ok (a := w) (s' := (w, st)) rfl]
    dsimp only
    unfold newImage
    rw [if_pos hfit]
    rfl
  · rw [← hnum, hnum]
    have := @Spec.Means.num (F64.ofNatRound w.images.length) none
    rwa [hnum] at this
  · simp [Spec.image]
  · simp only [Spec.size, image_append, if_pos, Option.map_some, i]
  · intro x y hx hy
    simp only [Spec.look, image_append, if_pos, Option.bind_some, i, hx, hy, and_self]
    rw [List.getElem?_replicate, if_pos (row_lt hx hy)]

/-- Loading an image gives its number or an error; every image that was there before stays what it was, under its number. -/
theorem C86_load {file : String} {opened : String → Except String Image} (hw : Spec.Sound w) (hc : w.images.length < 2 ^ 53)
    (ho : ∀ i, opened file = .ok i → i.data.length = i.w * i.h) :
    ∃ w' v, loadImage trace n opened (w, st ++ [.str file]) = ((w', st), .ok v) ∧ Spec.Sound w' ∧
      (∀ u j, Spec.image w u = some j → Spec.image w' u = some j) ∧
      ((∃ e, opened file = .error e ∧ v = .resErr (.str e) [] ∧ w' = w) ∨
        ∃ i x s, opened file = .ok i ∧ v = .resOk x ∧ Spec.Means x s ∧ Spec.image w s = none ∧ Spec.image w' s = some i) := by
  have hnum : (F64.ofNatRound w.images.length).toUsize = w.images.length := by
    rw [ofNatRound_small hc, F64.ofNat_toUsize hc]
  unfold loadImage
  rw [pbind_ok (popArg_str file), pbind_ok (a := w) (s' := (w, st)) rfl]
  cases h : opened file with
  | error e => exact ⟨w, _, rfl, hw, fun _ _ hu => hu, .inl ⟨e, rfl, rfl, rfl⟩⟩
  | ok i =>
    refine ⟨_, _, rfl, Sound.append hw (ho i h), fun u j hu => look_append hu, .inr ⟨i, _, .num w.images.length, rfl, rfl, ?_, ?_, ?_⟩⟩
    · have := @Spec.Means.num (F64.ofNatRound w.images.length) none
      rwa [hnum] at this
    · simp [Spec.image]
    · exact (image_append _).trans (by simp)

/-- A size whose pixels do not fit into memory addresses panics. -/
theorem C86_create_panics {name : String} {size : Vec4} (h : 2 ^ 64 ≤ 4 * ((posOf size).1 * (posOf size).2)) :
    (createImage trace n (w, st ++ [.str name, .vec4 size])).2 = .panic := by
  unfold createImage
  rw [show st ++ [.str name, .vec4 size] = (st ++ [.str name]) ++ [.vec4 size] by simp]
  rw [pbind_ok (popArg_vec4 size), pbind_ok (popArg_str name), pbind_ok (a := w) (s' := (w, st)) rfl]
  dsimp only
  unfold newImage
  rw [if_neg (by omega)]
  rfl

/-- **C86.**  `image_size` gives width and height, in this order, as `f32`; an unknown image is an error.  Nothing is changed. -/
theorem C86_image_size {v : Val} {s : Slot} (hv : Spec.Means v s) :
    (∀ x y, Spec.size w s = some (x, y) → imageSize trace n (w, st ++ [v]) =
      ((w, st), .ok (.vec4 ⟨FloatOps.toF32 (F64.ofNat x), FloatOps.toF32 (F64.ofNat y), F32.zero, F32.zero⟩))) ∧
    (Spec.size w s = none → ∃ e, imageSize trace n (w, st ++ [v]) = ((w, st), .err e)) := by
  unfold imageSize Spec.size
  rw [pbind_ok (popArg_means hv), pbind_ok (slotOf_means hv _)]
  cases hi : Spec.image w s with
  | none =>
    obtain ⟨e, he⟩ := imageAt_err (st := st) hi
    exact ⟨by simp, fun _ => ⟨e, pbind_err he⟩⟩
  | some i =>
    rw [pbind_ok (imageAt_ok hi)]
    refine ⟨fun x y h => ?_, by simp⟩
    simp only [Option.map_some, Option.some.injEq, Prod.mk.injEq] at h
    obtain ⟨rfl, rfl⟩ := h
    rfl

/-- **C86.**  The column is the first part of the position and the row the second: whole numbers that fit are taken as they are. -/
theorem C86_position {pos : Vec4} {x y : Nat} (hx : FloatOps.ofF32 pos.x = F64.ofNat x) (hy : FloatOps.ofF32 pos.y = F64.ofNat y)
    (hxs : x < 2 ^ 32) (hys : y < 2 ^ 32) : posOf pos = (x, y) := by
  have h : ∀ k, k < 2 ^ 32 → (F64.ofNat k).toU32 = k := by
    intro k hk
    rw [F64.toU32, F64.ofNat_toUsize (by omega)]
    omega
  rw [posOf, hx, hy, h x hxs, h y hys]

end

/-! ## Examples -/

/-- Two images by number, one in an object. -/
def demoWorld : World :=
  ⟨[⟨1, 1, [⟨1, 2, 3, 4⟩]⟩, ⟨2, 2, [⟨0, 0, 0, 0⟩, ⟨1, 1, 1, 1⟩, ⟨2, 2, 2, 2⟩, ⟨3, 3, 3, 3⟩]⟩], ["a", "b"], [.other, .image ⟨1, 0, []⟩]⟩

/-- The hypotheses of the theorems are met: the world is sound, and image 1 has a pixel in column 1 of row 0. -/
example : Spec.Sound demoWorld ∧ Spec.look demoWorld (.num 1) 1 0 = some ⟨1, 1, 1, 1⟩ ∧ Spec.size demoWorld (.obj 1) = some (1, 0) ∧
    Spec.Means (.ofF64 (F64.ofNat 1)) (.num (F64.ofNat 1).toUsize) ∧ (F64.ofNat 1).toUsize = 1 := by
  refine ⟨?_, rfl, rfl, .num, by decide +kernel⟩
  intro s i h
  cases s with
  | num n =>
    match n with
    | 0 => cases h; rfl
    | 1 => cases h; rfl
    | n + 2 => simp [Spec.image, demoWorld] at h
  | obj n =>
    match n with
    | 0 => simp [Spec.image, demoWorld] at h
    | 1 => simp [Spec.image, demoWorld] at h; subst h; rfl
    | n + 2 => simp [Spec.image, demoWorld] at h

/-- `image_size` of image 1 and of the object 1, and of an image that is not there. -/
example [FloatOps] : Spec.size demoWorld (.num 1) = some (2, 2) ∧ Spec.size demoWorld (.num 2) = none ∧ Spec.size demoWorld (.obj 0) = none ∧
    (imageSize "" 1 (demoWorld, [.rustObject 1])).2 =
      .ok (.vec4 ⟨FloatOps.toF32 (F64.ofNat 1), FloatOps.toF32 (F64.ofNat 0), F32.zero, F32.zero⟩) := by
  refine ⟨rfl, rfl, rfl, ?_⟩
  have := (C86_image_size (trace := "") (n := 1) (w := demoWorld) (st := []) (Spec.Means.obj (i := 1))).1 1 0 rfl
  exact congrArg Prod.snd this

/-- Column 3 of row 5, with a conversion that takes bit patterns for numbers. -/
example : @posOf { exactOps with ofF32 := fun x => F64.ofNat x.toNat } ⟨3, 5, 0, 0⟩ = (3, 5) :=
  @C86_position { exactOps with ofF32 := fun x => F64.ofNat x.toNat } ⟨3, 5, 0, 0⟩ 3 5 rfl rfl (by decide) (by decide)

end Dyon.Draw
