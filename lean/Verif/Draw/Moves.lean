import Verif.Draw.Props
import Verif.Color.Model
import Mathlib.Tactic.NormNum
import Mathlib.Data.Rat.Defs
import Mathlib.Tactic.Ring
import Mathlib.Tactic.LinearCombination

/-!
# C85: the functions of graphics2d.dyon that compute what they add to the draw list

`translate`, `rotate`, `scale`, `zoom`, `shear`, the same around a point, and images in white or with `alpha`.  Their formulas are written
once, for numbers of any kind (`Numbers`): with `F64` they are what the program computes, with exact numbers they are what it means.
-/

namespace Dyon.Draw

/-! ## Model -/

/-- The arithmetic used by the formulas. -/
class Numbers (α : Type) where
  zero : α
  one : α
  neg : α → α
  add : α → α → α
  sub : α → α → α
  mul : α → α → α

/-- Two rows of three numbers. -/
abbrev Rows (α : Type) := (α × α × α) × (α × α × α)

/-- The functions that move what is drawn after them; of an angle the cosine and the sine. -/
inductive Move (α : Type) where
  | translate (x y : α)
  | rotate (cos sin : α)
  | rotateAt (cos sin x y : α)
  | scale (x y : α)
  | scaleAt (x y atx aty : α)
  | zoom (fact : α)
  | zoomAt (fact atx aty : α)
  | shear (x y : α)
  | shearAt (x y atx aty : α)

section
open Numbers

/-- The vectors of the entry, graphics2d.dyon:129-179.  A component that is not written is 0; `-a * b` is `-(a * b)` (assets/syntax.txt:110,
244). -/
def Move.rows {α : Type} [Numbers α] : Move α → Rows α
  | .translate x y => ((one, zero, x), (zero, one, y))
  | .rotate c s => ((c, neg s, zero), (s, c, zero))
  | .rotateAt c s x y =>
    ((c, neg s, add (add (neg (mul x c)) (mul y s)) x),
     (s, c, add (sub (neg (mul x s)) (mul y c)) y))
  | .scale x y => ((x, zero, zero), (zero, y, zero))
  | .scaleAt x y atx aty => ((x, zero, mul (sub one x) atx), (zero, y, mul (sub one y) aty))
  | .zoom f => ((f, zero, zero), (zero, f, zero))
  | .zoomAt f atx aty => ((f, zero, mul (sub one f) atx), (zero, f, mul (sub one f) aty))
  | .shear x y => ((one, x, zero), (y, one, zero))
  | .shearAt x y atx aty => ((one, x, mul x (neg aty)), (y, one, mul y (neg atx)))

end

/-- `cos` and `sin` of the standard library, dyon_std/mod.rs. -/
class Trig where
  cos : F64 → F64
  sin : F64 → F64

section
variable [FloatOps] [Trig]

/-- The arithmetic of the program. -/
instance : Numbers F64 := ⟨F64.ofNat 0, F64.ofNat 1, F64.fneg, FloatOps.add, FloatOps.sub, FloatOps.mul⟩

/-- `(a, b, c)`, runtime/mod.rs: numbers become single precision, what is not written is 0. -/
def vec3 (r : F64 × F64 × F64) : Vec4 := ⟨FloatOps.toF32 r.1, FloatOps.toF32 r.2.1, FloatOps.toF32 r.2.2, F32.zero⟩

/-- A call of one of the other functions of graphics2d.dyon with arguments of the types it asks for. -/
inductive More where
  | translate (pos : Vec4)
  | rotate (ang : F64)
  | rotateAt (ang : F64) (pos : Vec4)
  | scale (pos : Vec4)
  | scaleAt (pos center : Vec4)
  | zoom (fact : F64)
  | zoomAt (fact : F64) (center : Vec4)
  | shear (pos : Vec4)
  | shearAt (pos center : Vec4)
  | imageWhite (texture : F64) (pos : Vec4)
  | imageAlpha (texture : F64) (pos : Vec4) (alpha : F64)
  | imageSourceWhite (texture : F64) (pos srccorner srcsize : Vec4)
  | imageSourceAlpha (texture : F64) (pos : Vec4) (alpha : F64) (srccorner srcsize : Vec4)

/-- The numbers of a move: `x(v)` and `y(v)`, `cos(ang)` and `sin(ang)`, graphics2d.dyon:129-179; none if it is an image. -/
def More.move : More → Option (Move F64)
  | .translate p => some (.translate (xy p).1 (xy p).2)
  | .rotate a => some (.rotate (Trig.cos a) (Trig.sin a))
  | .rotateAt a p => some (.rotateAt (Trig.cos a) (Trig.sin a) (xy p).1 (xy p).2)
  | .scale p => some (.scale (xy p).1 (xy p).2)
  | .scaleAt p c => some (.scaleAt (xy p).1 (xy p).2 (xy c).1 (xy c).2)
  | .zoom f => some (.zoom f)
  | .zoomAt f c => some (.zoomAt f (xy c).1 (xy c).2)
  | .shear p => some (.shear (xy p).1 (xy p).2)
  | .shearAt p c => some (.shearAt (xy p).1 (xy p).2 (xy c).1 (xy c).2)
  | _ => none

/-- The entry of a move. -/
def Move.entry (m : Move F64) : Val := .array [.str "rel_transform__rx_ry", .vec4 (vec3 m.rows.1), .vec4 (vec3 m.rows.2)]

/-- `#ffffff`, and `(xyz #ffffff, alpha)`. -/
def white (alpha : F32) : Vec4 := ⟨F32.one, F32.one, F32.one, alpha⟩

/-- The entry a function pushes to `draw_list`, graphics2d.dyon:83-117 (images), 129-179 (moves). -/
def More.entry (m : More) : Val :=
  match m.move with
  | some k => k.entry
  | none => match m with
    | .imageWhite t p => .array [.str "image__texture_pos_color", .ofF64 t, .vec4 p, .vec4 (white F32.one)]
    | .imageAlpha t p a => .array [.str "image__texture_pos_color", .ofF64 t, .vec4 p, .vec4 (white (FloatOps.toF32 a))]
    | .imageSourceWhite t p k s =>
      .array [.str "image__texture_pos_color_srccorner_srcsize", .ofF64 t, .vec4 p, .vec4 (white F32.one), .vec4 k, .vec4 s]
    | .imageSourceAlpha t p a k s =>
      .array [.str "image__texture_pos_color_srccorner_srcsize", .ofF64 t, .vec4 p, .vec4 (white (FloatOps.toF32 a)), .vec4 k, .vec4 s]
    | _ => .array []

/-! ## Specification -/

/-- A call of any function of graphics2d.dyon. -/
abbrev AnyCall := Call ⊕ More

/-- Its entry. -/
def AnyCall.entry : AnyCall → Val
  | .inl c => c.entry
  | .inr m => m.entry

/-- What is drawn from now on is moved: the present matrix times the rows of the move, in single precision. -/
def Spec.moved (k : Move F64) : Call :=
  .relTransform ⟨FloatOps.toF32 k.rows.1.1, FloatOps.toF32 k.rows.1.2.1, FloatOps.toF32 k.rows.1.2.2, F32.zero⟩
    ⟨FloatOps.toF32 k.rows.2.1, FloatOps.toF32 k.rows.2.2.1, FloatOps.toF32 k.rows.2.2.2, F32.zero⟩

/-- What the other functions mean in terms of `rel_transform` and `image`: moves by their matrix, images in white. -/
def Spec.means : AnyCall → Call
  | .inl c => c
  | .inr (.translate p) => Spec.moved (.translate (xy p).1 (xy p).2)
  | .inr (.rotate a) => Spec.moved (.rotate (Trig.cos a) (Trig.sin a))
  | .inr (.rotateAt a c) => Spec.moved (.rotateAt (Trig.cos a) (Trig.sin a) (xy c).1 (xy c).2)
  | .inr (.scale p) => Spec.moved (.scale (xy p).1 (xy p).2)
  | .inr (.scaleAt p c) => Spec.moved (.scaleAt (xy p).1 (xy p).2 (xy c).1 (xy c).2)
  | .inr (.zoom f) => Spec.moved (.zoom f)
  | .inr (.zoomAt f c) => Spec.moved (.zoomAt f (xy c).1 (xy c).2)
  | .inr (.shear p) => Spec.moved (.shear (xy p).1 (xy p).2)
  | .inr (.shearAt p c) => Spec.moved (.shearAt (xy p).1 (xy p).2 (xy c).1 (xy c).2)
  | .inr (.imageWhite t p) => .image t p ⟨F32.one, F32.one, F32.one, F32.one⟩
  | .inr (.imageAlpha t p a) => .image t p ⟨F32.one, F32.one, F32.one, FloatOps.toF32 a⟩
  | .inr (.imageSourceWhite t p k s) => .imageSource t p ⟨F32.one, F32.one, F32.one, F32.one⟩ k s
  | .inr (.imageSourceAlpha t p a k s) => .imageSource t p ⟨F32.one, F32.one, F32.one, FloatOps.toF32 a⟩ k s

variable [Gfx] {env : Env} {st : Stack} {trace : String} {n : Nat} {base : Matrix} {state : DrawState}

/-- **C85.**  The same as `C85_drawn` for calls of all functions: images with `alpha` are drawn in white with that opacity, and a move changes
the matrix of what is drawn after it by its rows (`C85_moves` and the theorems after it say what these do). -/
theorem C85_drawn_all {cs : List AnyCall} {l : Val} (hl : Spec.Holds st (cs.map AnyCall.entry) l)
    (h : ∀ c ∈ cs, Spec.Known env (Spec.means c)) :
    draw2d env trace n base state (st ++ [l]) = (Spec.picture base ⟨base, state⟩ (cs.map Spec.means), .ok ()) := by
  have e : cs.map AnyCall.entry = (cs.map Spec.means).map Call.entry := by
    rw [List.map_map]
    refine List.map_congr_left ?_
    intro c _
    rcases c with c | m
    · rfl
    · cases m <;> rfl
  rw [e] at hl
  refine C85_drawn hl ?_
  intro c hc
  obtain ⟨a, ha, rfl⟩ := List.mem_map.1 hc
  exact h a ha

end

/-! ## What the moves do, with exact numbers -/

section
variable {α : Type} [CommRing α]

/-- Exact arithmetic. -/
@[instance_reducible] def exact : Numbers α := ⟨0, 1, Neg.neg, (· + ·), (· - ·), (· * ·)⟩

theorem ex_zero : @Numbers.zero α exact = 0 := rfl
theorem ex_one : @Numbers.one α exact = 1 := rfl
theorem ex_neg (a : α) : @Numbers.neg α exact a = -a := rfl
theorem ex_add (a b : α) : @Numbers.add α exact a b = a + b := rfl
theorem ex_sub (a b : α) : @Numbers.sub α exact a b = a - b := rfl
theorem ex_mul (a b : α) : @Numbers.mul α exact a b = a * b := rfl

/-- Where a point goes under two rows. -/
def Spec.apply (r : Rows α) (p : α × α) : α × α :=
  (r.1.1 * p.1 + r.1.2.1 * p.2 + r.1.2.2, r.2.1 * p.1 + r.2.2.1 * p.2 + r.2.2.2)

/-- The rows with exact arithmetic. -/
def Spec.exactRows (m : Move α) : Rows α := @Move.rows α exact m

/-- **C85.**  `translate` moves every point by the given vector, `rotate` turns it around the origin, `scale` and `zoom` stretch it away from
the origin, and `shear` moves it along one axis by a multiple of the other coordinate. -/
theorem C85_moves (x y a b : α) :
    Spec.apply (Spec.exactRows (.translate a b)) (x, y) = (x + a, y + b) ∧
    Spec.apply (Spec.exactRows (.rotate a b)) (x, y) = (a * x - b * y, b * x + a * y) ∧
    Spec.apply (Spec.exactRows (.scale a b)) (x, y) = (a * x, b * y) ∧
    Spec.apply (Spec.exactRows (.zoom a)) (x, y) = (a * x, a * y) ∧
    Spec.apply (Spec.exactRows (.shear a b)) (x, y) = (x + a * y, y + b * x) := by
  simp only [Spec.apply, Spec.exactRows, Move.rows, ex_zero, ex_one, ex_neg, ex_add, ex_sub, ex_mul, Prod.mk.injEq]
  refine ⟨⟨?_, ?_⟩, ⟨?_, ?_⟩, ⟨?_, ?_⟩, ⟨?_, ?_⟩, ?_, ?_⟩ <;> ring

/-- The move as seen from another point: what was the origin is `c`. -/
def Spec.Around (m m' : Move α) (c : α × α) : Prop :=
  ∀ p, Spec.apply (Spec.exactRows m') p =
    ((Spec.apply (Spec.exactRows m) (p.1 - c.1, p.2 - c.2)).1 + c.1, (Spec.apply (Spec.exactRows m) (p.1 - c.1, p.2 - c.2)).2 + c.2)

/-- **C85.**  The functions with a point do the same around that point. -/
theorem C85_moves_at (a b cx cy : α) :
    Spec.Around (.rotate a b) (.rotateAt a b cx cy) (cx, cy) ∧
    Spec.Around (.scale a b) (.scaleAt a b cx cy) (cx, cy) ∧
    Spec.Around (.zoom a) (.zoomAt a cx cy) (cx, cy) ∧
    Spec.Around (.shear a b) (.shearAt a b cx cy) (cx, cy) := by
  refine ⟨?_, ?_, ?_, ?_⟩ <;> intro p <;> simp only [Spec.apply, Spec.exactRows, Move.rows, ex_zero, ex_one, ex_neg, ex_add, ex_sub, ex_mul, Prod.mk.injEq] <;> constructor <;> ring

/-- **C85.**  So that point stays where it is. -/
theorem C85_fixed (a b cx cy : α) (m : Move α)
    (h : m = .rotateAt a b cx cy ∨ m = .scaleAt a b cx cy ∨ m = .zoomAt a cx cy ∨ m = .shearAt a b cx cy) :
    Spec.apply (Spec.exactRows m) (cx, cy) = (cx, cy) := by
  rcases h with rfl | rfl | rfl | rfl <;> simp only [Spec.apply, Spec.exactRows, Move.rows, ex_zero, ex_one, ex_neg, ex_add, ex_sub, ex_mul, Prod.mk.injEq] <;> constructor <;> ring

/-- The square of the distance. -/
def Spec.dist2 (p q : α × α) : α := (p.1 - q.1) * (p.1 - q.1) + (p.2 - q.2) * (p.2 - q.2)

/-- **C85.**  Turning keeps distances, `zoom` multiplies them by the factor. -/
theorem C85_distances (c s f x y : α) (h : c * c + s * s = 1) (p q : α × α) :
    Spec.dist2 (Spec.apply (Spec.exactRows (.rotate c s)) p) (Spec.apply (Spec.exactRows (.rotate c s)) q) = Spec.dist2 p q ∧
    Spec.dist2 (Spec.apply (Spec.exactRows (.rotateAt c s x y)) p) (Spec.apply (Spec.exactRows (.rotateAt c s x y)) q) = Spec.dist2 p q ∧
    Spec.dist2 (Spec.apply (Spec.exactRows (.zoomAt f x y)) p) (Spec.apply (Spec.exactRows (.zoomAt f x y)) q) =
      f * f * Spec.dist2 p q := by
  simp only [Spec.dist2, Spec.apply, Spec.exactRows, Move.rows, ex_zero, ex_one, ex_neg, ex_add, ex_sub, ex_mul]
  refine ⟨?_, ?_, by ring⟩ <;>
    linear_combination ((p.1 - q.1) * (p.1 - q.1) + (p.2 - q.2) * (p.2 - q.2)) * h

end

/-! ## Examples -/

/-- A quarter turn around (1, 0) takes (3, 0) to (1, 2). -/
example : Spec.apply (Spec.exactRows (.rotateAt 0 1 1 0 : Move Int)) (3, 0) = (1, 2) := by decide

/-- The hypothesis of `C85_distances` is met by a turn with cosine 3/5 and sine 4/5 in the rational numbers. -/
example : (3 / 5 : ℚ) * (3 / 5) + (4 / 5) * (4 / 5) = 1 := by norm_num

section
variable [FloatOps] [Trig] [Gfx] (p : Vec4) (base : Matrix) (state : DrawState)

/-- The hypotheses of `C85_drawn_all` are met: a move, then an image with `alpha`, drawn under the matrix of the move. -/
example (h : (F64.ofNat 1).toUsize < 2) :
    draw2d demoEnv "" 0 base state ([] ++ [.array (([.inr (.translate p), .inr (.imageAlpha (F64.ofNat 1) p (F64.ofNat 0))] :
      List AnyCall).map AnyCall.entry)]) =
      ([.draw (.image (.id (F64.ofNat 1).toUsize) ⟨F32.one, F32.one, F32.one, FloatOps.toF32 (F64.ofNat 0)⟩ none) state
        (Gfx.trans (Gfx.multiply base (matrix (vec3 (F64.ofNat 1, F64.ofNat 0, (xy p).1)) (vec3 (F64.ofNat 0, F64.ofNat 1, (xy p).2)))) (xy p))],
        .ok ()) := by
  rw [C85_drawn_all .here]
  · rfl
  · intro c hc
    simp only [List.mem_cons, List.not_mem_nil, or_false] at hc
    rcases hc with rfl | rfl
    · trivial
    · exact h

end
end Dyon.Draw
