import Verif.Builtin.StackProps
import Verif.Builtin.Text
import Verif.Types.Refine

/-!
# The declared types of the standard library, `Module::new`, `src/module.rs:69-775`

The declarations of the functions of which the model has the code: the operators
(`Verif/Builtin/Ops.lean`) and the functions on the stack (`Verif/Builtin/Stack.lean`,
`Verif/Builtin/Text.lean`).
-/

namespace Dyon

open Ty

/-! ## Operators -/

/-- The functions added by `add_binop`. -/
inductive BinFn
  | less | lessOrEqual | greater | greaterOrEqual | equal | notEqual | add | sub | mul | div | rem | pow | dot
deriving DecidableEq

/-- The functions added by `add_unop` with extra signatures. -/
inductive UnFn
  | not | neg
deriving DecidableEq

/-- The code of an operator. -/
def BinFn.run [FloatOps] [VecMath] : BinFn → Val → Val → OpRes
  | .less => Op.less
  | .lessOrEqual => Op.lessOrEqual
  | .greater => Op.greater
  | .greaterOrEqual => Op.greaterOrEqual
  | .equal => Op.equal
  | .notEqual => Op.notEqual
  | .add => Op.add
  | .sub => Op.sub
  | .mul => Op.mul
  | .div => Op.div
  | .rem => Op.rem
  | .pow => Op.pow
  | .dot => Op.dot

/-- The code of an operator. -/
def UnFn.run : UnFn → Val → OpRes
  | .not => Op.not
  | .neg => Op.neg

/-- `(vec![], args, ret)`. -/
def plainSig (args : List Ty) (ret : Ty) : Sig := ⟨[], args, ret⟩

/-- `Type::all_ext(args, ret)`, ty.rs:54-65. -/
def allSig (args : List Ty) (ret : Ty) : Sig := ⟨(allExt args ret).1, (allExt args ret).2.1, (allExt args ret).2.2⟩

/-- The extra signatures of `<`, `<=`, `>`, `>=`, module.rs:83-91, 102-110, 121-129, 140-148. -/
def orderSigs : List Sig :=
  [plainSig [secret f64, f64] (secret bool), plainSig [f64, f64] bool, plainSig [str, str] bool]

/-- The extra signatures of `==` and `!=`, module.rs:159-176, 188-205. -/
def equalSigs : List Sig :=
  [plainSig [secret f64, f64] (secret bool), plainSig [f64, f64] bool, plainSig [str, str] bool,
   plainSig [secret bool, bool] (secret bool), plainSig [bool, bool] bool, plainSig [vec4, vec4] bool,
   plainSig [object, object] bool, plainSig [array any, array any] bool, plainSig [option any, option any] bool]

/-- `ext` of a binary operator, module.rs:76-209, 246-358, 391-405. -/
def BinFn.ext : BinFn → List Sig
  | .less | .lessOrEqual | .greater | .greaterOrEqual => orderSigs
  | .equal | .notEqual => equalSigs
  | .add => [allSig [f64, f64] f64, allSig [vec4, vec4] vec4, allSig [vec4, f64] vec4, allSig [f64, vec4] vec4,
      allSig [mat4, mat4] mat4, allSig [f64, mat4] mat4, allSig [mat4, f64] mat4, allSig [bool, bool] bool,
      allSig [str, str] str, allSig [link, link] link]
  | .sub => [allSig [f64, f64] f64, allSig [vec4, vec4] vec4, allSig [vec4, f64] vec4, allSig [f64, vec4] vec4,
      allSig [mat4, mat4] mat4, allSig [f64, mat4] mat4, allSig [mat4, f64] mat4, allSig [bool, bool] bool]
  | .mul => [plainSig [f64, f64] f64, plainSig [vec4, vec4] vec4, plainSig [vec4, f64] vec4, plainSig [f64, vec4] vec4,
      plainSig [mat4, mat4] mat4, plainSig [f64, mat4] mat4, plainSig [mat4, f64] mat4, plainSig [mat4, vec4] vec4,
      allSig [bool, bool] bool]
  | .div | .rem => [plainSig [f64, f64] f64, plainSig [vec4, vec4] vec4, plainSig [vec4, f64] vec4,
      plainSig [f64, vec4] vec4]
  | .pow => [plainSig [f64, f64] f64, plainSig [vec4, vec4] vec4, plainSig [vec4, f64] vec4,
      plainSig [f64, vec4] vec4, allSig [bool, bool] bool]
  | .dot => [plainSig [vec4, vec4] f64, plainSig [vec4, f64] f64, plainSig [f64, vec4] f64]

/-- `ext` of a unary operator, module.rs:359-390. -/
def UnFn.ext : UnFn → List Sig
  | .not => [plainSig [secret bool] (secret bool), plainSig [bool] bool]
  | .neg => [plainSig [f64] f64, plainSig [vec4] vec4, plainSig [mat4] mat4]

/-! ## Functions on the stack -/

/-- The functions of Builtin/Text.lean and the matrix functions outside of `LibFn`. -/
inductive MoreFn
  | cross | mov | ortho | mvp | scale | trim | trimLeft | trimRight | parseNumber | isNan | has | keys | chars
  | typeof' | strColor
deriving DecidableEq

/-- The code. -/
def MoreFn.run [FloatOps] [VecMath] [Data.Lex] [TextOps] (c : Cfg) : MoreFn → SM Val
  | .cross => Lib.cross c
  | .mov => Lib.mov c
  | .ortho => Lib.ortho c
  | .mvp => Lib.mvp c
  | .scale => Lib.scale c
  | .trim => Lib.trim c
  | .trimLeft => Lib.trimLeft c
  | .trimRight => Lib.trimRight c
  | .parseNumber => Lib.parseNumber c
  | .isNan => Lib.isNan c
  | .has => Lib.has c
  | .keys => Lib.keys c
  | .chars => Lib.chars c
  | .typeof' => Lib.typeof'
  | .strColor => Lib.strColor c

/-- `tys` and `ret`, module.rs:406, 414-433, 482-504, 575, 757-767. -/
def MoreFn.decl : MoreFn → List Ty × Ty
  | .cross => ([vec4, vec4], vec4)
  | .mov => ([vec4], mat4)
  | .ortho => ([vec4, vec4, vec4, vec4], mat4)
  | .mvp => ([mat4, mat4, mat4], mat4)
  | .scale => ([vec4], mat4)
  | .trim | .trimLeft | .trimRight => ([str], str)
  | .parseNumber => ([str], option f64)
  | .isNan => ([f64], bool)
  | .has => ([object, str], bool)
  | .keys => ([object], array str)
  | .chars => ([str], array str)
  | .typeof' => ([any], str)
  | .strColor => ([vec4], str)

/-- `tys` and `ret`, module.rs:210-245, 407-410, 436-447, 507-510, 628-733; a result `void` is none.
`vec4Lit` and `mat4Lit` are not functions of the library: their types are those of the literals. -/
def LibFn.decl : LibFn → List Ty × Option Ty
  | .clone => ([any], some any)
  | .why => ([secret bool], some (array any))
  | .where' => ([secret f64], some (array any))
  | .explainWhy => ([bool, any], some (secret bool))
  | .explainWhere => ([f64, any], some (secret f64))
  | .pushRef | .push => ([array any, any], none)
  | .insertRef | .insert => ([array any, f64, any], none)
  | .pop => ([array any], some any)
  | .remove => ([array any, f64], some any)
  | .reverse | .clear => ([array any], none)
  | .swap => ([array any, f64, f64], none)
  | .some' => ([any], some (option any))
  | .ok' | .err' => ([any], some (result any))
  | .none' => ([], some (option any))
  | .isErr | .isOk => ([result any], some bool)
  | .min | .max => ([array f64], some f64)
  | .unwrap => ([any], some any)
  | .unwrapOr => ([any, any], some any)
  | .unwrapErr => ([any], some any)
  | .head => ([link], some any)
  | .tip => ([link], some (option any))
  | .tail | .neck => ([link], some link)
  | .isEmpty => ([link], some bool)
  | .x | .y | .z | .w => ([vec4], some f64)
  | .s => ([vec4, f64], some f64)
  | .rx | .ry | .rz | .rw | .cx | .cy | .cz | .cw => ([mat4], some vec4)
  | .rv | .cv => ([mat4, f64], some vec4)
  | .vec4Lit => ([f64, f64, f64, f64], some vec4)
  | .mat4Lit => ([vec4, vec4, vec4, vec4], some mat4)
  | .andAlso | .orElse => ([bool, bool], some any)

/-- `ext` of `&&` and `||`, module.rs:217-224, 234-241. -/
def lazySigs : List Sig := [plainSig [secret bool, bool] (secret bool), plainSig [bool, bool] bool]

end Dyon
