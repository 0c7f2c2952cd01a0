import Verif.Module.Make
import Verif.Module.Listing
import Verif.Check.Node

/-!
# The data of the checker

`check(name, in_string, imports)`, with and without the flag `usetr`, dyon_std/mod.rs:1315-1408, with
`check_str`, lib.rs:585-608, and `to_array`, lifetime/mod.rs:1198-1257.
-/

namespace Dyon.Mod

open Check (Kind)

/-- A node with its range in the text and in the meta data, node.rs:12-48. The binary operators of a node
are not part of the data. -/
structure Placed where
  node : Check.Node
  /-- `source.offset` -/
  offset : Nat
  /-- `source.length` -/
  length : Nat
  /-- `start` -/
  start : Nat
  /-- `end` -/
  stop : Nat

/-- `format!("{:?}", kind)`, kind.rs:1-106 (`derive(Debug)`). -/
def kindText : Kind → String
  | .ns => "Ns"
  | .uses => "Uses"
  | .use => "Use"
  | .fn => "Fn"
  | .arg => "Arg"
  | .current => "Current"
  | .block => "Block"
  | .expr => "Expr"
  | .add => "Add"
  | .mul => "Mul"
  | .pow => "Pow"
  | .val => "Val"
  | .call => "Call"
  | .callArg => "CallArg"
  | .assign => "Assign"
  | .left => "Left"
  | .right => "Right"
  | .item => "Item"
  | .itemExtra => "ItemExtra"
  | .ret => "Return"
  | .object => "Object"
  | .array => "Array"
  | .arrayItem => "ArrayItem"
  | .arrayFill => "ArrayFill"
  | .fill => "Fill"
  | .n => "N"
  | .keyValue => "KeyValue"
  | .for => "For"
  | .forN => "ForN"
  | .forIn => "ForIn"
  | .sum => "Sum"
  | .sumIn => "SumIn"
  | .sumVec4 => "SumVec4"
  | .prod => "Prod"
  | .prodIn => "ProdIn"
  | .prodVec4 => "ProdVec4"
  | .min => "Min"
  | .minIn => "MinIn"
  | .max => "Max"
  | .maxIn => "MaxIn"
  | .sift => "Sift"
  | .siftIn => "SiftIn"
  | .any => "Any"
  | .anyIn => "AnyIn"
  | .all => "All"
  | .allIn => "AllIn"
  | .vec4UnLoop => "Vec4UnLoop"
  | .start => "Start"
  | .end' => "End"
  | .init => "Init"
  | .cond => "Cond"
  | .iter => "Iter"
  | .elseIfCond => "ElseIfCond"
  | .elseIfBlock => "ElseIfBlock"
  | .step => "Step"
  | .compare => "Compare"
  | .if' => "If"
  | .trueBlock => "TrueBlock"
  | .elseBlock => "ElseBlock"
  | .loop => "Loop"
  | .id => "Id"
  | .brk => "Break"
  | .cont => "Continue"
  | .norm => "Norm"
  | .not => "Not"
  | .neg => "Neg"
  | .vec4 => "Vec4"
  | .x => "X"
  | .y => "Y"
  | .z => "Z"
  | .w => "W"
  | .mat4 => "Mat4"
  | .ex => "EX"
  | .ey => "EY"
  | .ez => "EZ"
  | .ew => "EW"
  | .type => "Type"
  | .arr => "Arr"
  | .opt => "Opt"
  | .res => "Res"
  | .retType => "RetType"
  | .returnVoid => "ReturnVoid"
  | .go => "Go"
  | .swizzle => "Swizzle"
  | .sw0 => "Sw0"
  | .sw1 => "Sw1"
  | .sw2 => "Sw2"
  | .sw3 => "Sw3"
  | .link => "Link"
  | .linkFor => "LinkFor"
  | .linkIn => "LinkIn"
  | .linkItem => "LinkItem"
  | .closure => "Closure"
  | .callClosure => "CallClosure"
  | .closureType => "ClosureType"
  | .clArg => "ClArg"
  | .clRet => "ClRet"
  | .grab => "Grab"
  | .tryExpr => "TryExpr"
  | .in' => "In"
  | .ty => "Ty"
  | .tyArg => "TyArg"
  | .tyRet => "TyRet"

/-- `format!("{:?}", op)`, ast/mod.rs:3398-3416. -/
def opText : AssignOp → String
  | .assign => "Assign"
  | .set => "Set"
  | .add => "Add"
  | .sub => "Sub"
  | .mul => "Mul"
  | .div => "Div"
  | .rem => "Rem"
  | .pow => "Pow"

/-- `format!("{:?}", lt)`, prelude.rs:12-26. -/
def ltText : Lt → String
  | .arg i => "Arg(" ++ toString i ++ ")"
  | .ret => "Return"
  | .default => "Default"

/-- `push_var` of an index, embed.rs:290-294. -/
def indexVal (n : Nat) : Val := .ofF64 (F64.ofNatRound n)

/-- The object of a node, lifetime/mod.rs:1223-1254. `none` is the panic of `Type::description`. The order
of keys in a hash map has no meaning. -/
def nodeObject (p : Placed) : Option Val :=
  let n := p.node
  let ty : Option Val := match n.ty with
    | none => some (.option none)
    | some t => (description t).map fun s => .option (some (.str s))
  ty.map fun ty => .object [
    ("kind", .str (kindText n.kind)),
    ("children", .array (n.children.map indexVal)),
    ("names", .array (n.names.map .str)),
    ("parent", .option (n.parent.map indexVal)),
    ("ty", ty),
    ("alias", .option (n.alias.map .str)),
    ("mutable", .ofBool n.mutable),
    ("try", .ofBool n.tryFlag),
    ("grab_level", .ofF64 (F64.ofNat n.grabLevel)),
    ("source_offset", indexVal p.offset),
    ("source_length", indexVal p.length),
    ("start", indexVal p.start),
    ("end", indexVal p.stop),
    ("lifetime", .option (n.lifetime.map .str)),
    ("declaration", .option (n.declaration.map indexVal)),
    ("op", .option (n.op.map fun o => .str (opText o))),
    ("lts", .array (n.lts.map fun l => .str (ltText l)))]

/-- `to_array`, lifetime/mod.rs:1198-1257. -/
def toArray (ps : List Placed) : Option (List Val) := ps.mapM nodeObject

/-- `check_str`, lib.rs:591-608. `parse` is the error of the parser, or the nodes when the checker is done or
has found an error, and that error. -/
def checkStr (parse : String → String → Module → Except String (List Placed × Option String)) (name text : String)
    (m : Module) : Except String (List Placed) :=
  match parse name text m with
  | .error e => .error e
  | .ok (ps, _) => .ok ps

/-- The flag `usetr`, dyon_std/mod.rs:1362; without it transitive functions are used (1329). -/
def usetrArg (st : Stack) : Option Val → Pop Bool
  | none => .ok true
  | some v => flagArg st v

/-- `check__in_string_imports`, dyon_std/mod.rs:1315-1359, and `check__in_string_imports_usetr`, 1361-1408.
`st` is the stack below the arguments. The outcome is the result value: the array or an error value. -/
def checkFn (parse : String → String → Module → Except String (List Placed × Option String))
    (obj : Nat → Option Module) (trace : String) (st : Stack) (running : Module) (name source imports : Val)
    (flag : Option Val) : Pop Val :=
  (usetrArg st flag).bind fun usetr =>
  (textArg trace st source).bind fun text =>
  (textArg trace st name).bind fun name =>
  (importArg obj trace st (newModule running usetr) imports).bind fun m =>
  match checkStr parse name text m with
  | .error e => .ok (.resErr (.str ("When attempting to load module:\n" ++ e)) [])
  | .ok ps => match toArray ps with
    | none => .panic
    | some vs => .ok (.resOk (.array vs))

end Dyon.Mod
