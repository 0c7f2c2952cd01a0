import Verif.Link.Heap

/-!
# What links are supposed to be: lists

A store of handles is a list of optional lists of scalars.  Nothing here mentions
blocks, slices or reference counts.
-/

namespace Dyon.Link.Spec

abbrev Store := List (Option (List Scalar))

/-- The effect of an operation if a link simply *is* the list of its elements. -/
def step (s : Store) : Op → Store
  | .new => s ++ [some []]
  | .clone i => match s[i]? with
    | some (some xs) => s ++ [some xs]
    | _ => s
  | .push i v => match s[i]? with
    | some (some xs) => s.set i (some (xs ++ [v]))
    | _ => s
  | .pushOther _ => s
  | .pushLink i j =>
    if i = j then s else
    match s[i]?, s[j]? with
    | some (some xs), some (some ys) => s.set i (some (xs ++ ys))
    | _, _ => s
  | .tail i => match s[i]? with
    | some (some xs) => s ++ [some xs.tail]
    | _ => s
  | .neck i => match s[i]? with
    | some (some xs) => s ++ [some xs.dropLast]
    | _ => s
  | .add i j => match s[i]?, s[j]? with
    | some (some xs), some (some ys) => s ++ [some (xs ++ ys)]
    | _, _ => s
  | .drop i => match s[i]? with
    | some (some _) => s.set i none
    | _ => s

/-- A whole history. -/
def run (s : Store) : List Op → Store
  | [] => s
  | op :: ops => run (step s op) ops

/-- What can be observed of a list. -/
def observe (xs : List Scalar) : Obs :=
  { head := xs.head?, tip := xs.getLast?, isEmpty := xs.isEmpty, items := xs }

/-- The handle an operation is allowed to change (append to, or drop). -/
def target : Op → Option Nat
  | .push i _ => some i
  | .pushLink i _ => some i
  | .drop i => some i
  | _ => none

end Dyon.Link.Spec
