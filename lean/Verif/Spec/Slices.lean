import Verif.Model.Slices

/-! # Collections that are nothing but lists -/

namespace Xcore.Slices

/-- One call on collections that are lists of elements, each its own. -/
def listStep (ls : List (List Elem)) : Op → List (List Elem) × Out
  | .make xs => (ls ++ [xs], .num ls.length)
  | .unshift c d => (ls.modify c (d :: ·), .unit)
  | .shift c => match ls[c]? with
    | none => (ls, .unit)
    | some [] => (ls, .panic)
    | some (d :: l) => (ls.set c l, .elem d)
  | .push c d => (ls.modify c (· ++ [d]), .unit)
  | .pop c => match ls[c]? with
    | none => (ls, .unit)
    | some l => match l.getLast? with
      | none => (ls, .panic)
      | some d => (ls.set c l.dropLast, .elem d)
  | .count c => match ls[c]? with
    | none => (ls, .unit)
    | some l => (ls, .num l.length)
  | .get c i => match ls[c]? with
    | none => (ls, .unit)
    | some l => (ls, .found (if i < 0 then none else l[i.toNat]?))
  | .clone c cl => match ls[c]? with
    | none => (ls, .unit)
    | some l => (ls ++ [l.map cl], .num ls.length)
  | .assign c => match ls[c]? with
    | none => (ls, .unit)
    | some l => (ls ++ [l], .num ls.length)

/-- A history of calls. -/
def listRun (ls : List (List Elem)) : List Op → List (List Elem) × List Out
  | [] => (ls, [])
  | op :: h => let r := listStep ls op; let r' := listRun r.1 h; (r'.1, r.2 :: r'.2)

/-- What the collections in memory contain. -/
def lists (m : Mem) : List (List Elem) := m.cols.map (elems m.arrays)

/-- The call copies a collection by assignment. -/
def Assigns : Op → Prop
  | .assign _ => True
  | _ => False

/-- The collection a call is made on, if it changes one. -/
def changes : Op → Option Nat
  | .unshift c _ | .shift c | .push c _ | .pop c => some c
  | _ => none

end Xcore.Slices
