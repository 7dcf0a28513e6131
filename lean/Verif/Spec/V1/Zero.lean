import Verif.Model.V1.Zero

/-! # What can be expected of a cache of version 1 made without its constructor, for C112 -/

namespace Xcore.V1.Zero

open Xcore.Zero (Outcome)
open Xcore.Cache (Env Out)
open Xcore.V1.Cache (Op)

variable {D : Type}

/-- `&XCache{Maxitems: m, Expire: e, Validator: v}`. -/
def literal (m e : Int) (v : Bool) : Cache D := { maxitems := m, expire := e, hasValidator := v, items := none, pile := [], held := false }

/-- A cache made by `NewXCache`, at any moment. -/
def made (c : V1.Cache.Cache D) : Cache D :=
  { maxitems := c.maxitems, expire := c.expire, hasValidator := c.hasValidator, items := some c.items, pile := c.pile, held := false }

/-- Methods; the other operations are assignments to exported fields. -/
def IsCall : Op D → Bool
  | .setMaxitems _ | .setExpire _ | .setValidator _ => false
  | _ => true

/-- Every method blocks for ever. -/
def stuck (h : List (Env × Op D)) : List (Outcome (Out D)) := h.map fun p => if IsCall p.2 then .blocks else .returns .unit

/-- A cache made by `NewXCache`: the answers are those of the sequential model, up to the first panic; after that every method blocks. -/
def madeAnswers (c : V1.Cache.Cache D) : List (Env × Op D) → List (Outcome (Out D))
  | [] => []
  | (env, op) :: h =>
    match (V1.Cache.step c env op).2 with
    | .panicked => .panics :: stuck h
    | o => .returns o :: madeAnswers (V1.Cache.step c env op).1 h

/-- A literal, where `c` is the empty cache of `NewXCache` with the same fields: it answers as `c` does; the first `Set` panics, and after that every method
blocks; with `Flush` it becomes a cache as made by `NewXCache`. -/
def literalAnswers (c : V1.Cache.Cache D) : List (Env × Op D) → List (Outcome (Out D))
  | [] => []
  | (_, .set _ _) :: h => .panics :: stuck h
  | (_, .flush) :: h => .returns .unit :: madeAnswers c h
  | (env, op) :: h => .returns (V1.Cache.step c env op).2 :: literalAnswers (V1.Cache.step c env op).1 h

end Xcore.V1.Zero
