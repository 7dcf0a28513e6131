import Verif.Model.V1.CacheConc

/-! # Specification of the cache of version 1: the calls renamed to those of version 2, and kinds of schedules -/

namespace Xcore.V1.Cache

open Xcore.Cache (Env)

variable {D : Type}

/-- The same call on the cache of version 2. -/
def Op.up : Op D → Xcore.Cache.Op D
  | .set k d => .set k d
  | .get k => .get k
  | .del k => .del k
  | .count => .count
  | .clean p => .clean p
  | .verify => .verify
  | .flush => .flush
  | .setMaxitems m => .setMaxitems m
  | .setExpire e => .setExpire e
  | .setValidator b => .setValidator b

/-- The same history of calls in version 2. -/
def upAll (h : List (Env × Op D)) : List (Env × Xcore.Cache.Op D) := h.map fun p => (p.1, p.2.up)

/-- A cache of version 1 some history of calls leads to. -/
def Reachable (c : Cache D) : Prop := ∃ (m e : Int) (h : List (Env × Op D)), c = (run (new m e) h).1

/-- A call that can evict valid entries: `Clean` with a positive percentage, or a `Set` after which there are `Maxitems` entries or more. -/
def MayEvict (c : Cache D) : Op D → Prop
  | .clean p => 0 < p
  | .set k _ => 0 < c.maxitems ∧ c.maxitems ≤ ((if (c.items.get k).isSome then count c else count c + 1 : Nat) : Int)
  | _ => False

/-- No call of the history can evict valid entries. -/
def Quiet (c : Cache D) : List (Env × Op D) → Prop
  | [] => True
  | (env, op) :: h => ¬ MayEvict c op ∧ Quiet (step c env op).1 h

end Xcore.V1.Cache

namespace Xcore.V1.CacheConc

variable {D : Type}

/-- The steps that begin with locking the mutex. -/
def NeedsLock : Act D → Prop
  | .set .. | .setFull .. | .del .. | .clean .. | .flush | .getStart .. | .getDrop .. | .verifyStart .. | .verifyDel .. => True
  | _ => False

/-- The unlocked changes of the pile at the end of a Get are done in one go, and there is no worse data race. -/
inductive Calm : List (Act D) → Prop
  | nil : Calm []
  | other (a : Act D) (as : List (Act D)) : (∀ t, a ≠ .loadPile t) → (∀ t, a ≠ .storePile t) → (∀ p, a ≠ .tear p) → Calm as → Calm (a :: as)
  | touch (t : Nat) (as : List (Act D)) : Calm as → Calm (.loadPile t :: .storePile t :: .loadPile t :: .storePile t :: as)

end Xcore.V1.CacheConc
