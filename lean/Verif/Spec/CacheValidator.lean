import Verif.Model.CacheValidator

/-!
# Specification: validators that use the cache, or panic
-/

namespace Xcore.CacheValidator.Spec

open Cache

variable {D α : Type}

/-- The data of the last `Set` under this key, of a list of all `Set` calls. -/
def lastSet (sets : List (Str × D)) (k : Str) : Option D := ((sets.filter fun p => decide (p.1 = k)).getLast?).map Prod.snd

/-- A state that some history of calls on a new cache leads to, whatever validators did meanwhile; the caller recovers from panics. -/
def Begun (W : World D) (st : State D) : Prop := ∃ m e h f outs, run W f (new m e) h = .ret st outs

/-- How a call ends, if it does. -/
def Ends (W : World D) (st : State D) (env : Env) (op : Op D) (r : Ran D (Out D)) : Prop :=
  r ≠ .deep ∧ ∃ f, exec W f st env op = r

/-- The call does not end: it makes calls of validators and calls without end. -/
def Endless (W : World D) (st : State D) (env : Env) (op : Op D) : Prop := ∀ f, exec W f st env op = .deep

/-- A call that cannot panic by itself: a percentage is at most 100. -/
def Mild : Op D → Prop
  | .clean p => p ≤ 100
  | _ => True

/-- The validator does not panic by itself, makes only mild calls and does not uninstall itself. -/
def Calm : Script D → Prop
  | .answer _ => True
  | .panic => False
  | .call _ op next => Mild op ∧ op ≠ .setValidator false ∧ ∀ o, Calm (next (some o))

/-- The validator refreshes the entry it is asked about and then answers `b`. -/
def refresh (env : Env) (k : Str) (d : D) (b : Bool) : Script D := .call env (.set k d) fun _ => .answer b

/-- How a call ended, in the terms of the sequential model. -/
def outOf : Option (Out D) → Out D
  | some o => o
  | none => .panicked

end Xcore.CacheValidator.Spec
