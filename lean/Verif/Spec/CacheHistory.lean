import Verif.Model.CacheSections

/-! # Concurrent calls of the locked methods of the cache: their sequential history -/

namespace Xcore.Cache

open Lock

variable {D : Type}

/-- The methods that are one critical section. `Get` and `Verify` are not; the configuration assignments take no lock. -/
def Locked : Op D → Prop
  | .set _ _ | .setTTL _ _ | .del _ | .count | .clean _ | .flush => True
  | _ => False

/-- A goroutine that has received no answer. -/
def Loc.empty : Loc D := ⟨0, false, [], 0, 0, []⟩

/-- The calls of a log as a sequential history. -/
def asHistory (hist : List (Nat × Env × Op D)) : List (Env × Op D) := hist.map Prod.snd

/-- The answers goroutine `i` gets when the calls are made one after the other. -/
def answersOf (i : Nat) (c : Cache D) (hist : List (Nat × Env × Op D)) : List (Out D) :=
  (((hist.map Prod.fst).zip (run c (asHistory hist)).2).filter (fun p => p.1 = i)).map Prod.snd

end Xcore.Cache
