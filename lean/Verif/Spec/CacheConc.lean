import Verif.Model.CacheConc

/-! # Schedules of a cache, for C12 and C13 -/

namespace Xcore.CacheConc

open Cache

variable {D : Type}

/-- `runActs (init m e) as = some st` says that the schedule `as` is possible and ends in `st`. -/
def Run (m e : Int) (as : List (Act D)) (st : St D) : Prop := runActs (init m e) as = some st

/-- The goroutine is in the middle of a `Get(k)`, or of a `Verify` about to delete `k`. -/
def Busy (k : Str) : PC → Prop
  | .loaded k' _ | .ttlOk k' _ | .valOk k' _ | .good k' _ | .touch k' _ | .doomed k' _ | .vdoomed k' _ => k' = k
  | _ => False

/-- The number of entries once `k` is among them. -/
def countWith (st : St D) (k : Str) : Nat := if (st.sh.items.get k).isSome then st.sh.items.length else st.sh.items.length + 1

/-- The step is not one of those allowed to remove or replace the entry of `k`: no Set or Del of `k`, no Clean, Flush or Verify of
`k`, and no Set of another key that fills the cache and so evicts. Every Get step is allowed. -/
def Quiet (k : Str) (st : St D) : Act D → Prop
  | .set _ k' _ => k' ≠ k ∧ ¬ (0 < st.sh.maxitems ∧ st.sh.maxitems ≤ countWith st k')
  | .del k' => k' ≠ k
  | .clean _ _ | .flush | .verifyStart _ _ => False
  | .verifyPick _ k' _ => k' ≠ k
  | _ => True

/-- A schedule of quiet steps. -/
inductive QuietRun (k : Str) : St D → List (Act D) → St D → Prop
  | nil {st} : QuietRun k st [] st
  | cons {st st1 st2 a as} : Quiet k st a → apply st a = some st1 → QuietRun k st1 as st2 → QuietRun k st (a :: as) st2

end Xcore.CacheConc
