import Verif.Model.V1.CacheConc
import Verif.Spec.CacheSerial

/-!
# Calls on a cache of version 1 that do not overlap

As `Verif/Spec/CacheSerial.lean`, for the schedules of `Verif/Model/V1/CacheConc.lean` and the cache of `Verif/Model/V1/Cache.lean`.
-/

namespace Xcore.V1.CacheConc.Spec

open Xcore.Cache (Env Out)
open Xcore.V1.Cache
open Xcore.CacheConc.Spec (first SameItems)

variable {D : Type}

/-- The goroutine in the middle of whose call a step happens; `none` for calls of a single step. -/
def owner : Act D → Option Nat
  | .set t _ _ _ | .setFull t _ | .setOk t => some t
  | .getStart t _ | .checkVal t _ | .checkExp t _ | .writeRtime t _ | .loadPile t | .storePile t | .getDrop t => some t
  | .verifyStart t _ | .verifyPick t _ _ | .verifyDel t | .verifyEnd t => some t
  | _ => none

/-- While a goroutine is inside a call, only that goroutine takes steps; and there is no data race. -/
def Serial (st : St D) : List (Act D) → Prop
  | [] => True
  | a :: as => (∀ u, st.pcs u ≠ .idle → owner a = some u) ∧ (∀ p, a ≠ .tear p) ∧ ∀ st', apply st a = some st' → Serial st' as

/-- Every Verify looks at each key once, and ends when it has looked at all keys that are left. `seen`: the keys looked at so far. Without
validator nothing is required. -/
def Thorough (st : St D) (seen : List Str) : List (Act D) → Prop
  | [] => True
  | a :: as =>
    (match a with
      | .verifyPick _ k _ => k ∉ seen
      | .verifyEnd _ => st.sh.hasValidator = true → ∀ k id, st.sh.items.get k = some id → k ∈ seen
      | _ => True) ∧
    ∀ st', apply st a = some st' →
      Thorough st' (match a with | .verifyStart _ _ => [] | .verifyPick _ k _ => k :: seen | _ => seen) as

/-- What a Get is told by the clock and by the validator: the readings made by the steps after it starts. -/
def readings (as : List (Act D)) : Env where
  clk i :=
    if i = 1 then first (fun a => match a with | .checkExp _ now => some now | _ => none) 0 as
    else first (fun a => match a with | .writeRtime _ now => some now | _ => none) 0 as
  clkAt _ := 0
  valid _ _ := first (fun a => match a with | .checkVal _ ok => some ok | _ => none) true as

/-- What the clock tells the Clean of a Set that has filled the cache. -/
def fullReadings (as : List (Act D)) (k : Str) : Int :=
  first (fun a => match a with | .setFull _ env => some (env.clkAt k) | _ => none) 0 as

/-- What the validator tells a Verify about a key. -/
def verdict (as : List (Act D)) (k : Str) : Bool :=
  first (fun a => match a with | .verifyPick _ k' ok => if k' = k then some ok else none | _ => none) true as

/-- The calls of a schedule in the order in which they start, each with what clock and validator tell it. -/
def calls : List (Act D) → List (Env × Op D)
  | [] => []
  | .set _ env k d :: as => ({ env with clkAt := fullReadings as }, .set k d) :: calls as
  | .del k :: as => (readings as, .del k) :: calls as
  | .clean env p :: as => (env, .clean p) :: calls as
  | .flush :: as => (readings as, .flush) :: calls as
  | .setMaxitems m :: as => (readings as, .setMaxitems m) :: calls as
  | .setExpire e :: as => (readings as, .setExpire e) :: calls as
  | .setValidator b :: as => (readings as, .setValidator b) :: calls as
  | .getStart _ k :: as => (readings as, .get k) :: calls as
  | .verifyStart _ env :: as => ({ env with valid := fun k _ => verdict as k }, .verify) :: calls as
  | _ :: as => calls as

/-- The answers that the concurrent model records: those of Get, and panics. -/
def said : Obs D → Option (Out D)
  | .returned _ _ d b => some (.got d b)
  | .panicked _ => some .panicked
  | _ => none

/-- The same kinds of answers among those of the sequential model. -/
def isSaid : Out D → Bool
  | .got _ _ | .panicked => true
  | _ => false

/-- The shared memory holds this cache. -/
structure Holds (s : Shared D) (c : Cache D) : Prop where
  maxitems : c.maxitems = s.maxitems
  expire : c.expire = s.expire
  hasValidator : c.hasValidator = s.hasValidator
  pile : c.pile = s.pile
  items : SameItems s.heap s.items c.items

end Xcore.V1.CacheConc.Spec
