import Verif.Model.Cache

/-!
# Specification of the cache: an ideal table without capacity limit, and recency

This file knows nothing of `items`/`pile`: an ideal cache is a function from keys to the record of the latest `Set`.
-/

namespace Xcore.Cache.Spec

variable {D : Type}

/-- What an ideal cache remembers about a key: the data, when it was set, and its TTL (0 = none). -/
structure Rec (D : Type) where
  data : D
  ctime : Int
  ttl : Int

/-- An ideal cache of unlimited capacity. -/
structure Ideal (D : Type) where
  expire : Int
  hasValidator : Bool
  tab : Str → Option (Rec D)

/-- The empty ideal cache. -/
def Ideal.empty (expire : Int) : Ideal D := ⟨expire, false, fun _ => none⟩

/-- A deadline `ctime + d` has passed at `now` when it is strictly before `now`; `d = 0` means no deadline. -/
def deadlinePassed (d ctime now : Int) : Prop := d ≠ 0 ∧ ctime + d < now

instance (d c n : Int) : Decidable (deadlinePassed d c n) := inferInstanceAs (Decidable (_ ∧ _))

/-- An entry is bad for a read when its TTL passed, the validator refuses it, or the cache-wide expiration passed. -/
def Bad (s : Ideal D) (env : Env) (k : Str) (r : Rec D) : Prop :=
  deadlinePassed r.ttl r.ctime (env.clk 0) ∨ (s.hasValidator = true ∧ env.valid k r.ctime = false) ∨
    deadlinePassed s.expire r.ctime (env.clk 1)

instance (s : Ideal D) (env : Env) (k : Str) (r : Rec D) : Decidable (Bad s env k r) :=
  inferInstanceAs (Decidable (_ ∨ _ ∨ _))

/-- Table update at one key. -/
def upd (t : Str → Option (Rec D)) (k : Str) (v : Option (Rec D)) : Str → Option (Rec D) :=
  fun k' => if k' = k then v else t k'

/-- Keep only the entries satisfying `p`. -/
def keep (t : Str → Option (Rec D)) (p : Str → Rec D → Prop) [∀ k r, Decidable (p k r)] : Str → Option (Rec D) :=
  fun k => match t k with
    | some r => if p k r then some r else none
    | none => none

/-- The answer of a read of `k`: value and `false` when good, nothing and `true` when bad, nothing and `false` when absent. -/
def answer (s : Ideal D) (env : Env) (k : Str) : Option D × Bool :=
  match s.tab k with
  | some r => if Bad s env k r then (none, true) else (some r.data, false)
  | none => (none, false)

/-- One call on the ideal cache. -/
def next (s : Ideal D) (env : Env) : Op D → Ideal D
  | .set k d => { s with tab := upd s.tab k (some ⟨d, env.clk 0, 0⟩) }
  | .setTTL k t => { s with tab := upd s.tab k ((s.tab k).map fun r => { r with ttl := t }) }
  | .get k => { s with tab := keep s.tab (fun k' r => ¬ (k' = k ∧ Bad s env k r)) }
  | .del k => { s with tab := upd s.tab k none }
  | .count => s
  | .clean _ => { s with tab := keep s.tab (fun k r => ¬ deadlinePassed s.expire r.ctime (env.clkAt k)) }
  | .verify =>
    { s with tab := keep s.tab (fun k r =>
        ¬ deadlinePassed s.expire r.ctime (env.clkAt k) ∧ (s.hasValidator = true → env.valid k r.ctime = true)) }
  | .flush => { s with tab := fun _ => none }
  | .setMaxitems _ => s
  | .setExpire e => { s with expire := e }
  | .setValidator b => { s with hasValidator := b }

/-- The ideal cache after a history. -/
def after (s : Ideal D) : List (Env × Op D) → Ideal D
  | [] => s
  | (env, op) :: h => after (next s env op) h

/-- A call that cannot evict by capacity: no positive limit is configured, no positive percentage is cleaned. -/
def CapacityFree : Op D → Prop
  | .clean p => p ≤ 0
  | .setMaxitems m => m ≤ 0
  | _ => True

/-- The number of entries a `Set k` leaves if nothing is evicted. -/
def countWith (c : Cache D) (k : Str) : Nat := if (c.items.get k).isSome then count c else count c + 1

/-- A call that can evict valid entries: `Clean` with a positive percentage, or a `Set` reaching the limit. -/
def MayEvict (c : Cache D) : Op D → Prop
  | .clean p => 0 < p
  | .set k _ => 0 < c.maxitems ∧ c.maxitems ≤ (countWith c k : Int)
  | _ => False

/-- No call of the history can evict valid entries. -/
def Quiet (c : Cache D) : List (Env × Op D) → Prop
  | [] => True
  | (env, op) :: h => ¬ MayEvict c op ∧ Quiet (step c env op).1 h

/-- A cache some history of calls on a new cache leads to. -/
def Reachable (c : Cache D) : Prop := ∃ (m e : Int) (h : List (Env × Op D)), c = (run (new m e) h).1

/-- The key has an entry. -/
def Present (c : Cache D) (k : Str) : Prop := ∃ e, c.items.get k = some e

/-- The calls of a history paired with their answers. -/
def trace (c : Cache D) (hist : List (Env × Op D)) : List (Op D × Out D) :=
  (hist.map Prod.snd).zip (run c hist).2

/-- The keys "used" by a history, oldest use first: a `Set k`, or a `Get k` that returned data. -/
def uses : List (Op D × Out D) → List Str
  | [] => []
  | (.set k _, _) :: t => k :: uses t
  | (.get k, .got (some _) _) :: t => k :: uses t
  | _ :: t => uses t

/-- Age of the last use of `k`: 0 for the most recently used key, larger for older ones. -/
def age (u : List Str) (k : Str) : Nat := u.reverse.idxOf k

/-- No entry is past the cache-wide deadline when a call looks for expired entries. -/
def Fresh (c : Cache D) (env : Env) : Prop :=
  ∀ k e, c.items.get k = some e → ¬ deadlinePassed c.expire e.ctime (env.clkAt k)

/-- A call after which the order of use is the whole truth: no Flush except of an empty cache, percentages up to 100, and no expired
entries whenever a call looks for them (`Clean`, `Verify`, and a `Set` that reaches the limit). -/
def Orderly (c : Cache D) (env : Env) : Op D → Prop
  | .flush => count c = 0
  | .clean p => p ≤ 100 ∧ Fresh c env
  | .verify => Fresh c env
  | .set k d => MayEvict c (.set k d) → ¬ deadlinePassed c.expire (env.clk 0) (env.clkAt k) ∧
      ∀ k' e, k' ≠ k → c.items.get k' = some e → ¬ deadlinePassed c.expire e.ctime (env.clkAt k')
  | _ => True

/-- All calls of the history are orderly. -/
def OrderlyRun (c : Cache D) : List (Env × Op D) → Prop
  | [] => True
  | (env, op) :: h => Orderly c env op ∧ OrderlyRun (step c env op).1 h

/-- The call does not change the limit. -/
def KeepsLimit : Op D → Prop
  | .setMaxitems _ => False
  | _ => True

/-- How many present keys were last used before the key `k`. -/
def older (c : Cache D) (u : List Str) (k : Str) : Nat := (c.items.keys.filter fun k' => decide (age u k < age u k')).length

/-- Calls whose percentage, if any, is at most 100. -/
def PercOk : Op D → Prop
  | .clean p => p ≤ 100
  | _ => True

/-- The entry of `k` is past the cache-wide deadline when a call looks for expired entries. -/
def Expired (c : Cache D) (env : Env) (k : Str) : Prop :=
  ∃ e, c.items.get k = some e ∧ deadlinePassed c.expire e.ctime (env.clkAt k)

/-- The call drops the entry of `k` without regard to its last use: `Flush` does, and every call that looks for expired entries and finds
this one expired (`Clean`, `Verify`, and a `Set` that reaches the limit, which may find the entry it has just made expired). -/
def Drops (c : Cache D) (env : Env) (k : Str) : Op D → Prop
  | .flush => Present c k
  | .clean _ => Expired c env k
  | .verify => Expired c env k
  | .set k0 d => MayEvict c (.set k0 d) ∧
      ((k = k0 ∧ deadlinePassed c.expire (env.clk 0) (env.clkAt k)) ∨ (k ≠ k0 ∧ Expired c env k))
  | _ => False

/-- Some call of the history dropped an entry of `k`. -/
def EverDropped (c : Cache D) (k : Str) : List (Env × Op D) → Prop
  | [] => False
  | (env, op) :: h => Drops c env k op ∨ EverDropped (step c env op).1 k h

/-- How many entries past the deadline there are, the key `k0` left out if given. -/
def expiredCount (c : Cache D) (env : Env) (k0 : Option Str) : Nat :=
  (c.items.filter fun p => decide (some p.1 ≠ k0 ∧ deadlinePassed c.expire p.2.ctime (env.clkAt p.1))).length

/-- How many entries the call drops (`Drops`). -/
def dropCount (c : Cache D) (env : Env) : Op D → Nat
  | .flush => count c
  | .clean _ => expiredCount c env none
  | .verify => expiredCount c env none
  | .set k _ => if 0 < c.maxitems ∧ c.maxitems ≤ (countWith c k : Int) then
      (if deadlinePassed c.expire (env.clk 0) (env.clkAt k) then 1 else 0) + expiredCount c env (some k) else 0
  | _ => 0

/-- How many entries the calls of a history drop altogether. -/
def dropTotal (c : Cache D) : List (Env × Op D) → Nat
  | [] => 0
  | (env, op) :: h => dropCount c env op + dropTotal (step c env op).1 h

/-- A call that overwrites or removes `k` on purpose. -/
def Touches (k : Str) : Op D → Prop
  | .set k' _ => k' = k
  | .del k' => k' = k
  | .flush => True
  | _ => False

/-- The reason a read drops an entry, in terms of the configuration and the readings. -/
def InvalidNow (c : Cache D) (env : Env) (k : Str) (ctime ttl : Int) : Prop :=
  deadlinePassed ttl ctime (env.clk 0) ∨ (c.hasValidator = true ∧ env.valid k ctime = false) ∨
    deadlinePassed c.expire ctime (env.clk 1)

end Xcore.Cache.Spec
