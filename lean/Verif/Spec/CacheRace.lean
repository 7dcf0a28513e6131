import Verif.Model.CacheRace
import Verif.Spec.CacheConc

/-!
# Data races of a cache, for C104

A data race: two goroutines access the same memory cell at the same time, one of them writes, and the mutex does not keep them apart.
-/

namespace Xcore.CacheConc

open Cache

variable {D : Type}

/-- The mutex keeps two steps apart: both hold it, one of them exclusively. -/
def Excludes : Held → Held → Prop
  | .exclusive, .exclusive | .exclusive, .shared | .shared, .exclusive => True
  | _, _ => False

/-- Both steps can be taken next, by different goroutines. -/
def Concurrent (st : St D) (a b : Move D) : Prop :=
  a.able st = true ∧ b.able st = true ∧ ∀ t, a.owner = some t → b.owner ≠ some t

/-- A data race between two steps that can both be taken next. -/
def Race (st : St D) (a b : Move D) : Prop :=
  Concurrent st a b ∧ ¬ Excludes a.held b.held ∧
    ∃ cell wa wb, (cell, wa) ∈ a.cells st ∧ (cell, wb) ∈ b.cells st ∧ (wa = true ∨ wb = true)

/-- The step only looks, inside the mutex: Count, and the beginning of a Get. -/
def Peeks : Move D → Prop
  | .count | .act (.getStart _ _) => True
  | _ => False

/-- The step changes something inside the mutex: Set, SetTTL, Del, Clean, Flush, the end of a Get, and the parts of Get and Verify that clean or
delete. -/
def Edits : Move D → Prop
  | .act (.set _ _ _) | .act (.setTTL _ _) | .act (.del _) | .act (.clean _ _) | .act .flush | .act (.getEnd _) | .act (.getDrop _)
  | .act (.verifyStart _ _) | .act (.verifyDel _) => True
  | _ => False

/-- The cell has the same content in both states (`items`: the field refers to the same map). -/
def SameContent (st st' : St D) : Cell → Prop
  | .maxitems => st'.sh.maxitems = st.sh.maxitems
  | .expire => st'.sh.expire = st.sh.expire
  | .validator => st'.sh.hasValidator = st.sh.hasValidator
  | .items => st'.left.length = st.left.length
  | .map n => ∀ items, (st.left ++ [st.sh.items])[n]? = some items → (st'.left ++ [st'.sh.items])[n]? = some items
  | .pile => st'.sh.pile = st.sh.pile
  | .ctime id => st'.sh.heap[id]?.map (·.ctime) = st.sh.heap[id]?.map (·.ctime)
  | .rtime id => st'.sh.heap[id]?.map (·.rtime) = st.sh.heap[id]?.map (·.rtime)
  | .ttl id => st'.sh.heap[id]?.map (·.ttl) = st.sh.heap[id]?.map (·.ttl)
  | .data id => st'.sh.heap[id]?.map (·.data) = st.sh.heap[id]?.map (·.data)

/-- Two states in which the cells that a step accesses have the same content. -/
def Agree (st st2 : St D) (a : Move D) : Prop := ∀ c w, (c, w) ∈ a.cells st → SameContent st st2 c

/-- The exported fields that the methods read. -/
inductive Field where
  | maxitems
  | expire
  | validator
  deriving DecidableEq, Repr

/-- The step is an assignment to the field. -/
def Assigns : Field → Move D → Prop
  | .maxitems, .act (.setMaxitems _) => True
  | .expire, .act (.setExpire _) => True
  | .validator, .act (.setValidator _) => True
  | _, _ => False

/-- The step assigns or reads the field: Set reads `Maxitems`, and `Expire` when it cleans a full cache; Clean and Verify read `Expire`, Get
reads `Validator` and `Expire`, Verify reads `Validator`. -/
def Uses (st : St D) : Field → Move D → Prop
  | .maxitems, .act (.setMaxitems _) | .maxitems, .act (.set _ _ _) => True
  | .expire, .act (.setExpire _) | .expire, .act (.clean _ _) | .expire, .act (.verifyStart _ _) | .expire, .act (.checkExp _ _) => True
  | .expire, .act (.set _ k _) => 0 < st.sh.maxitems ∧ st.sh.maxitems ≤ countWith st k
  | .validator, .act (.setValidator _) | .validator, .act (.checkVal _ _) | .validator, .act (.verifyEnd _) => True
  | .validator, .act (.verifyPick _ _ _) => st.sh.hasValidator = true
  | _, _ => False

/-- The step writes into the map of the cache. -/
def WritesMap : Move D → Prop
  | .act (.set _ _ _) | .act (.del _) | .act (.clean _ _) | .act (.getDrop _) | .act (.verifyStart _ _) | .act (.verifyDel _) => True
  | _ => False

/-- The step belongs to the loop of a Verify; with `here` it reads the map that the cache has now (and not one that Flush abandoned). -/
def Loops (st : St D) (here : Bool) : Move D → Prop
  | .act (.verifyPick _ k _) => here = true → (st.sh.items.get k).isSome = true
  | .act (.verifyEnd _) => True
  | _ => False

/-- The four kinds of races. -/
inductive Clash (st : St D) : Move D → Move D → Prop
  /-- Two Gets of the same entry store the time of reading. -/
  | rtime {t t' : Nat} {now now' : Int} {k : Str} {id : Nat} : st.pcs t = .good k id → st.pcs t' = .good k id →
      Clash st (.act (.writeRtime t now)) (.act (.writeRtime t' now'))
  /-- SetTTL of a key while a Get of it looks at the TTL. -/
  | ttl {t : Nat} {now d : Int} {k : Str} {id : Nat} : st.sh.items.get k = some id → st.pcs t = .loaded k id →
      Clash st (.act (.setTTL k d)) (.act (.checkTTL t now))
  /-- A write into the map while Verify ranges over it. -/
  | loop {a b : Move D} : st.sh.hasValidator = true → WritesMap a → Loops st true b → Clash st a b
  /-- Flush replaces the map while Verify ranges. -/
  | flush {b : Move D} : st.sh.hasValidator = true → Loops st false b → Clash st (.act .flush) b
  /-- An assignment to an exported field that another goroutine uses. -/
  | field {a b : Move D} (f : Field) : Assigns f a → Uses st f b → Clash st a b

/-- The goroutine is in a `Get(k)` that found an entry. -/
def InGet (k : Str) : PC → Prop
  | .loaded k' _ | .ttlOk k' _ | .valOk k' _ | .good k' _ | .touch k' _ | .doomed k' _ => k' = k
  | _ => False

/-- What a considerate program does not do: Get or SetTTL a key while another Get of that key is running, call Verify when there is a
validator, assign the exported fields after the start. -/
def Considerate (st : St D) : Move D → Prop
  | .act (.getStart _ k) | .act (.setTTL k _) => ∀ t, ¬ InGet k (st.pcs t)
  | .act (.verifyStart _ _) => st.sh.hasValidator = false
  | .act (.setMaxitems _) | .act (.setExpire _) | .act (.setValidator _) => False
  | _ => True

/-- A new cache, with or without a validator. -/
def start (m e : Int) (validator : Bool) : St D := { init m e with sh := { (init m e : St D).sh with hasValidator := validator } }

/-- The states that considerate programs can reach. -/
inductive ConsiderateRun (m e : Int) (validator : Bool) : St D → Prop
  | start : ConsiderateRun m e validator (start m e validator)
  | step {st st' : St D} {a : Act D} : ConsiderateRun m e validator st → Considerate st (.act a) → apply st a = some st' →
      ConsiderateRun m e validator st'

end Xcore.CacheConc
