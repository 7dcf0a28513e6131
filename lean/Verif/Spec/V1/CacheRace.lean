import Verif.Model.V1.CacheRace

/-!
# Data races of a cache of version 1, for C105

A data race: two goroutines access the same memory cell at the same time, one of them writes, and not both accesses are done with the mutex
locked.
-/

namespace Xcore.V1.CacheConc

open Xcore.Cache (Env)

variable {D : Type}

/-- Both steps can be taken next, by different goroutines. -/
def Concurrent (st : St D) (a b : Move D) : Prop :=
  a.able st = true ∧ b.able st = true ∧ ∀ t, a.owner = some t → b.owner ≠ some t

/-- A data race between two steps that can both be taken next. -/
def Race (st : St D) (a b : Move D) : Prop :=
  Concurrent st a b ∧ ∃ x ∈ a.cells st, ∃ y ∈ b.cells st, x.cell = y.cell ∧ (x.write = true ∨ y.write = true) ∧
    ¬ (x.locked = true ∧ y.locked = true)

/-- The cell has the same content in both states (`items`: the field refers to the same map). -/
def SameContent (st st' : St D) : Cell → Prop
  | .maxitems => st'.sh.maxitems = st.sh.maxitems
  | .expire => st'.sh.expire = st.sh.expire
  | .validator => st'.sh.hasValidator = st.sh.hasValidator
  | .items => st'.left.length = st.left.length
  | .map n => ∀ items, (st.left ++ [st.sh.items])[n]? = some items → (st'.left ++ [st'.sh.items])[n]? = some items
  | .pile => st'.sh.pile = st.sh.pile
  | .ctime id => st'.sh.heap[id]?.map (·.ctime) = st.sh.heap[id]?.map (·.ctime)
  | .rtime id => st'.sh.heap[id]?.map (·.rtime) = st.sh.heap[id]?.map (·.rtime)
  | .data id => st'.sh.heap[id]?.map (·.data) = st.sh.heap[id]?.map (·.data)

/-- The two states agree on everything that the step accesses in the first. -/
def Agree (st st2 : St D) (a : Move D) : Prop := ∀ x ∈ a.cells st, SameContent st st2 x.cell

/-- The step `a` leads from `st` to `st1` and from `st2` to `st2'` with the same effect: the goroutines are at the same places, the mutex is
locked in both or in none, the same is observed, and the cells that the step writes have the same content. -/
def SameEffect (st st2 st1 st2' : St D) (a : Act D) : Prop :=
  st2'.pcs = st1.pcs ∧ st2'.sh.locked = st1.sh.locked ∧ (∃ new, st1.obs = st.obs ++ new ∧ st2'.obs = st2.obs ++ new) ∧
    ∀ c l, ⟨c, true, l⟩ ∈ (Move.act a).cells st → SameContent st1 st2' c

/-- The exported fields that the methods read. -/
inductive Field where
  | maxitems
  | expire
  | validator
  deriving DecidableEq, Repr

/-- The step is an assignment to the field. -/
def Assigns : Field → Move D → Prop
  | .maxitems, .act (.setMaxitems _) => True
  | .expire, .act (.setExpire _) => True
  | .validator, .act (.setValidator _) => True
  | _, _ => False

/-- The step assigns or reads the field: the end of Set reads `Maxitems`, and `Expire` when it cleans a full cache; Clean and Verify read
`Expire`, Get reads `Validator` and `Expire`, Verify reads `Validator`. -/
def Uses (st : St D) : Field → Move D → Prop
  | .maxitems, .act (.setMaxitems _) | .maxitems, .act (.setFull _ _) | .maxitems, .act (.setOk _) => True
  | .expire, .act (.setExpire _) | .expire, .act (.clean _ _) | .expire, .act (.verifyStart _ _) | .expire, .act (.checkExp _ _)
  | .expire, .act (.setFull _ _) => True
  | .validator, .act (.setValidator _) | .validator, .act (.checkVal _ _) | .validator, .act (.verifyEnd _) => True
  | .validator, .act (.verifyPick _ _ _) => st.sh.hasValidator = true
  | _, _ => False

/-- The step writes into the map of the cache. -/
def WritesMap : Move D → Prop
  | .act (.set _ _ _ _) | .act (.setFull _ _) | .act (.del _) | .act (.clean _ _) | .act (.getDrop _) | .act (.verifyStart _ _)
  | .act (.verifyDel _) => True
  | _ => False

/-- The step reads the map without the mutex: the look of Set at the size (when there is a limit), and the loop of Verify; with `here` it reads
the map that the cache has now (and not one that Flush abandoned). -/
def Peeks (st : St D) (here : Bool) : Move D → Prop
  | .act (.setFull _ _) | .act (.setOk _) => 0 < st.sh.maxitems
  | .act (.verifyPick _ k _) => st.sh.hasValidator = true ∧ (here = true → (st.sh.items.get k).isSome = true)
  | .act (.verifyEnd _) => st.sh.hasValidator = true
  | _ => False

/-- The end of a Get that found its entry: it moves the key in the pile without the mutex. -/
def MovesKey : Move D → Prop
  | .act (.loadPile _) | .act (.storePile _) => True
  | _ => False

/-- The step writes the pile. -/
def WritesPile : Move D → Prop
  | .act (.set _ _ _ _) | .act (.setFull _ _) | .act (.del _) | .act (.clean _ _) | .act (.getDrop _) | .act (.verifyStart _ _)
  | .act (.storePile _) => True
  | _ => False

/-- The kinds of races. -/
inductive Clash (st : St D) : Move D → Move D → Prop
  /-- The end of a Get and anything that changes the pile, also the end of another Get. -/
  | pile {a b : Move D} : WritesPile a → MovesKey b → Clash st a b
  /-- Two Gets of the same entry store the time of reading. -/
  | rtime {t t' : Nat} {now now' : Int} {k : Str} {id : Nat} : st.pcs t = .good k id → st.pcs t' = .good k id →
      Clash st (.act (.writeRtime t now)) (.act (.writeRtime t' now'))
  /-- A write into the map while Set looks at its size or Verify ranges over it. -/
  | map {a b : Move D} : WritesMap a → Peeks st true b → Clash st a b
  /-- Flush replaces the map meanwhile. -/
  | flush {b : Move D} : Peeks st false b → Clash st (.act .flush) b
  /-- An assignment to an exported field that another goroutine uses. -/
  | field {a b : Move D} (f : Field) : Assigns f a → Uses st f b → Clash st a b

/-- The goroutine is in a Get that found an entry. -/
def InGet : PC → Prop
  | .loaded _ _ | .valOk _ _ | .good _ _ | .touch _ _ | .removing _ _ _ | .removed _ _ | .adding _ _ _ | .doomed _ _ => True
  | _ => False

/-- No goroutine is in a Get that found an entry, and if there is a limit no goroutine is in the second half of a Set. -/
def Alone (st : St D) : Prop := ∀ t, ¬ InGet (st.pcs t) ∧ (0 < st.sh.maxitems → st.pcs t ≠ .setDone)

/-- What a considerate program does not do: begin a Get of a present key, or a call that changes the cache, while another Get that found its
entry (or, with a limit, another Set) is running; call Verify when there is a validator; assign the fields after the start. Sets without
limit, Dels, Cleans, Flushs, Counts and Gets of absent keys may run together. -/
def Considerate (st : St D) : Move D → Prop
  | .act (.getStart _ k) => (st.sh.items.get k).isSome = true → Alone st
  | .act (.set _ _ _ _) | .act (.del _) | .act (.clean _ _) | .act .flush => Alone st
  | .act (.verifyStart _ _) => Alone st ∧ st.sh.hasValidator = false
  | .act (.setMaxitems _) | .act (.setExpire _) | .act (.setValidator _) | .act (.tear _) => False
  | _ => True

/-- A new cache, with or without a validator. -/
def start (m e : Int) (validator : Bool) : St D := { init m e with sh := { (init m e : St D).sh with hasValidator := validator } }

/-- The states that considerate programs can reach. -/
inductive ConsiderateRun (m e : Int) (validator : Bool) : St D → Prop
  | start : ConsiderateRun m e validator (start m e validator)
  | step {st st' : St D} {a : Act D} : ConsiderateRun m e validator st → Considerate st (.act a) → apply st a = some st' →
      ConsiderateRun m e validator st'

end Xcore.V1.CacheConc
