import Verif.Model.V1.CacheConc

/-!
# XCache of version 1 with validators that use the cache themselves, or panic

`xcache.go` (root package), one goroutine; as `Verif/Model/CacheValidator.lean` for version 2. The validator is a program that may make any
calls on the same cache, may recover from the panics of these calls, and ends with an answer or a panic. The field `locked` is the mutex
(a `sync.Mutex`, xcache.go:32): a call that needs it while it is held never returns. No method of version 1 defers the unlock, so a panic
between Lock and Unlock leaves it held.

Nesting and the loop of `Verify` have no bound in the code; here they are cut by a number of steps (`deep`), on which results do not depend
(`C101_steps_do_not_matter`).
-/

namespace Xcore.V1.CacheValidator

open Xcore.Cache (Env Out)
open Xcore.V1.Cache (Entry Op removeFromPile)
open Xcore.V1.CacheConc (Shared)

/-- What one invocation of a validator does: it answers, panics, or makes a call on the cache and goes on according to the answer of the
call (`none`: the call panicked and the validator recovered; not recovering is going on with `panic`). -/
inductive Script (D : Type) where
  | answer (b : Bool)
  | panic
  | call (env : Env) (op : Op D) (next : Option (Out D) → Script D)

/-- The world around the cache: what the `n`-th question to it gets as answer. `validator n k t` is the invocation of the validator with key
`k` and time `t`; `order n` is the key that a `range` loop over a map produces next, if it is free to produce it. -/
structure World (D : Type) where
  validator : Nat → Str → Int → Script D
  order : Nat → Option Str

/-- The cache with its mutex (`sh`, xcache.go:21-37), the maps that were in `items` before a `Flush` (oldest first), the number of questions
asked to the world, and the list of all `Set` calls so far (not part of the code: for the specification). -/
structure State (D : Type) where
  sh : Shared D
  left : List (AMap Nat)
  asked : Nat
  sets : List (Str × D)

variable {D α β : Type}

/-- How a piece of code ends: it returns, panics, never goes on (blocked for ever on the mutex, or a fatal error of the mutex), or takes more
steps than given. -/
inductive Ran (D α : Type) where
  | ret (st : State D) (a : α)
  | panic (st : State D)
  | stuck
  | deep

/-- Go on after a return. -/
def Ran.bind : Ran D α → (State D → α → Ran D β) → Ran D β
  | .ret st a, f => f st a
  | .panic st, _ => .panic st
  | .stuck, _ => .stuck
  | .deep, _ => .deep

/-- Change the result. -/
def Ran.map (f : α → β) (r : Ran D α) : Ran D β := r.bind fun st a => .ret st (f a)

/-- `c.mutex.Lock()` by the only goroutine. -/
def lock (st : State D) : Ran D Unit :=
  if st.sh.locked then .stuck else .ret { st with sh := { st.sh with locked := true } } ()

/-- `c.mutex.Unlock()`; unlocking a free mutex is a fatal error. -/
def unlock (st : State D) : Ran D Unit :=
  if st.sh.locked then .ret { st with sh := { st.sh with locked := false } } () else .stuck

/-- `Clean` (xcache.go:156-187). The answer is the number of evictions: the counter of the expired entries is reset (181). A panic (index out
of range, 182) leaves the mutex locked. -/
def clean (st : State D) (env : Env) (perc : Int) : Ran D Int :=
  (lock st).bind fun st _ =>
    let r := CacheConc.clean st.sh env perc
    if r.2 then (unlock { st with sh := r.1 }).bind fun st' _ => .ret st' ((st.sh.pile.length : Int) - r.1.pile.length)
    else .panic { st with sh := r.1 }

/-- `Set` (xcache.go:62-76). -/
def set (st : State D) (env : Env) (k : Str) (d : D) : Ran D (Out D) :=
  (lock st).bind fun st _ =>
    (unlock { st with sh := CacheConc.set st.sh env k d, sets := st.sets ++ [(k, d)] }).bind fun st _ =>
      if 0 < st.sh.maxitems ∧ st.sh.maxitems ≤ st.sh.items.length then (clean st env 10).bind fun st _ => .ret st .unit
      else .ret st .unit

/-- `Del` (xcache.go:136-142). -/
def del (st : State D) (k : Str) : Ran D (Out D) :=
  (lock st).bind fun st _ => (unlock { st with sh := CacheConc.del st.sh k }).bind fun st _ => .ret st .unit

/-- `Count` (xcache.go:145-150). -/
def count (st : State D) : Ran D (Out D) :=
  (lock st).bind fun st _ => (unlock st).bind fun st' _ => .ret st' (.num st.sh.items.length)

/-- `Flush` (xcache.go:214-219): a new map; loops over the old one go on over the old one. -/
def flush (st : State D) : Ran D (Out D) :=
  (lock st).bind fun st _ =>
    (unlock { st with sh := { st.sh with items := [] }, left := st.left ++ [st.sh.items] }).bind fun st _ => .ret st .unit

/-- One invocation of the validator; `call` executes a call on the cache. -/
def invoke (call : State D → Env → Op D → Ran D (Out D)) : Script D → State D → Ran D Bool
  | .answer b, st => .ret st b
  | .panic, st => .panic st
  | .call env op next, st =>
    match call st env op with
    | .ret st o => invoke call (next (some o)) st
    | .panic st => invoke call (next none) st
    | .stuck => .stuck
    | .deep => .deep

/-- `c.Validator(key, x.ctime)` (xcache.go:102, 198). Calling a nil function panics. -/
def ask (W : World D) (call : State D → Env → Op D → Ran D (Out D)) (st : State D) (k : Str) (ctime : Int) : Ran D Bool :=
  if st.sh.hasValidator then invoke call (W.validator st.asked k ctime) { st with asked := st.asked + 1 } else .panic st

/-- The end of a Get that finds the entry invalid (xcache.go:106-110, 119-123). -/
def getDrop (st : State D) (k : Str) : Ran D (Out D) := (del st k).bind fun st _ => .ret st (.got none true)

/-- `Get` (xcache.go:97-133). `x` is the entry found at the beginning; `ctime` and `data` of an entry are never written again. The pile is
changed without the lock (127-128). -/
def get (W : World D) (call : State D → Env → Op D → Ran D (Out D)) (st : State D) (env : Env) (k : Str) : Ran D (Out D) :=
  (lock st).bind fun st _ =>
    match st.sh.items.get k with
    | none => (unlock st).bind fun st _ => .ret st (.got none false)
    | some id =>
      (unlock st).bind fun st _ =>
        match st.sh.heap[id]? with
        | none => .stuck
        | some e =>
          (if st.sh.hasValidator then ask W call st k e.ctime else .ret st true).bind fun st b =>
            if !b then getDrop st k
            else if st.sh.expire ≠ 0 ∧ e.ctime + st.sh.expire < env.clk 1 then getDrop st k
            else
              .ret { st with sh := { st.sh with
                heap := st.sh.heap.modify id (fun e => { e with rtime := env.clk 2 }), pile := removeFromPile st.sh.pile k ++ [k] } }
                (.got (some e.data) false)

/-- The map number `m`: one of those left by a Flush, or the one in `c.items`. -/
def mapOf (st : State D) (m : Nat) : AMap Nat := (st.left[m]?).getD st.sh.items

/-- What a `range` loop over the map `m` produces next (Go specification, "For statements with range clause"): `todo` are the entries present
at the start and not yet produced, `done` the entries produced. An entry deleted before it is reached is not produced, one that is added
during the loop may be produced or not; the world decides. (Simplified: an entry that is replaced counts as a new one, so the model has
more behaviours than Go.) -/
def rangeNext (W : World D) (st : State D) (m : Nat) (todo done : List (Str × Nat)) : Option (Str × Nat) :=
  let forced := todo.find? fun p => (mapOf st m).get p.1 == some p.2
  match W.order st.asked with
  | none => forced
  | some k =>
    match (mapOf st m).get k with
    | some id => if (k, id) ∈ done then forced else some (k, id)
    | none => forced

/-- The deletion by `Verify` (xcache.go:202-204): the key stays in the pile. -/
def drop (st : State D) (k : Str) : Ran D Unit :=
  (lock st).bind fun st _ => unlock { st with sh := { st.sh with items := st.sh.items.del k } }

/-- The loop of `Verify` (xcache.go:197-207) over the map `m`, with at most as many iterations as given. -/
def verifyLoop (W : World D) (call : State D → Env → Op D → Ran D (Out D)) (m : Nat) :
    Nat → List (Str × Nat) → List (Str × Nat) → Int → State D → Ran D (Out D)
  | 0, _, _, _, _ => .deep
  | f + 1, todo, done, i, st =>
    match rangeNext W st m todo done with
    | none => .ret { st with asked := st.asked + 1 } (.num i)
    | some (k, id) =>
      match st.sh.heap[id]? with
      | none => .stuck
      | some e =>
        (ask W call { st with asked := st.asked + 1 } k e.ctime).bind fun st b =>
          if !b then (drop st k).bind fun st _ => verifyLoop W call m f (todo.erase (k, id)) ((k, id) :: done) (i + 1) st
          else verifyLoop W call m f (todo.erase (k, id)) ((k, id) :: done) i st

/-- `Verify` (xcache.go:192-210). -/
def verify (W : World D) (call : State D → Env → Op D → Ran D (Out D)) (f : Nat) (st : State D) (env : Env) : Ran D (Out D) :=
  (clean st env 0).bind fun st i =>
    if st.sh.hasValidator then verifyLoop W call st.left.length f st.sh.items [] i st else .ret st (.num i)

/-- One call on the cache, or an assignment to one of its exported fields, in at most so many steps: calls made by validators have one
step less. -/
def exec (W : World D) : Nat → State D → Env → Op D → Ran D (Out D)
  | 0, _, _, _ => .deep
  | f + 1, st, env, op =>
    match op with
    | .set k d => set st env k d
    | .get k => get W (exec W f) st env k
    | .del k => del st k
    | .count => count st
    | .clean p => (clean st env p).map .num
    | .verify => verify W (exec W f) f st env
    | .flush => flush st
    | .setMaxitems m => .ret { st with sh := { st.sh with maxitems := m } } .unit
    | .setExpire e => .ret { st with sh := { st.sh with expire := e } } .unit
    | .setValidator b => .ret { st with sh := { st.sh with hasValidator := b } } .unit

/-- A history of calls by a goroutine that recovers from panics; the answers in order, `none` for a panic. -/
def run (W : World D) (f : Nat) : State D → List (Env × Op D) → Ran D (List (Option (Out D)))
  | st, [] => .ret st []
  | st, (env, op) :: h =>
    match exec W f st env op with
    | .ret st o => (run W f st h).map (some o :: ·)
    | .panic st => (run W f st h).map (none :: ·)
    | .stuck => .stuck
    | .deep => .deep

/-- A new cache (`NewXCache`, xcache.go:45-56). -/
def new (maxitems expire : Int) : State D := ⟨⟨maxitems, expire, false, [], [], [], false⟩, [], 0, []⟩

end Xcore.V1.CacheValidator
