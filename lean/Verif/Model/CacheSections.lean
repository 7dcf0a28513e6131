import Verif.Model.Cache
import Verif.Model.Lock

/-!
# The lock-protected methods of XCache, access by access

`v2/xcache.go`: Set (64-78), SetTTL (84-91), Del (178-184), Count (187-192), Clean (233-237) with mClean (198-227), and Flush
(268-273). Each method is one critical section; its individual accesses to `items` and `pile` are separate steps. Every one
of them defers the unlock. The shared state is the `Cache` record, the configuration fields included.
-/

namespace Xcore.Cache

open Lock

/-- Locals of a goroutine: program counter and variables of the running method, and the answers received so far. -/
structure Loc (D : Type) where
  pc : Nat
  ok : Bool
  todo : List (Str × Entry D)
  num : Int
  i : Nat
  outs : List (Out D)

variable {D : Type}

/-- Locals when a method starts at program counter `pc`. -/
def Loc.start (pc : Nat) (l : Loc D) : Loc D := { l with pc, ok := false, todo := [], num := 0, i := 0 }

/-- Locals between calls. -/
def Loc.idle (l : Loc D) : Loc D := { l with pc := 0, ok := false, todo := [], num := 0, i := 0 }

/-- Return from the method with an answer. -/
def Loc.ret (l : Loc D) (o : Out D) : Loc D := { Loc.idle l with outs := l.outs ++ [o] }

/-- `mClean` (xcache.go:198-227) from program counter 10: 10 decides whether there is something to expire and takes the
iteration sequence of the map, 11 is one iteration of the expiration loop, 12 computes `num`, 13 is one iteration of the
eviction loop, 14 cuts the pile and returns `res i`. -/
def cleanStep (env : Env) (perc : Int) (res : Nat → Out D) (c : Cache D) (l : Loc D) : Outcome (Cache D) (Loc D) :=
  match l.pc with
  | 10 => .next c { l with todo := if c.expire ≠ 0 then c.items else [], pc := 11 }
  | 11 =>
    match l.todo with
    | (k, x) :: rest =>
      if past x.ctime c.expire (env.clkAt k) then .next { c with items := c.items.del k } { l with todo := rest, i := l.i + 1 }
      else .next c { l with todo := rest }
    | [] => .next c { l with pc := 12 }
  | 12 => .next c { l with num := cleanNum c.items.length perc, i := 0, pc := 13 }
  | 13 =>
    if (l.i : Int) < l.num then
      match c.pile[l.i]? with
      | some k => .next { c with items := c.items.del k } { l with i := l.i + 1 }
      | none => .panic
    else .next c { l with pc := 14 }
  | 14 => .next { c with pile := c.pile.drop l.i } { l with pc := 15 }
  | _ => .done (l.ret (res l.i))

/-- The body of each method. -/
def opStep (env : Env) : Op D → Cache D → Loc D → Outcome (Cache D) (Loc D)
  | .set k d, c, l =>
    match l.pc with
    | 0 => .next c { l with ok := (c.items.get k).isSome, pc := 1 }
    | 1 => .next { c with items := c.items.set k { ctime := env.clk 0, rtime := env.clk 1, ttl := 0, data := d } } { l with pc := 2 }
    | 2 => .next { c with pile := if l.ok then removeFromPile c.pile k else c.pile } { l with pc := 3 }
    | 3 => .next { c with pile := c.pile ++ [k] } { l with pc := 4 }
    | 4 => if 0 < c.maxitems ∧ c.maxitems ≤ c.items.length then .next c { l with pc := 10 } else .done (l.ret .unit)
    | _ => cleanStep env 10 (fun _ => .unit) c l
  | .setTTL k t, c, l =>
    match c.items.get k with
    | some e => if l.pc = 0 then .next { c with items := c.items.set k { e with ttl := t } } { l with pc := 1 } else .done (l.ret .unit)
    | none => .done (l.ret .unit)
  | .del k, c, l =>
    match l.pc with
    | 0 => .next { c with items := c.items.del k } { l with pc := 1 }
    | 1 => .next { c with pile := removeFromPile c.pile k } { l with pc := 2 }
    | _ => .done (l.ret .unit)
  | .count, c, l => .done (l.ret (.num (count c)))
  | .clean p, c, l => cleanStep env p (fun i => .num i) c l
  | .flush, c, l => if l.pc = 0 then .next { c with items := [] } { l with pc := 1 } else .done (l.ret .unit)
  | _, _, l => .done l

/-- The critical section of a method. `Count` takes the read lock, the others the write lock; all defer the unlock. -/
def opSection (env : Env) (op : Op D) : Section (Cache D) (Loc D) where
  mode := match op with | .count => .read | _ => .write
  deferred := true
  enter := match op with | .clean _ => Loc.start 10 | _ => Loc.start 0
  abort := fun l => l.ret .panicked
  step := opStep env op

end Xcore.Cache
