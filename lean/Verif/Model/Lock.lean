/-!
# Goroutines using a `sync.RWMutex`

A small-step model of goroutines whose calls are critical sections of one `sync.RWMutex`, as all the "TS" objects of the
library are written: `Lock(); …; Unlock()` or `RLock(); …; RUnlock()`, with or without `defer`. Every individual access is
one step, steps of different goroutines interleave arbitrarily. Memory is sequentially consistent. The number of goroutines
is not bounded. `RWMutex` is modelled by its contract: a writer excludes everybody, readers exclude writers; the preference
given to waiting writers only removes schedules and is not modelled.
-/

namespace Xcore.Lock

/-- `Lock` or `RLock`. -/
inductive Mode where
  | read
  | write
  deriving DecidableEq, Repr

/-- Result of one access: continue, leave the section, or a Go panic. -/
inductive Outcome (σ L : Type) where
  | next (s : σ) (l : L)
  | done (l : L)
  | panic

/-- The code between acquisition and release of the lock: `enter` prepares the locals, `step` is one access to the shared data,
`abort` is what the locals become when the section panics (and the caller recovers). `deferred` tells whether the unlock is
deferred (`defer mutex.Unlock()`): only then is the lock released by a panic. -/
structure Section (σ L : Type) where
  mode : Mode
  deferred : Bool
  enter : L → L
  abort : L → L
  step : σ → L → Outcome σ L

/-- A goroutine: its locals, the section it is executing, and the calls it still has to make. -/
structure Thread (σ L : Type) where
  loc : L
  cur : Option (Section σ L)
  todo : List (Section σ L)

/-- The whole system. `writer` and `readers` are the state of the mutex (who holds it); `log` records the calls in the order
in which they end (release of the lock, or panic). -/
structure Config (σ L : Type) where
  shared : σ
  writer : Option Nat
  readers : List Nat
  threads : Nat → Thread σ L
  log : List (Nat × Section σ L)

variable {σ L : Type}

/-- Update of a function at one point. -/
def upd {α : Type} (f : Nat → α) (i : Nat) (a : α) : Nat → α := fun j => if j = i then a else f j

/-- Nobody holds the mutex and every goroutine `i` is about to run `prog i`. -/
def init (s : σ) (l : Nat → L) (prog : Nat → List (Section σ L)) : Config σ L :=
  { shared := s, writer := none, readers := [], threads := fun i => ⟨l i, none, prog i⟩, log := [] }

/-- One step of goroutine `i`. -/
inductive Step : Config σ L → Nat → Config σ L → Prop where
  | rlock {c : Config σ L} {i : Nat} {sec : Section σ L} {rest : List (Section σ L)}
      (hidle : (c.threads i).cur = none) (htodo : (c.threads i).todo = sec :: rest) (hm : sec.mode = .read)
      (hw : c.writer = none) :
      Step c i { c with
        readers := i :: c.readers,
        threads := upd c.threads i ⟨sec.enter (c.threads i).loc, some sec, rest⟩ }
  | lock {c : Config σ L} {i : Nat} {sec : Section σ L} {rest : List (Section σ L)}
      (hidle : (c.threads i).cur = none) (htodo : (c.threads i).todo = sec :: rest) (hm : sec.mode = .write)
      (hw : c.writer = none) (hr : c.readers = []) :
      Step c i { c with
        writer := some i,
        threads := upd c.threads i ⟨sec.enter (c.threads i).loc, some sec, rest⟩ }
  | access {c : Config σ L} {i : Nat} {sec : Section σ L} {s' : σ} {l' : L}
      (hcur : (c.threads i).cur = some sec) (hs : sec.step c.shared (c.threads i).loc = .next s' l') :
      Step c i { c with
        shared := s',
        threads := upd c.threads i ⟨l', some sec, (c.threads i).todo⟩ }
  | runlock {c : Config σ L} {i : Nat} {sec : Section σ L} {l' : L}
      (hcur : (c.threads i).cur = some sec) (hm : sec.mode = .read)
      (hs : sec.step c.shared (c.threads i).loc = .done l') :
      Step c i { c with
        readers := c.readers.erase i,
        threads := upd c.threads i ⟨l', none, (c.threads i).todo⟩,
        log := c.log ++ [(i, sec)] }
  | unlock {c : Config σ L} {i : Nat} {sec : Section σ L} {l' : L}
      (hcur : (c.threads i).cur = some sec) (hm : sec.mode = .write)
      (hs : sec.step c.shared (c.threads i).loc = .done l') :
      Step c i { c with
        writer := none,
        threads := upd c.threads i ⟨l', none, (c.threads i).todo⟩,
        log := c.log ++ [(i, sec)] }
  | panicDeferred {c : Config σ L} {i : Nat} {sec : Section σ L}
      (hcur : (c.threads i).cur = some sec) (hd : sec.deferred = true)
      (hs : sec.step c.shared (c.threads i).loc = .panic) :
      Step c i { c with
        writer := if sec.mode = .write then none else c.writer,
        readers := if sec.mode = .read then c.readers.erase i else c.readers,
        threads := upd c.threads i ⟨sec.abort (c.threads i).loc, none, (c.threads i).todo⟩,
        log := c.log ++ [(i, sec)] }
  | panicLeak {c : Config σ L} {i : Nat} {sec : Section σ L}
      (hcur : (c.threads i).cur = some sec) (hd : sec.deferred = false)
      (hs : sec.step c.shared (c.threads i).loc = .panic) :
      Step c i { c with
        threads := upd c.threads i ⟨sec.abort (c.threads i).loc, none, (c.threads i).todo⟩,
        log := c.log ++ [(i, sec)] }

/-- Configurations reachable by any schedule. -/
inductive Reach (c0 : Config σ L) : Config σ L → Prop where
  | refl : Reach c0 c0
  | step {c c' : Config σ L} {i : Nat} (h : Reach c0 c) (hs : Step c i c') : Reach c0 c'

/-- Configurations reachable without a panic inside a section whose unlock is not deferred. -/
inductive Calm (c0 : Config σ L) : Config σ L → Prop where
  | refl : Calm c0 c0
  | step {c c' : Config σ L} {i : Nat} (h : Calm c0 c)
      (hp : ∀ sec, (c.threads i).cur = some sec → sec.step c.shared (c.threads i).loc = .panic → sec.deferred = true)
      (hs : Step c i c') : Calm c0 c'

/-! ## Sequential execution of a section -/

/-- Any number of accesses of a section executed without interruption. -/
inductive Accesses (f : σ → L → Outcome σ L) : σ → L → σ → L → Prop where
  | refl {s : σ} {l : L} : Accesses f s l s l
  | tail {s : σ} {l : L} {s1 : σ} {l1 : L} {s2 : σ} {l2 : L} (h : Accesses f s l s1 l1) (hs : f s1 l1 = .next s2 l2) :
      Accesses f s l s2 l2

/-- The section executed alone, from beginning to end (normal end or panic). -/
inductive Exec (sec : Section σ L) : σ → L → σ → L → Prop where
  | done {s : σ} {l : L} {s' : σ} {l1 l' : L} (h : Accesses sec.step s (sec.enter l) s' l1) (hd : sec.step s' l1 = .done l') :
      Exec sec s l s' l'
  | panic {s : σ} {l : L} {s' : σ} {l1 : L} (h : Accesses sec.step s (sec.enter l) s' l1) (hd : sec.step s' l1 = .panic) :
      Exec sec s l s' (sec.abort l1)

/-- The calls of the list executed one at a time, each alone, in that order. -/
inductive Replay (s0 : σ) (l0 : Nat → L) : List (Nat × Section σ L) → σ → (Nat → L) → Prop where
  | nil : Replay s0 l0 [] s0 l0
  | snoc {log : List (Nat × Section σ L)} {s : σ} {ls : Nat → L} {i : Nat} {sec : Section σ L} {s' : σ} {l' : L}
      (h : Replay s0 l0 log s ls) (he : Exec sec s (ls i) s' l') : Replay s0 l0 (log ++ [(i, sec)]) s' (upd ls i l')

/-- A section that takes the read lock does not write. -/
def ReadOnly (sec : Section σ L) : Prop :=
  sec.mode = .read → ∀ s l s' l', sec.step s l = .next s' l' → s' = s

end Xcore.Lock
