import Verif.Model.Nested

/-! # Specifications for nested thread-safe objects -/

namespace Xcore.Nested

open Dataset Lock

/-- The object at `a` refers to the object at `b`: a wrapper to what it wraps, a dataset to its values, a collection to its elements. -/
inductive Contains (h : Heap) : Nat → Nat → Prop where
  | wrapped {a b : Nat} : h[a]? = some (.dsTS (some b)) → Contains h a b
  | value {a b : Nat} {m : AMap Val} {k : Str} : h[a]? = some (.ds m) → (k, .ptr b) ∈ m → Contains h a b
  | element {a b : Nat} {l : List (Option Nat)} : h[a]? = some (.col l) → some b ∈ l → Contains h a b
  | elementTS {a b : Nat} {l : List (Option Nat)} : h[a]? = some (.colTS l) → some b ∈ l → Contains h a b

/-- The objects are in layers: each refers to objects of lower layers only. -/
def Layered (r : Nat → Nat) (h : Heap) : Prop := ∀ a b, Contains h a b → r b < r a

/-- No way leads from an object back to itself. -/
def Acyclic (h : Heap) : Prop := ∃ r, Layered r h

/-- If goroutine `i` panics now, it does not leave a lock behind. -/
def Calm (c : Conf) (i : Nat) : Prop :=
  ∀ x s, (c.gor i).stack = x :: s → x.isLock = false → exec c.heap (c.gor i).ans x s = .panic → ∀ m a, Instr.release m false a ∉ s

/-- The configurations of an execution in which `P` always holds and no panic leaves a lock behind. -/
inductive Run (P : Conf → Prop) (c0 : Conf) : Conf → Prop where
  | refl : P c0 → Run P c0 c0
  | step {c c' : Conf} {who : Option Nat} : Run P c0 c → Step c who c' → (∀ i, who = some i → Calm c i) → P c' → Run P c0 c'

/-- The configurations of any execution. -/
inductive Reaches (c0 : Conf) : Conf → Prop where
  | refl : Reaches c0 c0
  | step {c c' : Conf} {who : Option Nat} : Reaches c0 c → Step c who c' → Reaches c0 c'

/-- Goroutine `i` is making a call. -/
def Busy (c : Conf) (i : Nat) : Prop := (c.gor i).stack ≠ []

/-- Some goroutine is making a call, and none can go on: nor will ever one of them. -/
def Deadlock (c : Conf) : Prop := (∃ i, Busy c i) ∧ ∀ j c', ¬ Move c j c'

/-- One goroutine goes on with its call; nobody begins another call. -/
def Onward (P : Conf → Prop) (c c' : Conf) : Prop := ∃ i, Move c i c' ∧ Calm c i ∧ P c'

/-- Nothing but the wrapper `a` refers to the dataset `t`, and no goroutine calls a method of `t` itself. -/
def Private (a t : Nat) (c : Conf) : Prop :=
  (∃ m, c.heap[t]? = some (.ds m)) ∧ c.heap[a]? = some (.dsTS (some t)) ∧ (∀ b, Contains c.heap b t → b = a) ∧
  ∀ i op, (c.gor i).stack ≠ [.call op t]

/-- Goroutine `i` is about to read or write the entries of the dataset `t`: the next thing it does is the method `op`. -/
def Accesses (c : Conf) (i : Nat) (op : Op) (t : Nat) : Prop := ∃ s, (c.gor i).stack = .call op t :: s

/-- The method changes the entries of the dataset. -/
def Op.writes : Op → Bool
  | .set _ _ | .del _ => true
  | _ => false

/-- The method changes the elements of the collection. -/
def colWrites : ColOp → Bool
  | .unshift _ | .push _ | .shift | .pop => true
  | .count | .get _ => false

/-- Goroutine `i` is about to read the elements of the collection, or (`true`) to change them. -/
inductive Touches (c : Conf) (i : Nat) (col : Nat) : Bool → Prop where
  | elem {locked : Bool} {n : Int} {rest : List Str} {s : List Instr} : (c.gor i).stack = .elem locked col n rest :: s → Touches c i col false
  | elems {s : List Instr} : (c.gor i).stack = .elems col :: s → Touches c i col false
  | size {key : Str} {s : List Instr} : (c.gor i).stack = .size col key :: s → Touches c i col false
  | pick {n : Nat} {key : Str} {s : List Instr} : (c.gor i).stack = .pick col n key :: s → Touches c i col false
  | change {op : ColOp} {s : List Instr} : (c.gor i).stack = .change op col :: s → Touches c i col (colWrites op)
  | clone {s : List Instr} : (c.gor i).stack = .call .clone col :: s → Touches c i col false

/-- Goroutine `i` has the lock of `a`, with others or (`true`) for itself. -/
def Holds (c : Conf) (i : Nat) (a : Nat) : Bool → Prop
  | false => i ∈ (c.locks a).readers ∨ (c.locks a).writer = some i
  | true => (c.locks a).writer = some i

/-- Goroutine `i` goes on alone, any number of steps. -/
inductive Alone (i : Nat) : Conf → Conf → Prop where
  | refl (c : Conf) : Alone i c c
  | step {c c1 c2 : Conf} : Move c i c1 → Alone i c1 c2 → Alone i c c2

/-- Goroutine `i`, alone, comes to the end of its call in the configuration `c'`, and in no other. -/
def Ends (i : Nat) (c c' : Conf) : Prop :=
  Alone i c c' ∧ ¬ Busy c' i ∧ ∀ c'', Alone i c c'' → ¬ Busy c'' i → c'' = c'

end Xcore.Nested
