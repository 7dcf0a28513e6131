import Verif.Spec.Nested
import Verif.Spec.Dataset

/-! # Calls that take effect at one moment -/

namespace Xcore.Nested

open Dataset

/-- A step of an execution: before, the goroutine that goes on with its call (if it is such a step), after. -/
structure Event where
  before : Conf
  who : Option Nat
  after : Conf

/-- The steps of an execution in which `P` always holds and no panic leaves a lock behind. -/
inductive Trace (P : Conf → Prop) : Conf → List Event → Conf → Prop where
  | nil {c : Conf} : P c → Trace P c [] c
  | cons {c c' c'' : Conf} {who : Option Nat} {l : List Event} : P c → Step c who c' → (∀ i, who = some i → Calm c i) → Trace P c' l c'' →
      Trace P c (⟨c, who, c'⟩ :: l) c''

/-- `T w d`: the wrapper `w` and its private dataset `d`. -/
abbrev Pairs := Nat → Nat → Prop

/-- Every pair is private (`Private` in Verif/Spec/Nested.lean), and wrappers are made after what they wrap. -/
def AllPrivate (T : Pairs) (c : Conf) : Prop := ∀ w d, T w d → Private w d c ∧ d < w

/-- The path leads from the wrapper `w` through private datasets; a thread-safe collection may be met where only the index of an element is
left of the path. -/
inductive Along (T : Pairs) (h : Heap) : Nat → List Str → Prop where
  | last {w d : Nat} {k : Str} : T w d → Along T h w [k]
  | into {w d b : Nat} {m : AMap Val} {p p2 : Str} {rest : List Str} :
      T w d → h[d]? = some (.ds m) → m.get p = some (.ptr b) → Along T h b (p2 :: rest) → Along T h w (p :: p2 :: rest)
  | element {w d b : Nat} {m : AMap Val} {p p2 : Str} {l : List (Option Nat)} :
      T w d → h[d]? = some (.ds m) → m.get p = some (.ptr b) → h[b]? = some (.colTS l) → Along T h w [p, p2]
  | stop {w d : Nat} {m : AMap Val} {p p2 : Str} {rest : List Str} :
      T w d → h[d]? = some (.ds m) → (∀ b, m.get p = some (.ptr b) → ¬ IsDataset h b ∧ ∀ l, ¬ IsCollection h b l) → Along T h w (p :: p2 :: rest)

/-- Goroutine `i` is making one call during these steps. -/
def Making (i : Nat) (l : List Event) : Prop := ∀ e ∈ l, Busy e.before i

/-- Among these steps there is one step of goroutine `i` with the effect `E`; its other steps do not change memory. -/
def AtOneStep (i : Nat) (l : List Event) (E : Heap → Heap → Prop) : Prop :=
  ∃ l1 e l2, l = l1 ++ e :: l2 ∧ e.who = some i ∧ E e.before.heap e.after.heap ∧
    ∀ e' ∈ l1 ++ l2, e'.who = some i → e'.after.heap = e'.before.heap

/-- Two players in a collection of a dataset. -/
def players : Heap := [.ds [(b!"c", .ptr 2)], .dsTS (some 0), .colTS [some 4, some 6],
  .ds [(b!"x", .int .int 1)], .dsTS (some 3), .ds [(b!"x", .int .int 3)], .dsTS (some 5)]

/-- The wrappers of `players` and their datasets. -/
def playerPairs : Pairs := fun w d => (w, d) ∈ [(1, 0), (4, 3), (6, 5)]

/-- Goroutine 0 begins a call, nobody else is making one. -/
def startWith (h : Heap) (call : Call) : Conf := { start h with gor := (start h).go 0 call.code }

end Xcore.Nested
