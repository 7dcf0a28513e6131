import Verif.Model.CollectionConc
import Verif.Spec.Dataset

/-! # Lookups in a collection that other goroutines change -/

namespace Xcore.CollectionConc

open Dataset

/-- Calls with proper arguments, without `Pop` and `Shift`. -/
def Legal (h : Heap) : Op → Prop
  | .push d => ∃ a, d = some a ∧ IsDataset h a
  | .unshift d => ∃ a, d = some a ∧ IsDataset h a
  | .pop => False
  | .shift => False
  | .getData _ => True
  | .assign a _ v => IsDataset h a ∧ Valid h v

/-- Goroutine `i` is inside the call of `GetData(key)` whose answer will be its `k`-th. -/
def UnderWay (c : Conf) (i k : Nat) (key : Str) : Prop :=
  (c.gor i).outs.length = k ∧ ((∃ n, (c.gor i).pos = .scan key n) ∨ ∃ n d, (c.gor i).pos = .got key n d)

/-- The answer `some v` of a lookup comes from an element that was in the collection during the call and had the value during the call. -/
def Sourced (c0 c : Conf) (i k : Nat) (key : Str) (v : Val) : Prop :=
  ∃ c1 c2 a, Reach c0 c1 ∧ Reach c1 c2 ∧ Reach c2 c ∧ UnderWay c1 i k key ∧ UnderWay c2 i k key ∧ some a ∈ c1.items ∧
    get c2.heap a key = .ok (some v)

/-- Neither `Pop`, `Shift` nor `Unshift`. -/
def Appends : Op → Prop
  | .push _ => True
  | .getData _ => True
  | .assign _ _ _ => True
  | _ => False

/-- The call started at `cs`: goroutine `i` has just read the length. -/
def Started (cs : Conf) (i k : Nat) (key : Str) : Prop := (cs.gor i).outs.length = k ∧ (cs.gor i).pos = .scan key cs.items.length

/-- During the call that started at `cs` there was a moment at which `a` had no value for the key. -/
def Missed (cs c : Conf) (i k : Nat) (key : Str) (a : Addr) : Prop :=
  ∃ c2, Reach cs c2 ∧ Reach c2 c ∧ UnderWay c2 i k key ∧ get c2.heap a key = .ok none

/-! ## Calls that do not overlap -/

/-- Steps of goroutine `i` only. -/
inductive Alone (i : Nat) (c : Conf) : Conf → Prop where
  | refl : Alone i c c
  | step {c1 c2 : Conf} (h : Alone i c c1) (hs : Step c1 i c2) : Alone i c c2

/-- The goroutines take turns: each makes one whole call, and the others wait meanwhile. The list has the calls so far with their answers. -/
inductive Turns (c0 : Conf) : List (Op × Out) → Conf → Prop where
  | none : Turns c0 [] c0
  | call {log : List (Op × Out)} {c c' : Conf} {i : Nat} {op : Op} {o : Out} (h : Turns c0 log c) (hs : Alone i c c')
      (ht : (c.gor i).todo = op :: (c'.gor i).todo) (hp : (c'.gor i).pos = .idle) (ho : (c'.gor i).outs = (c.gor i).outs ++ [o]) :
      Turns c0 (log ++ [(op, o)]) c'

/-- What a call of one goroutine without company does to the datasets and to the elements, and what it answers. -/
inductive Effect (h : Heap) (l : List (Option Addr)) : Op → Out → Heap → List (Option Addr) → Prop where
  | push {d : Option Addr} : Effect h l (.push d) .unit h (l ++ [d])
  | unshift {d : Option Addr} : Effect h l (.unshift d) .unit h (d :: l)
  | pop {d : Option Addr} {l' : List (Option Addr)} : l = l' ++ [d] → Effect h l .pop (.elem d) h l'
  | shift {d : Option Addr} {l' : List (Option Addr)} : l = d :: l' → Effect h l .shift (.elem d) h l'
  | popEmpty : l = [] → Effect h l .pop .panic h l
  | shiftEmpty : l = [] → Effect h l .shift .panic h l
  /-- the last element that has a value answers -/
  | found {key : Str} {pre post : List (Option Addr)} {a : Addr} {v : Val} : l = pre ++ [some a] ++ post → get h a key = .ok (some v) →
      (∀ d ∈ post, ∃ b, d = some b ∧ get h b key = .ok Option.none) → Effect h l (.getData key) (.found key (some v)) h l
  | absent {key : Str} : (∀ d ∈ l, ∃ b, d = some b ∧ get h b key = .ok Option.none) → Effect h l (.getData key) (.found key Option.none) h l
  /-- a nil element, or a wrapper around nothing, comes before a value -/
  | lookupPanic {key : Str} {pre post : List (Option Addr)} {d : Option Addr} : l = pre ++ [d] ++ post → (∀ b, d = some b → get h b key = .panic) →
      (∀ d ∈ post, ∃ b, d = some b ∧ get h b key = .ok Option.none) → Effect h l (.getData key) .panic h l
  | assign {a : Addr} {k : Str} {v : Val} {h' : Heap} : set h a k v = .ok h' → Effect h l (.assign a k v) .unit h' l
  | assignPanic {a : Addr} {k : Str} {v : Val} : set h a k v = .panic → Effect h l (.assign a k v) .panic h l

/-- A list of calls with their answers, one after the other. -/
inductive Effects (h0 : Heap) (l0 : List (Option Addr)) : List (Op × Out) → Heap → List (Option Addr) → Prop where
  | none : Effects h0 l0 [] h0 l0
  | call {log : List (Op × Out)} {h h' : Heap} {l l' : List (Option Addr)} {op : Op} {o : Out} : Effects h0 l0 log h l → Effect h l op o h' l' →
      Effects h0 l0 (log ++ [(op, o)]) h' l'

end Xcore.CollectionConc
