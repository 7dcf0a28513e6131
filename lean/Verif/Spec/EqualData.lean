import Verif.Base.ListAux
import Verif.Spec.Dataset

/-!
# Specification: equal data

Two pieces of data, possibly in different memories, are equal when they look the same from the outside: the same kinds of objects with the
same contents, all the way down. The objects need not be at the same addresses and the entries of a map need not be in the same order.

`R a b` says that object `a` of the one corresponds to object `b` of the other.
-/

namespace Xcore.Dataset

/-- Corresponding values: pointers to corresponding objects, slices of the same type over corresponding memory, and otherwise the same value. -/
def SameVal (R : Nat → Nat → Prop) : Val → Val → Prop
  | .ptr a, w => ∃ b, w = .ptr b ∧ R a b
  | .slice k a, w => ∃ b, w = .slice k b ∧ R a b
  | v, w => w = v

/-- Corresponding elements of collections. -/
inductive SameElem (R : Nat → Nat → Prop) : Option Nat → Option Nat → Prop where
  | nil : SameElem R none none
  | elem {a b : Nat} : R a b → SameElem R (some a) (some b)

/-- The maps have the same keys, with corresponding values, in any order. -/
structure SameMap (R : Nat → Nat → Prop) (m m' : AMap Val) : Prop where
  left : ∀ key v, m.get key = some v → ∃ w, m'.get key = some w ∧ SameVal R v w
  right : ∀ key w, m'.get key = some w → ∃ v, m.get key = some v ∧ SameVal R v w

/-- Objects of the same type with corresponding contents. -/
inductive SameObj (R : Nat → Nat → Prop) : Obj → Obj → Prop where
  | ds {m m' : AMap Val} : SameMap R m m' → SameObj R (.ds m) (.ds m')
  | nilTS : SameObj R (.dsTS none) (.dsTS none)
  | dsTS {a b : Nat} : R a b → SameObj R (.dsTS (some a)) (.dsTS (some b))
  | col {l l' : List (Option Nat)} : All2 (SameElem R) l l' → SameObj R (.col l) (.col l')
  | colTS {l l' : List (Option Nat)} : All2 (SameElem R) l l' → SameObj R (.colTS l) (.colTS l')
  | lang {l : Language.Lang} : SameObj R (.lang l) (.lang l)
  | slice {l : List Val} : SameObj R (.slice l) (.slice l)

/-- Objects that correspond have the same contents, all the way down. -/
def SameData (R : Nat → Nat → Prop) (h k : Heap) : Prop :=
  ∀ a b, R a b → ∃ o o', h[a]? = some o ∧ k[b]? = some o' ∧ SameObj R o o'

/-- An object corresponds to one object only, both ways: what is shared on the one side is shared on the other. -/
def OneToOne (R : Nat → Nat → Prop) : Prop := ∀ a b a' b', R a b → R a' b' → (a = a' ↔ b = b')

/-- What `Execute` is given: nil on both sides, or corresponding datasets. -/
inductive SameArg (R : Nat → Nat → Prop) : Option Nat → Option Nat → Prop where
  | nil : SameArg R none none
  | data {a b : Nat} : R a b → SameArg R (some a) (some b)

end Xcore.Dataset
