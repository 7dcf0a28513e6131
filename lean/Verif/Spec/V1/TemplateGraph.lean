import Verif.Spec.V1.Template
import Verif.Spec.TemplateGraph

/-!
# Templates of version 1 in memory

A template may be built in any way: loaded several times, not loaded, put together of others with `AddTemplate`. What it renders depends on
its own elements and on the names registered in it. There are no fathers in version 1.
-/

namespace Xcore.V1.Template

open Xcore.Template (Param)
open Xcore.Dataset (Ext)
open Xcore.V1.Dataset (Heap)

/-- The sub-template registered under a name. -/
def Registered (th : THeap) (t : Nat) (name : Str) : Option Nat := th[t]?.bind fun o => (o.subs.getD []).get name

/-- The elements of the template at an address; a template that was never loaded has the text of an error as its only element. -/
def elements (th : THeap) (t : Nat) : List Param :=
  match th[t]?.bind Tpl.root with
  | some l => l
  | none => [⟨.string, b!"Error, no template.Root compiled"⟩]

/-- The template itself and all templates registered in it, directly or not. -/
inductive Inside (th : THeap) (t : Nat) : Nat → Prop where
  | here : Inside th t t
  | sub {c s : Nat} {v : Str} : Inside th t c → Registered th c v = some s → Inside th t s

/-- The template and all templates inside it exist. -/
def Usable (th : THeap) (t : Nat) : Prop := ∀ c, Inside th t c → c < th.length

/-- The templates made by any sequence of calls of `NewXTemplate`, `LoadString` (of any text, with or without success) and `AddTemplate`, if no
template is ever added to itself or to one inside it. -/
inductive Built : THeap → Prop where
  | start : Built []
  | new {th : THeap} : Built th → Built (newTpl th).1
  | load {th : THeap} {t : Nat} {s : Str} : Built th → t < th.length → Built (loadString th t s).1
  | add {th : THeap} {t c : Nat} {name : Str} : Built th → t < th.length → c < th.length → ¬ Inside th c t → Built (addTemplate th t name c)

/-- How `Execute` of the template at an address ends: by the rules of rendering, with its own elements and the names registered in it. -/
abbrev ExecutesAt (th : THeap) : Ext → Nat → Heap → Option Nat → Out → Prop := ExecutesIn (fun t => some (elements th t)) (Registered th)

end Xcore.V1.Template
