import Verif.Spec.Template

/-!
# Templates in memory

A template may be built in any way: loaded several times, not loaded, put together of others with `AddTemplate`. What it renders depends on
its own elements and on the names it sees: those registered in it and in its fathers.
-/

namespace Xcore.Template

/-- The elements of the template at an address; a template that was never loaded has the text of an error as its only element. -/
def elements (th : THeap) (t : Nat) : List Param :=
  match th[t]?.bind Tpl.root with
  | some l => l
  | none => [⟨.string, b!"Error, no template.Root compiled"⟩]

/-- The template and its fathers, from the inside out, at most `n` of them. -/
def fathers (th : THeap) : Nat → Nat → List Nat
  | 0, _ => []
  | n + 1, t => t :: match th[t]?.bind Tpl.father with
    | some f => fathers th n f
    | none => []

/-- The template seen under a name: that registered in the template, or else in the first of its fathers that has one. (There are not
more different fathers than templates.) -/
def seen (th : THeap) (t : Nat) (v : Str) : Option Nat := (fathers th th.length t).findSome? fun a => Registered th a v

/-- The templates that one comes to from `t`, to the fathers and to the sub-templates. -/
inductive Comes (th : THeap) (t : Nat) : Nat → Prop where
  | here : Comes th t t
  | father {c f : Nat} {o : Tpl} : Comes th t c → th[c]? = some o → o.father = some f → Comes th t f
  | sub {c s : Nat} {v : Str} : Comes th t c → Registered th c v = some s → Comes th t s

/-- From every template that one comes to the fathers end. -/
def Usable (th : THeap) (t : Nat) : Prop := ∀ c, Comes th t c → ∃ l, Chain th c l

/-- The templates made by any sequence of calls of `NewXTemplate`, `LoadString` (of any text, with or without success) and `AddTemplate`, if no
template is ever added to itself or to one inside it. -/
inductive Built : THeap → Prop where
  | start : Built []
  | new {th : THeap} : Built th → Built (newTpl th).1
  | load {th : THeap} {t : Nat} {s : Str} : Built th → t < th.length → Built (loadString th t s).1
  | add {th : THeap} {t c : Nat} {name : Str} {l : List Nat} : Built th → Chain th t l → c < th.length → c ∉ l → Built (addTemplate th t name c)

/-- The fathers of `t`, and `t` itself, whether they end or not. -/
inductive Above (th : THeap) (t : Nat) : Nat → Prop where
  | here : Above th t t
  | father {a f : Nat} {o : Tpl} : Above th t a → th[a]? = some o → o.father = some f → Above th t f

/-- The document with one more box at its end. -/
def Doc.withBox : Doc → Str → Doc → Doc
  | .nil, name, body => .box name body .nil
  | .elem p r, name, body => .elem p (r.withBox name body)
  | .box n b r, name, body => .box n b (r.withBox name body)

end Xcore.Template
