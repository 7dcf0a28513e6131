import Verif.Spec.TemplateRender

/-!
# Specification of rendering by several goroutines

What the data and the templates have to be like for goroutines that render at the same time not to disturb each other.
-/

namespace Xcore.Template

open Xcore.Dataset

/-- In some collection the dataset behind element `i - 1` is `t`: a loop may give it the number `i`. -/
def Numbered (h : Heap) (t : Nat) (i : Nat) : Prop :=
  ∃ c l k a, IsCollection h c l ∧ l[k]? = some (some a) ∧ Wraps h a t ∧ i = k + 1

/-- All loops give the dataset the same number: it is not at different places of collections. -/
def OnePlace (h : Heap) (b : Nat) : Prop := ∀ t i j, Wraps h b t → Numbered h t i → Numbered h t j → i = j

/-- No element that rendering comes to depends on counters that loops of other goroutines may change: as in `Steady`, `{{.counter}}` only in rows
that all loops give the same number, and what conditions test can be printed (it is not part of a cycle). -/
def Undisturbed (x : Ext) (d : Doc) (h : Heap) (a : Nat) : Prop :=
  ∀ e up σ row, Visits x d h a (e :: up) σ row → ∀ p ∈ e.own, IgnoresOldCounters h σ row p ∧
    (p = ⟨.variable, b!".counter"⟩ → ∀ b, σ.head? = some b → OnePlace h b) ∧
    (p.kind = .condition → ∀ key id v, Target p.data key id → ValueAt h (some σ) key v → ∃ s, Shows x h v s)

/-- A call of `Execute`: the address of the template, its document, the data and the text when nothing else happens. -/
structure Task where
  t : Nat
  doc : Doc
  data : Nat
  out : Str

/-- The call is one that others do not disturb, and alone it gives its text. -/
structure Task.Fine (x : Ext) (th : THeap) (h : Heap) (k : Task) : Prop where
  compiled : InScope th k.t [k.doc]
  proper : Proper h (some k.data)
  undisturbed : Undisturbed x k.doc h k.data
  alone : ∃ n h', execute x th n k.t h (some k.data) = .ok (h', k.out)

end Xcore.Template
