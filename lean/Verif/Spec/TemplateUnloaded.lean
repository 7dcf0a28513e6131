import Verif.Model.TemplateExec

/-!
# Templates without a compiled text
-/

namespace Xcore.Template

/-- `Unloaded th t`: the template at `t` was made by `NewXTemplate` or is a clone of such a one, and every load of it failed; anything may have
been done with other templates, and sub-templates may have been added to it. -/
inductive Unloaded : THeap → Nat → Prop where
  | new {th th' : THeap} {t : Nat} : newTpl th = (th', t) → Unloaded th' t
  | failed {th th' : THeap} {t : Nat} {s : Str} : Unloaded th t → loadString th t s = (th', true) → Unloaded th' t
  | cloned {th th' : THeap} {t c n : Nat} : Unloaded th t → clone n th t = .ok (th', c) → Unloaded th' c
  -- what does not matter
  | added {th : THeap} {t u v : Nat} {name : Str} : Unloaded th t → Unloaded (addTemplate th u name v) t
  | newOther {th th' : THeap} {t u : Nat} : Unloaded th t → newTpl th = (th', u) → Unloaded th' t
  | loadOther {th th' : THeap} {t u : Nat} {s : Str} {b : Bool} : Unloaded th t → u ≠ t → u < th.length → loadString th u s = (th', b) → Unloaded th' t
  | cloneOther {th th' : THeap} {t u c n : Nat} : Unloaded th t → clone n th u = .ok (th', c) → Unloaded th' t

end Xcore.Template
