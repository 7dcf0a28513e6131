import Verif.Model.Zero
import Verif.Spec.TSMethods

/-! # What can be expected of objects made without their constructor -/

namespace Xcore.Zero

/-! ## XLanguage -/

/-- `&XLanguage{Name: n, Language: t}`. -/
def literalLang (n t : Str) : Lang := { name := n, tag := t, entries := none, status := none, held := false }

/-- A language table made by a constructor. -/
def madeLang (l : Language.Lang) : Lang :=
  { name := l.name, tag := l.tag, entries := some l.entries, status := some l.status, held := false }

section
variable (unmarshal : Str → Option Language.XLang) (parseTag : Str → Str)

/-- The answer of a call on a table made by a constructor. -/
def answer (l : Language.Lang) : LOp → LOut
  | .get e => .str (Language.get l e)
  | .getStatus e => .str (Language.getStatus l e)
  | .getEntries => .map (Language.getEntries l)
  | .getXML => .str (Language.getXML l)
  | .toString => .str (Language.toString l)
  | .load data => .failed (Language.loadString l data).2
  | .loadXML data => .failed (Language.loadXML unmarshal parseTag l data).2
  | .getName => .str l.name
  | .getLanguage => .str l.tag
  | _ => .unit

/-- A table made by a constructor after a call. -/
def after (l : Language.Lang) : LOp → Language.Lang
  | .set e v => Language.set l e v
  | .setStatus e v => Language.setStatus l e v
  | .del e => Language.del l e
  | .load data => (Language.loadString l data).1
  | .loadXML data => (Language.loadXML unmarshal parseTag l data).1
  | .setName n => Language.setName l n
  | .setLanguage t => Language.setLanguage l t
  | _ => l

/-- The answers to a history of calls on a table made by a constructor. -/
def answers (l : Language.Lang) : List LOp → List LOut
  | [] => []
  | op :: h => answer unmarshal parseTag l op :: answers (after unmarshal parseTag l op) h

/-- The text has at least one entry. -/
def HasEntries (data : Str) : Prop := (Language.loadString (Language.new [] []) data).1.entries ≠ []

instance (data : Str) : Decidable (HasEntries data) := inferInstanceAs (Decidable (_ ≠ _))

/-- Calls that write an entry or a status. -/
def writes : LOp → Bool
  | .set _ _ => true
  | .setStatus _ _ => true
  | .load data => decide (HasEntries data)
  | .loadXML data => match unmarshal data with
    | some doc => !doc.entries.isEmpty
    | none => false
  | _ => false

/-- Calls that need the lock. -/
def needsLock : LOp → Bool
  | .setName _ => false
  | .setLanguage _ => false
  | .getName => false
  | .getLanguage => false
  | .load data => decide (HasEntries data)
  | .loadXML data => (unmarshal data).isSome
  | _ => true

/-- `LoadString` of a text that has an entry. -/
def isLoad : LOp → Bool
  | .load data => decide (HasEntries data)
  | _ => false

/-- The outcomes of a history of calls on `&XLanguage{Name: n, Language: t}`. It answers as the empty table, but calls that write panic; and once
`LoadString` has panicked (`stuck`), all calls that need the lock block for ever. -/
def literalAnswers (n t : Str) (stuck : Bool) : List LOp → List (Outcome LOut)
  | [] => []
  | op :: h =>
    let l := Language.new n t
    let l' := after unmarshal parseTag l op
    (if stuck && needsLock unmarshal op then .blocks
      else if writes unmarshal op then .panics
      else .returns (answer unmarshal parseTag l op)) :: literalAnswers l'.name l'.tag (stuck || isLoad op) h

end

/-! ## XCache -/

variable {D : Type}

/-- `&XCache{Maxitems: m, Expire: e, Validator: v}`. -/
def literalCache (m e : Int) (v : Bool) : Cache D := { maxitems := m, expire := e, hasValidator := v, items := none, pile := [] }

/-- A cache made by `NewXCache`, at any moment. -/
def madeCache (c : Cache.Cache D) : Cache D :=
  { maxitems := c.maxitems, expire := c.expire, hasValidator := c.hasValidator, items := some c.items, pile := c.pile }

/-- The answers of a cache that is and stays empty, in which `Set` panics. -/
def emptyAnswer : Cache.Op D → Cache.Out D
  | .set _ _ => .panicked
  | .get _ => .got none false
  | .count => .num 0
  | .clean _ => .num 0
  | .verify => .num 0
  | _ => .unit

/-- An empty cache of `NewXCache` with the exported fields of `c`. -/
def withFieldsOf (c : Cache.Cache D) : Cache.Cache D := { c with items := [], pile := [] }

/-! ## XDatasetTS -/

/-- Calls that change the dataset. -/
def Changes : Dataset.TSOp → Prop
  | .set _ _ => True
  | .del _ => True
  | _ => False

/-- What a goroutine sees that calls the methods of an object with a mutex one after the other, `seq` being what they do without mutex: after a
panic of a method with `keeps`, and after a call that does not end, every call blocks. -/
def outcomes {σ Ω Op : Type} (seq : Op → σ → σ × Res Ω) (keeps : Op → Bool) : σ → List Op → List (Outcome Ω)
  | _, [] => []
  | s, op :: h => match (seq op s).2 with
    | .ok o => .returns o :: outcomes seq keeps (seq op s).1 h
    | .panic => .panics :: if keeps op then h.map (fun _ => .blocks) else outcomes seq keeps (seq op s).1 h
    | .diverge => .blocks :: h.map fun _ => .blocks

/-- `Shift` and `Pop`, which panic on an empty collection. -/
def takes : Dataset.ColOp → Bool
  | .shift | .pop => true
  | _ => false

end Xcore.Zero
