import Verif.Spec.Language
import Verif.Spec.TSMethods
import Verif.Model.LanguageConc

/-! # What calls on a language table give to entries and statuses, and goroutines making such calls -/

namespace Xcore.Language

open Lock

/-- The call gives entry `k` the value `v` at some point: by `Set`, by a line of a text, by an entry of a document. -/
def Gives (unmarshal : Str → Option XLang) (call : Call) (k v : Str) : Prop :=
  call = .change (.set k v) ∨
  (∃ data line, call = .change (.load data) ∧ line ∈ loadable data ∧ Assigns line k v) ∨
  (∃ data d e, call = .change (.loadXML data) ∧ unmarshal data = some d ∧ e ∈ d.entries ∧ e.id = k ∧ e.entry = v)

/-- The call gives entry `k` the status `st` at some point. -/
def GivesStatus (unmarshal : Str → Option XLang) (call : Call) (k st : Str) : Prop :=
  call = .change (.setStatus k st) ∨
  (∃ data d e, call = .change (.loadXML data) ∧ unmarshal data = some d ∧ e ∈ d.entries ∧ e.id = k ∧ e.status = st)

/-- The calls of a goroutine give (in the sense of `W`) something to `k`, or delete it. -/
def Concerns (W : Call → Str → Str → Prop) (calls : List Call) (k : Str) : Prop :=
  ∃ call ∈ calls, call = .change (.del k) ∨ ∃ v, W call k v

/-- The calls among those of a goroutine that change the table. -/
def changes (calls : List Call) : List Op := calls.filterMap fun
  | .change op => some op
  | _ => none

/-- Goroutine `i` is about to make the calls `calls i` on the table `l0`. -/
def start (unmarshal : Str → Option XLang) (l0 : Lang) (calls : Nat → List Call) : Config Lang (Frame TSOut TSOut) :=
  callers tsMethod .unit l0 fun i => allSections unmarshal (calls i)

/-- Nobody is changing the table at this moment. -/
def Quiet (c : Config Lang (Frame TSOut TSOut)) : Prop := ∀ i sec, (c.threads i).cur = some sec → sec.mode = .read

/-- All goroutines have made all their calls. -/
def Finished (c : Config Lang (Frame TSOut TSOut)) : Prop := ∀ i, (c.threads i).cur = none ∧ (c.threads i).todo = []

/-- What `k` can hold when goroutines have made some of their calls: what it held at the beginning, nothing if some call deletes it, or a
value some call gives it. -/
def Explained (W : Call → Str → Str → Prop) (calls : Nat → List Call) (k : Str) (first now : Option Str) : Prop :=
  now = first ∨ (now = none ∧ ∃ i, .change (.del k) ∈ calls i) ∨ (∃ v, now = some v ∧ ∃ i, ∃ call ∈ calls i, W call k v)

/-- An access that reads. -/
def isRead : NameAccess → Bool
  | .readName | .readLanguage => true
  | _ => false

/-- What a call reads of name and language, in order. -/
def reads : Call → List NameAccess
  | .getName => [.readName]
  | .getLanguage => [.readLanguage]
  | .getXML => [.readName, .readLanguage]
  | _ => []

/-- The call gives the table the name `n`. -/
def GivesName (unmarshal : Str → Option XLang) (call : Call) (n : Str) : Prop := ∃ op, call = .change op ∧ Names unmarshal op n

/-- The call gives the table the language `t`. -/
def GivesLanguage (unmarshal : Str → Option XLang) (parseTag : Str → Str) (call : Call) (t : Str) : Prop :=
  ∃ op, call = .change op ∧ Tags unmarshal parseTag op t

/-- The call looks at the entries or statuses of the table or changes them: not the calls about name and language, nor the load of a document
that cannot be read. -/
def Uses (unmarshal : Str → Option XLang) : Call → Bool
  | .change (.setName _) | .change (.setLanguage _) | .getName | .getLanguage => false
  | .change (.loadXML data) => (unmarshal data).isSome
  | _ => true

/-- What a call answers when the table is `l`. -/
def answerOf (l : Lang) : Call → TSOut
  | .get e => .str (get l e)
  | .getStatus e => .str (getStatus l e)
  | .getEntries => .map (getEntries l)
  | .toString => .str (toString l)
  | .getXML => .str (getXML l)
  | _ => .unit

end Xcore.Language
