import Verif.Model.V1.Language
import Verif.Spec.Language

/-!
# What a history of calls means for a language table of version 1

`lines`, `loadable` and `LastAssigns` (the flat text format) are those of `Verif/Spec/Language.lean`.
-/

namespace Xcore.V1.Language

open Xcore.Language (LastAssigns loadable)

/-- In document `d` the last entry named `k` has text `v`. -/
def LastEntry (d : XLang) (k v : Str) : Prop := ∃ pre post, d.entries = pre ++ [⟨k, v⟩] ++ post ∧ ∀ e ∈ post, e.id ≠ k

/-- The call `op` gives entry `e` the value `v`. -/
def Writes (um : Str → Option XLang) (op : Op) (e v : Str) : Prop :=
  op = .set e v ∨ (∃ data, op = .load data ∧ LastAssigns (loadable data) e v) ∨
  (∃ data d, op = .loadXML data ∧ um data = some d ∧ LastEntry d e v)

/-- `v` is the last thing written for `e` in the history, not followed by a Del of `e`. -/
def LastWritten (um : Str → Option XLang) (h : List Op) (e v : Str) : Prop :=
  ∃ pre op post, h = pre ++ [op] ++ post ∧ Writes um op e v ∧ ∀ op' ∈ post, op' ≠ .del e ∧ ∀ v', ¬ Writes um op' e v'

/-- Nothing has been written for `e` since the beginning or since a Del of `e`. -/
def NothingWritten (um : Str → Option XLang) (h : List Op) (e : Str) : Prop :=
  ∃ pre post, h = pre ++ post ∧ (pre = [] ∨ pre.getLast? = some (.del e)) ∧ ∀ op ∈ post, ∀ v, ¬ Writes um op e v

/-- The same call in version 2. -/
def Op.up : Op → Xcore.Language.Op
  | .set e v => .set e v
  | .del e => .del e
  | .load data => .load data
  | .loadXML data => .loadXML data
  | .setName n => .setName n
  | .setLanguage t => .setLanguage t

/-- A document of version 2 read by version 1, which has no field for the status. -/
def XLang.ofV2 (d : Xcore.Language.XLang) : XLang := ⟨d.name, d.language, d.entries.map fun e => ⟨e.id, e.entry⟩⟩

/-- Both tables have the same name, language and entries. -/
def Agrees (l : Lang) (l2 : Xcore.Language.Lang) : Prop := l.name = l2.name ∧ l.tag = l2.tag ∧ l.entries = some l2.entries

end Xcore.V1.Language
