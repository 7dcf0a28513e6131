import Verif.Model.LanguageAlias
import Verif.Base.Trim

/-!
# What the flat text format means, and what a history of calls means for a language table

Independent of the code of `LoadString`: lines, assignments and the last assignment are described by relations. `Trimmed` is defined
in `Verif/Base/Trim.lean`.
-/

namespace Xcore.Language

/-- The lines of a text: the pieces between newlines; nothing follows a final newline. -/
def lines (s : Str) : List Str :=
  let ps := split 10 s
  if ps.getLast? = some [] then ps.dropLast else ps

/-- `s` contains 65536 consecutive bytes without newline. -/
def LongRun (s : Str) : Prop := ∃ pre run post, s = pre ++ run ++ post ∧ run.length = 65536 ∧ (10 : UInt8) ∉ run

/-- `line` is an assignment of `v` to `k`: not a comment, `k` is the trimmed text before the first `=`, not empty, and `v` the trimmed
text after it. -/
def Assigns (line k v : Str) : Prop :=
  ∃ k0 v0, line = k0 ++ b!"=" ++ v0 ∧ 61 ∉ k0 ∧ ¬ b!"#" <+: line ∧ ¬ b!";" <+: line ∧ Trimmed k0 k ∧ k ≠ [] ∧ Trimmed v0 v

/-- Among the lines `ls` the last one that assigns something to `k` assigns `v`. -/
def LastAssigns (ls : List Str) (k v : Str) : Prop :=
  ∃ pre line post, ls = pre ++ [line] ++ post ∧ Assigns line k v ∧ ∀ l ∈ post, ∀ v', ¬ Assigns l k v'

/-- No line assigns to `k`. -/
def Unassigned (ls : List Str) (k : Str) : Prop := ∀ l ∈ ls, ∀ v, ¬ Assigns l k v

/-- In document `d` the last entry named `k` has text `v` and status `st`. -/
def LastEntry (d : XLang) (k v st : Str) : Prop :=
  ∃ pre post, d.entries = pre ++ [⟨k, v, st⟩] ++ post ∧ ∀ e ∈ post, e.id ≠ k

/-- The lines of a text before the first one that is too long. A carriage return at the end of a line is white space, which is not part of
the value. -/
def loadable (s : Str) : List Str := (lines s).takeWhile (fun p => decide (p.length < 65536))

/-- The call `op` gives entry `e` the value `v`. -/
def Writes (unmarshal : Str → Option XLang) (op : Op) (e v : Str) : Prop :=
  op = .set e v ∨ (∃ data, op = .load data ∧ LastAssigns (loadable data) e v) ∨
  (∃ data d st, op = .loadXML data ∧ unmarshal data = some d ∧ LastEntry d e v st)

/-- The call `op` gives entry `e` the status `st`. -/
def WritesStatus (unmarshal : Str → Option XLang) (op : Op) (e st : Str) : Prop :=
  op = .setStatus e st ∨ (∃ data d v, op = .loadXML data ∧ unmarshal data = some d ∧ LastEntry d e v st)

/-- `v` is the last thing written (in the sense of `W`) for `e` in the history, not followed by a Del of `e`. -/
def LastWritten (W : Op → Str → Str → Prop) (h : List Op) (e v : Str) : Prop :=
  ∃ pre op post, h = pre ++ [op] ++ post ∧ W op e v ∧ ∀ op' ∈ post, op' ≠ .del e ∧ ∀ v', ¬ W op' e v'

/-- Nothing has been written for `e` since the beginning or since a Del of `e`. -/
def NothingWritten (W : Op → Str → Str → Prop) (h : List Op) (e : Str) : Prop :=
  ∃ pre post, h = pre ++ post ∧ (pre = [] ∨ pre.getLast? = some (.del e)) ∧ ∀ op ∈ post, ∀ v, ¬ W op e v

/-- The call `op` gives the table the name `n`. -/
def Names (unmarshal : Str → Option XLang) (op : Op) (n : Str) : Prop :=
  op = .setName n ∨ ∃ data d, op = .loadXML data ∧ unmarshal data = some d ∧ d.name = n

/-- The call `op` gives the table the language `t`; `parseTag` is `language.Parse`. -/
def Tags (unmarshal : Str → Option XLang) (parseTag : Str → Str) (op : Op) (t : Str) : Prop :=
  op = .setLanguage t ∨ ∃ data d, op = .loadXML data ∧ unmarshal data = some d ∧ parseTag d.language = t

/-- `v` is what the last call of the history that gives something (in the sense of `W`) gives, or `v0` if there is none. -/
def LastGiven (W : Op → Str → Prop) (h : List Op) (v0 v : Str) : Prop :=
  (∃ pre op post, h = pre ++ [op] ++ post ∧ W op v ∧ ∀ op' ∈ post, ∀ v', ¬ W op' v') ∨ ((∀ op ∈ h, ∀ v', ¬ W op v') ∧ v = v0)

/-- The table written as text: one `key=value` line per entry. -/
def toText (m : AMap Str) : Str := (m.map fun p => p.1 ++ b!"=" ++ p.2 ++ b!"\n").flatten

/-- What the format can carry. -/
structure Carriable (p : Str × Str) : Prop where
  key_ne : p.1 ≠ []
  key_trim : Trimmed p.1 p.1
  key_eq : 61 ∉ p.1
  key_nl : 10 ∉ p.1
  key_hash : ¬ b!"#" <+: p.1
  key_semi : ¬ b!";" <+: p.1
  val_trim : Trimmed p.2 p.2
  val_nl : 10 ∉ p.2
  len : p.1.length + p.2.length + 1 < 65536

/-- What the caller did to the `i`-th map it received. -/
def callerEdits (i : Nat) (m : AMap Str) : List Event → AMap Str
  | [] => m
  | .callerSet j k v :: es => callerEdits i (if j = i then m.set k v else m) es
  | .callerDel j k :: es => callerEdits i (if j = i then m.del k else m) es
  | _ :: es => callerEdits i m es

/-- The calls on the table among the events. -/
def tableCalls : List Event → List Op
  | [] => []
  | .call op :: es => op :: tableCalls es
  | _ :: es => tableCalls es

end Xcore.Language
