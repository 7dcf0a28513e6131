import Verif.Spec.LanguageConc
import Verif.Model.LanguageRace

/-! # Data races on a language table: what they are, and which calls look at what -/

namespace Xcore.LangRace

open Xcore.Language (Lang XLang Call loadable Assigns)

/-- Goroutine `i` is about to write to the cell. -/
def Writes (c : Config) (i : Nat) (x : Cell) : Prop := ∃ w rest, c.todo i = .write w :: rest ∧ w.cell = x

/-- Goroutine `i` is about to read the cell. -/
def Reads (c : Config) (i : Nat) (x : Cell) : Prop := ∃ rest, c.todo i = .read x :: rest

/-- A data race: of two goroutines that are both about to access the cell, one writes. -/
def Race (c : Config) (x : Cell) : Prop := ∃ i j, i ≠ j ∧ Writes c i x ∧ (Writes c j x ∨ Reads c j x)

/-- The call sets the name: `SetName`, or the load of a document that can be read. -/
def SetsName (um : Str → Option XLang) (u : Use) : Prop :=
  (∃ n, u = .call (.change (.setName n))) ∨ ∃ data d, u = .call (.change (.loadXML data)) ∧ um data = some d

/-- The call reads the name. -/
def LooksAtName (u : Use) : Prop := u = .call .getName ∨ u = .call .getXML

/-- The call sets the language. -/
def SetsLanguage (um : Str → Option XLang) (u : Use) : Prop :=
  (∃ t, u = .call (.change (.setLanguage t))) ∨ ∃ data d, u = .call (.change (.loadXML data)) ∧ um data = some d

/-- The call reads the language. -/
def LooksAtLanguage (u : Use) : Prop := u = .call .getLanguage ∨ u = .call .getXML

/-- The table after the accesses `is`, nobody else doing anything. -/
def after (l : Lang) (is : List Instr) : Lang := is.foldl (fun l i => match i with
  | .write w => w.apply l
  | _ => l) l

/-- The two tables have the same content in the cell. -/
def Same (l l' : Lang) : Cell → Prop
  | .name => l.name = l'.name
  | .language => l.tag = l'.tag
  | .entries => l.entries = l'.entries
  | .status => l.status = l'.status

/-- What a call answers when nobody else does anything. -/
def said (quote : Str → Str) (l : Lang) : Use → Xcore.Language.TSOut
  | .call .getName => .str l.name
  | .call .getLanguage => .str l.tag
  | .call c => Xcore.Language.answerOf l c
  | .goString => .str (Xcore.Language.goString quote l)

/-! ## Version 1 -/

/-- What a call of version 1 answers when nobody else does anything. -/
def said1 (quote : Str → Str) (l : V1.Language.Lang) : Use1 → Str
  | .getName => V1.Language.getName l
  | .getLanguage => V1.Language.getLanguage l
  | .get e => V1.Language.get l e
  | .toString => V1.Language.toString l
  | .goString => V1.Language.goString quote l
  | .change _ => []

/-- The call of version 1 writes to the cell: the load of a text that assigns something and of a document that has entries write entries. -/
def Sets1 (um : Str → Option V1.Language.XLang) (u : Use1) : Cell → Prop
  | .name => (∃ n, u = .change (.setName n)) ∨ ∃ data d, u = .change (.loadXML data) ∧ um data = some d
  | .language => (∃ t, u = .change (.setLanguage t)) ∨ ∃ data d, u = .change (.loadXML data) ∧ um data = some d
  | .entries => (∃ e v, u = .change (.set e v)) ∨ (∃ e, u = .change (.del e)) ∨
      (∃ data line k v, u = .change (.load data) ∧ line ∈ loadable data ∧ Assigns line k v) ∨
      ∃ data d, u = .change (.loadXML data) ∧ um data = some d ∧ d.entries ≠ []
  | .status => False

/-- The call of version 1 reads the cell. -/
def LooksAt1 (u : Use1) : Cell → Prop
  | .name => u = .getName
  | .language => u = .getLanguage
  | .entries => (∃ e, u = .get e) ∨ u = .toString ∨ u = .goString
  | .status => False

/-- A table of version 1 (whose map is not nil) as a table without statuses. -/
def ofV1 (l : V1.Language.Lang) : Lang := ⟨l.name, l.tag, l.entries.getD [], []⟩

end Xcore.LangRace
