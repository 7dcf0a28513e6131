import Verif.Spec.Xml

/-!
# XML documents with a language

The part of XML 1.0 that language documents are made of, as a grammar on byte strings, and the language that a document describes. `XLang` and `XEntry`
are the structures that `LoadXMLString` fills (name, language and the entries with id, text and status).
-/

namespace Xcore.Xml

open Language

/-- White space in markup. -/
def White (s : Str) : Prop := ∀ b ∈ s, b = 32 ∨ b = 9 ∨ b = 10 ∨ b = 13

/-- A letter or an underscore. -/
def Letter (b : UInt8) : Prop := b ∈ b!"ABCDEFGHIJKLMNOPQRSTUVWXYZabcdefghijklmnopqrstuvwxyz_"

/-- A name: it begins with a letter or an underscore; digits, dots and hyphens may follow. -/
inductive Name : Str → Prop
  | mk {b s} : Letter b → (∀ c ∈ s, Letter c ∨ c ∈ b!"0123456789.-") → Name (b :: s)

/-- The digit as a number below 16. -/
def digit (b : UInt8) : Option Nat := b!"0123456789abcdef".idxOf? b <|> b!"0123456789ABCDEF".idxOf? b

/-- The numeral in the base stands for the number. -/
inductive Numeral (base : Nat) : Str → Nat → Prop
  | one {b k} : digit b = some k → k < base → Numeral base [b] k
  | more {s n b k} : Numeral base s n → digit b = some k → k < base → Numeral base (s ++ [b]) (n * base + k)

/-- The text that stands for a code point: its encoding, and U+FFFD in place of a surrogate. -/
inductive Stands : Nat → Str → Prop
  | char (c : Char) : Stands c.toNat (String.utf8EncodeChar c)
  | surrogate {n} : 0xD800 ≤ n → n ≤ 0xDFFF → Stands n (String.utf8EncodeChar '�')

/-- What may stand between `&` and `;`, and the text that it stands for. -/
inductive Reference : Str → Str → Prop
  | lt : Reference b!"lt" b!"<"
  | gt : Reference b!"gt" b!">"
  | amp : Reference b!"amp" b!"&"
  | apos : Reference b!"apos" b!"'"
  | quot : Reference b!"quot" b!"\""
  | decimal {ds n t} : Numeral 10 ds n → Stands n t → Reference (b!"#" ++ ds) t
  | hexadecimal {ds n t} : Numeral 16 ds n → Stands n t → Reference (b!"#x" ++ ds) t

/-- Character data and the text that it stands for: line ends are newlines; if `marked`, references are replaced and there is no other `&` and no `<`. -/
inductive Literal (marked : Bool) : Str → Str → Prop
  | nil : Literal marked [] []
  | byte {b s m} : b ≠ 13 → (marked → b ≠ 38 ∧ b ≠ 60) → Literal marked s m → Literal marked (b :: s) (b :: m)
  | crlf {s m} : Literal marked s m → Literal marked (13 :: 10 :: s) (10 :: m)
  | cr {s m} : s.head? ≠ some 10 → Literal marked s m → Literal marked (13 :: s) (10 :: m)
  | reference {r t s m} : marked → Reference r t → Literal marked s m → Literal marked (b!"&" ++ r ++ b!";" ++ s) (t ++ m)

/-- Text between tags. -/
inductive Text : Str → Str → Prop
  | mk {s m} : s ≠ [] → Literal true s m → ¬ b!"]]>" <:+: s → XmlText m → Text s m

/-- A CDATA section. -/
inductive CData : Str → Str → Prop
  | mk {s m} : Literal false s m → ¬ b!"]]>" <:+: s → XmlText m → CData (b!"<![CDATA[" ++ s ++ b!"]]>") m

/-- The value of an attribute with its quotes. -/
inductive Value : Str → Str → Prop
  | double {s m} : Literal true s m → 34 ∉ s → XmlText m → Value (b!"\"" ++ s ++ b!"\"") m
  | single {s m} : Literal true s m → 39 ∉ s → XmlText m → Value (b!"'" ++ s ++ b!"'") m

/-- Attributes. -/
inductive Attributes : Str → List (Str × Str) → Prop
  | nil : Attributes [] []
  | cons {w1 n w2 w3 q v r l} : White w1 → Name n → White w2 → White w3 → Value q v → Attributes r l →
      Attributes (w1 ++ n ++ w2 ++ b!"=" ++ w3 ++ q ++ r) ((n, v) :: l)

/-- A tag: name, attributes and its end (`>` or `/>`). White space separates the name from the attributes. -/
inductive Tag (close : Str) : Str → Str → List (Str × Str) → Prop
  | mk {n a l w} : Name n → Attributes a l → (a = [] ∨ ∃ b ∈ a.head?, White [b]) → White w → Tag close (b!"<" ++ n ++ a ++ w ++ close) n l

/-- An end tag. -/
inductive EndTag : Str → Str → Prop
  | mk {n w} : Name n → White w → EndTag (b!"</" ++ n ++ w ++ b!">") n

/-- Markup without a meaning for the language: comments, processing instructions and the XML declaration. -/
inductive Misc : Str → Prop
  | comment {c} : ¬ b!"--" <:+: c ++ b!"-" → Misc (b!"<!--" ++ c ++ b!"-->")
  | instruction {n d} : Name n → n ≠ b!"xml" → (d = [] ∨ ∃ b ∈ d.head?, White [b]) → ¬ b!"?>" <:+: d → Misc (b!"<?" ++ n ++ d ++ b!"?>")
  | declaration {w1 v w2} : White w1 → w1 ≠ [] → v ∈ [b!"version=\"1.0\"", b!"version='1.0'"] → White w2 → Misc (b!"<?xml" ++ w1 ++ v ++ w2 ++ b!"?>")
  | encoded {w1 v w2 e w3} : White w1 → w1 ≠ [] → v ∈ [b!"version=\"1.0\"", b!"version='1.0'"] → White w2 → w2 ≠ [] →
      e ∈ [b!"encoding=\"UTF-8\"", b!"encoding='UTF-8'", b!"encoding=\"utf-8\"", b!"encoding='utf-8'"] → White w3 →
      Misc (b!"<?xml" ++ w1 ++ v ++ w2 ++ e ++ w3 ++ b!"?>")

/-- A document as a tree. -/
inductive Node where
  | text (s : Str)
  | element (name : Str) (attrs : List (Str × Str)) (children : List Node)

/-- A piece of a document and the nodes it contains. Text reaches up to the next markup. -/
inductive Content : Str → List Node → Prop
  | nil : Content [] []
  | text {s m r l} : Text s m → (r = [] ∨ r.head? = some 60) → Content r l → Content (s ++ r) (.text m :: l)
  | cdata {s m r l} : CData s m → Content r l → Content (s ++ r) (.text m :: l)
  | misc {s r l} : Misc s → Content r l → Content (s ++ r) l
  | empty {s n a r l} : Tag b!"/>" s n a → Content r l → Content (s ++ r) (.element n a [] :: l)
  | element {s n a c cs e r l} : Tag b!">" s n a → Content c cs → EndTag e n → Content r l → Content (s ++ c ++ e ++ r) (.element n a cs :: l)

/-- The value of the attribute: the last one with the name, or empty. -/
def valueOf (a : List (Str × Str)) (n : Str) : Str := ((a.reverse.find? fun p => p.1 = n).map Prod.snd).getD []

/-- The text directly inside. -/
def textOf (l : List Node) : Str := l.flatMap fun | .text s => s | .element .. => []

/-- The entries: the elements `entry` directly inside. -/
def entriesOf (l : List Node) : List XEntry :=
  l.filterMap fun
    | .element n a cs => if n = b!"entry" then some ⟨valueOf a b!"id", textOf cs, valueOf a b!"status"⟩ else none
    | .text _ => none

/-- `s` is a document that describes the language `d`: its root element, of any name, has the name and the language as attributes, and the entries as elements.
Text and markup without meaning may stand before the root element. -/
inductive Document : Str → XLang → Prop
  | mk {s before n a cs} : Content s (before ++ [.element n a cs]) → (∀ x ∈ before, ∃ t, x = .text t) →
      Document s ⟨valueOf a b!"id", valueOf a b!"lang", entriesOf cs⟩

end Xcore.Xml
