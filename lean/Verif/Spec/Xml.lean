import Verif.Model.Language

/-!
# Texts that the XML export can carry

Characters are the characters of Lean (Unicode scalar values), encoded by `String.utf8EncodeChar`.
-/

namespace Xcore.Xml

open Language

/-- A character that XML 1.0 allows: tab, newline, carriage return, everything from the space on except U+FFFE and U+FFFF. -/
def XmlChar (c : Char) : Prop := c = '\t' ∨ c = '\n' ∨ c = '\r' ∨ (0x20 ≤ c.toNat ∧ c.toNat ≠ 0xFFFE ∧ c.toNat ≠ 0xFFFF)

/-- The byte string is the UTF-8 encoding of characters that XML allows. -/
def XmlText (s : Str) : Prop := ∃ cs : List Char, (∀ c ∈ cs, XmlChar c) ∧ s = cs.flatMap String.utf8EncodeChar

/-- A text that survives between double quotes in a tag without escaping. -/
def AttrSafe (s : Str) : Prop := XmlText s ∧ 34 ∉ s ∧ 60 ∉ s ∧ 38 ∉ s ∧ 13 ∉ s       -- no " < & and carriage return

/-- A text that survives in a CDATA section. -/
def CDataSafe (s : Str) : Prop := XmlText s ∧ 13 ∉ s ∧ ¬ b!"]]>" <:+: s

end Xcore.Xml
