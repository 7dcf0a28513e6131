import Verif.Model.Language

/-!
# `xml.Unmarshal` for language documents

`LoadXMLString` (xlanguage.go:92-124) calls `xml.Unmarshal` of the Go standard library with the structures `xlang` and `xentry`. This is a model of what
the decoder of package `encoding/xml` does with these structures, for documents made of: the XML declaration (version 1.0, encoding UTF-8), processing
instructions, comments, elements, attributes, text, CDATA sections, the five predefined entities and numeric character references. It answers `none`
(an error) for everything else: declarations written otherwise, `<!DOCTYPE>`, names with a colon or with letters outside of ASCII, a processing instruction
whose target is not followed by white space or `?>`; of these `encoding/xml` accepts some. The library is
not part of /repo: this is how its documentation and source describe it (text of decoder method `text`: `\r` and `\r\n` become `\n`, also in CDATA sections
and attributes; `<` is an error in attributes; `]]>` is an error outside of CDATA; an unknown entity is an error; every rune must be valid UTF-8 and in the
character range of XML. Attributes need no space between them; of two attributes with the same name the last one counts).
-/

namespace Xcore.Xml

open Language

/-- A continuation byte of UTF-8 in the given range. -/
def cont (lo hi c : UInt8) : Bool := decide (lo.toNat ≤ c.toNat ∧ c.toNat ≤ hi.toNat)

/-- `utf8.DecodeRune`: the first rune and its length, `none` if the bytes are not valid. -/
def decodeRune : Str → Option (Nat × Nat)
  | [] => none
  | a :: s =>
    if a.toNat < 0x80 then some (a.toNat, 1)
    else match s with
      | [] => none
      | b :: s =>
        if 0xC2 ≤ a.toNat ∧ a.toNat ≤ 0xDF ∧ cont 0x80 0xBF b then some ((a.toNat - 0xC0) * 64 + (b.toNat - 0x80), 2)
        else match s with
          | [] => none
          | c :: s =>
            if 0xE0 ≤ a.toNat ∧ a.toNat ≤ 0xEF ∧ cont (if a = 0xE0 then 0xA0 else 0x80) (if a = 0xED then 0x9F else 0xBF) b ∧ cont 0x80 0xBF c then
              some ((a.toNat - 0xE0) * 4096 + (b.toNat - 0x80) * 64 + (c.toNat - 0x80), 3)
            else match s with
              | [] => none
              | d :: _ =>
                if 0xF0 ≤ a.toNat ∧ a.toNat ≤ 0xF4 ∧ cont (if a = 0xF0 then 0x90 else 0x80) (if a = 0xF4 then 0x8F else 0xBF) b ∧ cont 0x80 0xBF c ∧
                    cont 0x80 0xBF d then
                  some ((a.toNat - 0xF0) * 262144 + (b.toNat - 0x80) * 4096 + (c.toNat - 0x80) * 64 + (d.toNat - 0x80), 4)
                else none

/-- `isInCharacterRange` of encoding/xml. -/
def inRange (r : Nat) : Bool :=
  decide (r = 9 ∨ r = 10 ∨ r = 13 ∨ 0x20 ≤ r ∧ r ≤ 0xD7FF ∨ 0xE000 ≤ r ∧ r ≤ 0xFFFD ∨ 0x10000 ≤ r ∧ r ≤ 0x10FFFF)

/-- Every rune is valid and in the character range. -/
def validChars : Nat → Str → Bool
  | _, [] => true
  | 0, _ :: _ => false
  | n + 1, s => match decodeRune s with
    | none => false
    | some (r, k) => inRange r && validChars n (s.drop k)

/-- The text is acceptable. -/
def okText (s : Str) : Bool := validChars s.length s

/-- A digit of a numeric reference. -/
def digitIn (base : Nat) (b : UInt8) : Bool :=
  isDigit b || (base == 16 && decide (97 ≤ b.toNat ∧ b.toNat ≤ 102 ∨ 65 ≤ b.toNat ∧ b.toNat ≤ 70))

/-- Its value. -/
def digitVal (b : UInt8) : Nat := if b.toNat ≤ 57 then b.toNat - 48 else if 97 ≤ b.toNat then b.toNat - 87 else b.toNat - 55

/-- `string(rune(n))`: the UTF-8 encoding, U+FFFD for surrogates. -/
def encodeRune (n : Nat) : Str := if 0xD800 ≤ n ∧ n ≤ 0xDFFF then [0xEF, 0xBF, 0xBD] else String.utf8EncodeChar (Char.ofNat n)

/-- `strconv.ParseUint` of the digits and the rune, if it is not over `unicode.MaxRune`. -/
def charRef (base : Nat) (ds : Str) : Option Str :=
  if ds = [] ∨ ds.all (digitIn base) = false then none
  else
    let n := ds.foldl (fun n b => n * base + digitVal b) 0
    if n ≤ 0x10FFFF then some (encodeRune n) else none

/-- What stands between `&` and `;`: the five predefined entities and numeric references. -/
def reference : Str → Option Str
  | [108, 116] => some [60]                    -- lt
  | [103, 116] => some [62]                    -- gt
  | [97, 109, 112] => some [38]                -- amp
  | [97, 112, 111, 115] => some [39]           -- apos
  | [113, 117, 111, 116] => some [34]          -- quot
  | 35 :: 120 :: ds => charRef 16 ds           -- #x
  | 35 :: ds => charRef 10 ds                  -- #
  | _ => none

/-- The loop of the decoder's `text`: up to the closing quote, to `<` or to `]]>`. `b0` and `b1` are the two bytes read before; `buf` is the text read so far;
`ref` is what has been read after a `&`. The result is the text and the rest of the document. (The library stops reading a reference at the first byte that
cannot be part of one; here it is read to the next `;`, with the same answer as no reference contains such a byte.) -/
def textGo (quote : Option UInt8) (cdata : Bool) (b0 b1 : UInt8) (buf : Str) (ref : Option Str) : Str → Option (Str × Str)
  | [] => if cdata ∨ ref ≠ none then none else some (buf, [])
  | b :: s => match ref with
    | some r =>
      if b = 59 then match reference r with
        | some t => textGo quote cdata 0 0 (buf ++ t) none s
        | none => none
      else textGo quote cdata b0 b1 buf (some (r ++ [b])) s
    | none =>
      if quote = none ∧ b0 = 93 ∧ b1 = 93 ∧ b = 62 then
        if cdata then some (buf.take (buf.length - 2), s) else none
      else if b = 60 ∧ cdata = false then
        if quote = none then some (buf, b :: s) else none
      else if quote = some b then some (buf, s)
      else if b = 38 ∧ cdata = false then textGo quote cdata b0 b1 buf (some []) s
      else if b = 13 then textGo quote cdata b1 b (buf ++ [10]) none s
      else if b1 = 13 ∧ b = 10 then textGo quote cdata b1 b buf none s
      else textGo quote cdata b1 b (buf ++ [b]) none s

/-- The decoder's `text`. -/
def text (quote : Option UInt8) (cdata : Bool) (s : Str) : Option (Str × Str) :=
  (textGo quote cdata 0 0 [] none s).bind fun r => if okText r.1 then some r else none

/-- White space inside a tag. -/
def isSpace (c : UInt8) : Bool := c == 32 || c == 10 || c == 13 || c == 9

/-- Letters and underscore. -/
def nameStart (c : UInt8) : Bool := decide (65 ≤ c.toNat ∧ c.toNat ≤ 90 ∨ 97 ≤ c.toNat ∧ c.toNat ≤ 122 ∨ c = 95)

/-- Bytes of names. -/
def nameByte (c : UInt8) : Bool := nameStart c || isDigit c || c == 46 || c == 45

/-- A name and the rest. -/
def readName (s : Str) : Option (Str × Str) :=
  match s.takeWhile nameByte with
  | [] => none
  | c :: n => match s.dropWhile nameByte with
    | [] => none
    | d :: r => if nameStart c ∧ d ≠ 58 ∧ d.toNat < 128 then some (c :: n, d :: r) else none

/-- The attributes of a tag, up to `>` or `/>` (`true`). -/
def attrsN : Nat → Str → List (Str × Str) → Option (List (Str × Str) × Bool × Str)
  | 0, _, _ => none
  | n + 1, s, acc => match s.dropWhile isSpace with
    | 62 :: r => some (acc, false, r)
    | 47 :: 62 :: r => some (acc, true, r)
    | s => (readName s).bind fun q => match q.2.dropWhile isSpace with
      | 61 :: r => match r.dropWhile isSpace with
        | 34 :: r => (text (some 34) false r).bind fun v => attrsN n v.2 (acc ++ [(q.1, v.1)])
        | 39 :: r => (text (some 39) false r).bind fun v => attrsN n v.2 (acc ++ [(q.1, v.1)])
        | _ => none
      | _ => none

/-- What the decoder delivers. Declarations, processing instructions and comments are `other`. -/
inductive Tok where
  | start (name : Str) (attrs : List (Str × Str)) (empty : Bool)
  | stop (name : Str)
  | text (s : Str)
  | other
  deriving DecidableEq, Repr

/-- The rest after one of the strings. -/
def after (ps : List Str) (s : Str) : Option Str := ps.findSome? fun p => if p.isPrefixOf s then some (s.drop p.length) else none

/-- The declaration after `<?xml`: version 1.0 and possibly the encoding UTF-8 (`procInst` of encoding/xml finds both). -/
def declaration (s : Str) : Option Str :=
  (after [b!"version=\"1.0\"", b!"version='1.0'"] (s.dropWhile isSpace)).bind fun s => match s.dropWhile isSpace with
    | 63 :: 62 :: r => some r
    | t => if t = s then none
      else (after [b!"encoding=\"UTF-8\"", b!"encoding='UTF-8'", b!"encoding=\"utf-8\"", b!"encoding='utf-8'"] t).bind fun s =>
        match s.dropWhile isSpace with
        | 63 :: 62 :: r => some r
        | _ => none

/-- The rest after the end of a processing instruction. -/
def pastInstruction : Str → Option Str
  | [] => none
  | 63 :: 62 :: r => some r
  | _ :: s => pastInstruction s

/-- The rest after the end of a comment: `--` must be followed by `>`. -/
def pastComment : Str → Option Str
  | [] => none
  | 45 :: 45 :: 62 :: r => some r
  | 45 :: 45 :: _ => none
  | _ :: s => pastComment s

/-- The next token. -/
def nextTok (s : Str) : Option (Tok × Str) :=
  match s with
  | [] => none
  | 60 :: 63 :: r => (readName r).bind fun q =>
    if q.1 = b!"xml" then (declaration q.2).map fun r => (.other, r)
    else match q.2 with
      | 63 :: 62 :: r => some (.other, r)
      | b :: r => if isSpace b then (pastInstruction r).map fun r => (.other, r) else none
      | [] => none
  | 60 :: 47 :: r => (readName r).bind fun q => match q.2.dropWhile isSpace with
    | 62 :: r => some (.stop q.1, r)
    | _ => none
  | 60 :: 33 :: 91 :: 67 :: 68 :: 65 :: 84 :: 65 :: 91 :: r => (Xml.text none true r).map fun q => (.text q.1, q.2)
  | 60 :: 33 :: 45 :: 45 :: r => (pastComment r).map fun r => (.other, r)
  | 60 :: 33 :: _ => none
  | 60 :: r => (readName r).bind fun q => (attrsN (q.2.length + 1) q.2 []).map fun a => (.start q.1 a.1 a.2.1, a.2.2)
  | s => (Xml.text none false s).map fun q => (.text q.1, q.2)

/-- Where the decoder is: before the root element; in it; in an `<entry>`; or in an element that has no field (how deep), inside of an entry or not. -/
inductive Where where
  | prolog
  | root
  | entry (e : XEntry)
  | skip (depth : Nat) (e : Option XEntry)
  deriving DecidableEq, Repr

/-- The state of the decoder: the open elements, where it is, and the structure filled so far. -/
structure St where
  names : List Str
  pos : Where
  doc : XLang
  deriving DecidableEq, Repr

/-- The last attribute with the name, or the empty string. -/
def attr (attrs : List (Str × Str)) (name : Str) : Str := ((attrs.filter fun p => p.1 = name).getLast?.map Prod.snd).getD []

/-- A start tag (structures `xlang` and `xentry`, xlanguage.go:94-104: attributes `id`, `lang`, `status`, elements `entry`). -/
def onStart (st : St) (name : Str) (attrs : List (Str × Str)) : St :=
  let names := name :: st.names
  match st.pos with
  | .prolog => ⟨names, .root, ⟨attr attrs b!"id", attr attrs b!"lang", []⟩⟩
  | .root => if name = b!"entry" then ⟨names, .entry ⟨attr attrs b!"id", [], attr attrs b!"status"⟩, st.doc⟩ else ⟨names, .skip 0 none, st.doc⟩
  | .entry e => ⟨names, .skip 0 (some e), st.doc⟩
  | .skip d e => ⟨names, .skip (d + 1) e, st.doc⟩

/-- An end tag: `none` is an error, `some (_, true)` the end of the document. -/
def onStop (st : St) (name : Str) : Option (St × Bool) :=
  match st.names with
  | [] => none
  | n :: names => if n ≠ name then none else match st.pos with
    | .prolog => none
    | .root => some (⟨names, .root, st.doc⟩, true)
    | .entry e => some (⟨names, .root, { st.doc with entries := st.doc.entries ++ [e] }⟩, false)
    | .skip (d + 1) e => some (⟨names, .skip d e, st.doc⟩, false)
    | .skip 0 none => some (⟨names, .root, st.doc⟩, false)
    | .skip 0 (some e) => some (⟨names, .entry e, st.doc⟩, false)

/-- Text: only the text directly inside an entry is kept. -/
def onText (st : St) (s : Str) : St :=
  match st.pos with
  | .entry e => { st with pos := .entry { e with entry := e.entry ++ s } }
  | _ => st

/-- One token. -/
def feed (st : St) : Tok → Option (St × Bool)
  | .other => some (st, false)
  | .text s => some (onText st s, false)
  | .start name attrs false => some (onStart st name attrs, false)
  | .start name attrs true => onStop (onStart st name attrs) name
  | .stop name => onStop st name

/-- The decoder. -/
def runN : Nat → St → Str → Option XLang
  | 0, _, _ => none
  | n + 1, st, s => (nextTok s).bind fun t => (feed st t.1).bind fun r => if r.2 then some r.1.doc else runN n r.1 t.2

/-- `xml.Unmarshal` into an `xlang`. What follows the root element is not looked at. -/
def unmarshal (s : Str) : Option XLang := runN (s.length + 1) ⟨[], .prolog, ⟨[], [], []⟩⟩ s

end Xcore.Xml
