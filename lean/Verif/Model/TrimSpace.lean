import Verif.Base.Str

/-!
# strings.TrimSpace, as package strings has it

`LoadString` trims keys and values with `strings.TrimSpace` (v2/xlanguage.go:160, 168 and xlanguage.go:160, 168 of version 1). `Verif/Base/Str.lean` has a
short definition (`trimSpace`). Here are the functions of the packages strings, unicode/utf8 and unicode it stands for: a fast loop over ASCII bytes, and
decoding of runes, from the left and from the right, where bytes that are not UTF-8 count as runes of one byte.
`C31_trimming_is_that_of_strings` shows that the two agree.
-/

namespace Xcore.Trim

/-- `utf8.RuneError`. -/
def runeError : Nat := 0xFFFD

/-- The tables `first` and `acceptRanges` of package utf8: for a byte that begins a sequence of several bytes, the length of the sequence and the
bounds of the second byte. -/
def lead (b : Nat) : Option (Nat × Nat × Nat) :=
  if b < 0xC2 then none
  else if b ≤ 0xDF then some (2, 0x80, 0xBF)
  else if b = 0xE0 then some (3, 0xA0, 0xBF)
  else if b ≤ 0xEC then some (3, 0x80, 0xBF)
  else if b = 0xED then some (3, 0x80, 0x9F)
  else if b ≤ 0xEF then some (3, 0x80, 0xBF)
  else if b = 0xF0 then some (4, 0x90, 0xBF)
  else if b ≤ 0xF3 then some (4, 0x80, 0xBF)
  else if b = 0xF4 then some (4, 0x80, 0x8F)
  else none

/-- A continuation byte. -/
def continues (b : UInt8) : Prop := 0x80 ≤ b.toNat ∧ b.toNat ≤ 0xBF

instance (b : UInt8) : Decidable (continues b) := inferInstanceAs (Decidable (_ ∧ _))

/-- `utf8.DecodeRuneInString`: the rune and its length; `(RuneError, 1)` for a byte that begins no sequence, `(RuneError, 0)` at the end. -/
def decodeRune : Str → Nat × Nat
  | [] => (runeError, 0)
  | b0 :: s =>
    if b0.toNat < 0x80 then (b0.toNat, 1)
    else
      match lead b0.toNat, s with
      | some (2, lo, hi), b1 :: _ =>
        if lo ≤ b1.toNat ∧ b1.toNat ≤ hi then ((b0.toNat - 0xC0) * 64 + (b1.toNat - 0x80), 2) else (runeError, 1)
      | some (3, lo, hi), b1 :: b2 :: _ =>
        if (lo ≤ b1.toNat ∧ b1.toNat ≤ hi) ∧ continues b2 then
          ((b0.toNat - 0xE0) * 4096 + (b1.toNat - 0x80) * 64 + (b2.toNat - 0x80), 3)
        else (runeError, 1)
      | some (4, lo, hi), b1 :: b2 :: b3 :: _ =>
        if (lo ≤ b1.toNat ∧ b1.toNat ≤ hi) ∧ continues b2 ∧ continues b3 then
          ((b0.toNat - 0xF0) * 262144 + (b1.toNat - 0x80) * 4096 + (b2.toNat - 0x80) * 64 + (b3.toNat - 0x80), 4)
        else (runeError, 1)
      | _, _ => (runeError, 1)

/-- The loop of `utf8.DecodeLastRuneInString`: from `start` go back to a byte that is no continuation (`utf8.RuneStart`), at most `n` bytes
and not before the beginning. -/
def runeStart (s : Str) : Nat → Nat → Nat
  | 0, start => start
  | _ + 1, 0 => 0
  | n + 1, start + 1 => if ∃ b, s[start]? = some b ∧ ¬ continues b then start else runeStart s n start

/-- `utf8.DecodeLastRuneInString` of a text that is not empty. -/
def decodeLast (s : Str) : Nat × Nat :=
  match s.getLast? with
  | none => (runeError, 0)
  | some b =>
    if b.toNat < 0x80 then (b.toNat, 1)
    else
      let start := runeStart s 3 (s.length - 1)
      if start + (decodeRune (s.drop start)).2 = s.length then decodeRune (s.drop start) else (runeError, 1)

/-- `unicode.IsSpace`. -/
def isSpace (r : Nat) : Bool :=
  decide (9 ≤ r ∧ r ≤ 13) || r == 32 || r == 0x85 || r == 0xA0 || r == 0x1680 || decide (0x2000 ≤ r ∧ r ≤ 0x200A) || r == 0x2028 || r == 0x2029 ||
    r == 0x202F || r == 0x205F || r == 0x3000

/-- `strings.TrimLeftFunc(s, unicode.IsSpace)`: `for i, r := range s` up to the first rune that is no space. The number bounds the runes. -/
def trimLeft : Nat → Str → Str
  | 0, s => s
  | n + 1, s => if s ≠ [] ∧ isSpace (decodeRune s).1 then trimLeft n (s.drop (decodeRune s).2) else s

/-- `strings.lastIndexFunc(s, unicode.IsSpace, false)`, from `i`: where the last rune that is no space begins. -/
def lastIndex (s : Str) : Nat → Nat → Option Nat
  | 0, _ => none
  | n + 1, i =>
    if i = 0 then none
    else
      let d := decodeLast (s.take i)
      if isSpace d.1 then lastIndex s n (i - d.2) else some (i - d.2)

/-- `strings.TrimRightFunc(s, unicode.IsSpace)`: the width of the rune found is that of decoding forwards. -/
def trimRight (s : Str) : Str :=
  match lastIndex s (s.length + 1) s.length with
  | none => []
  | some i => s.take (i + (decodeRune (s.drop i)).2)

/-- An ASCII space (`asciiSpace` of package strings). -/
def asciiSpace (b : UInt8) : Bool := decide (9 ≤ b.toNat ∧ b.toNat ≤ 13) || b == 32

/-- The second loop of `strings.TrimSpace`, on the reversed text from the beginning of the word on. -/
def trimEnd : Str → Str
  | [] => []
  | b :: r =>
    if 0x80 ≤ b.toNat then trimRight (b :: r).reverse
    else if asciiSpace b then trimEnd r
    else (b :: r).reverse

/-- `strings.TrimSpace`. -/
def trimSpace : Str → Str
  | [] => []
  | b :: s =>
    if 0x80 ≤ b.toNat then trimRight (trimLeft (b :: s).length (b :: s))
    else if asciiSpace b then trimSpace s
    else trimEnd (b :: s).reverse

end Xcore.Trim
