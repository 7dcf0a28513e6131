/-!
# Byte strings and the Go standard-library string functions used by xcore

A Go `string` is an arbitrary sequence of bytes: `Str = List UInt8`.
-/

namespace Xcore

/-- A Go string: any sequence of bytes (not necessarily valid UTF-8). -/
abbrev Str := List UInt8

/-- `b!"text"` is the byte string (UTF-8) of a literal. -/
syntax:max (name := byteStrLit) "b!" noWs str : term

macro_rules
  | `(b!$s:str) => do
    let bytes := s.getString.toUTF8.toList
    let elems ← bytes.toArray.mapM fun b => `(($(Lean.quote b.toNat) : UInt8))
    `(([$elems,*] : Str))

/-- `strings.Split(s, sep)` for a one-byte separator. Always returns at least one piece.
Used with `">"` (xdataset.go:73), `":"` (xtemplate.go:335, 380, 430) and `"|"` (xtemplate.go:238). -/
def split (sep : UInt8) : Str → List Str
  | [] => [[]]
  | c :: cs =>
    if c = sep then [] :: split sep cs
    else match split sep cs with
      | [] => [[c]]          -- unreachable: `split` is never empty
      | p :: ps => (c :: p) :: ps

/-- `strings.Join(l, sep)`. Used with one-byte separators, `" "`, `"\n"` and `""`. -/
def join (sep : Str) : List Str → Str
  | [] => []
  | [p] => p
  | p :: q :: ps => p ++ sep ++ join sep (q :: ps)

/-- `strings.Index(s, c)` for a one-byte pattern (xlanguage.go:152, xtemplate.go:236); `none` stands for -1. -/
def indexByte (c : UInt8) : Str → Option Nat
  | [] => none
  | d :: ds => if d = c then some 0 else (indexByte c ds).map (· + 1)

/-- Is the byte an ASCII decimal digit? -/
def isDigit (c : UInt8) : Bool := decide (48 ≤ c.toNat ∧ c.toNat ≤ 57)

/-- Decimal digits of `n`, least significant first, at most `fuel` of them. -/
def revDigits : Nat → Nat → Str
  | 0, _ => []
  | fuel + 1, n =>
    UInt8.ofNat (48 + n % 10) :: (if n / 10 = 0 then [] else revDigits fuel (n / 10))

/-- Decimal notation of a natural number. -/
def natToStr (n : Nat) : Str := (revDigits (n + 1) n).reverse

/-- `strconv.Itoa` / `fmt.Sprint` of an integer (xtemplate.go:394, xdatasetcollection.go:30). -/
def itoa : Int → Str
  | .ofNat n => natToStr n
  | .negSucc n => 45 :: natToStr (n + 1)

/-- Value of a digit string (most significant first), accumulating. -/
def digitsVal (acc : Nat) (s : Str) : Nat := s.foldl (fun acc c => acc * 10 + (c.toNat - 48)) acc

/-- Unsigned part of `strconv.Atoi`: nonempty and all digits. -/
def atoiDigits (s : Str) : Option Nat :=
  if s ≠ [] ∧ s.all isDigit then some (digitsVal 0 s) else none

/-- The optional sign of a number: is it negative, and the rest. -/
def atoiSign : Str → Bool × Str
  | [] => (false, [])
  | c :: cs => if c = 45 then (true, cs) else if c = 43 then (false, cs) else (false, c :: cs)

/-- `strconv.Atoi` on a 64-bit platform (used at xdataset.go:83): optional sign, at least one decimal digit,
no other characters, value representable in 64 bits; `none` stands for a non-nil error. -/
def atoi (s : Str) : Option Int :=
  match atoiDigits (atoiSign s).2 with
  | none => none
  | some n =>
    let v : Int := if (atoiSign s).1 then -(n : Int) else (n : Int)
    if -(2 ^ 63 : Int) ≤ v ∧ v < (2 ^ 63 : Int) then some v else none

/-- UTF-8 encodings of the runes for which `unicode.IsSpace` holds:
`\t \n \v \f \r ' '`, U+0085, U+00A0, U+1680, U+2000–U+200A, U+2028, U+2029, U+202F, U+205F, U+3000. -/
def spaceRunes : List Str :=
  [[9], [10], [11], [12], [13], [32], [0xC2, 0x85], [0xC2, 0xA0], [0xE1, 0x9A, 0x80],
   [0xE2, 0x80, 0x80], [0xE2, 0x80, 0x81], [0xE2, 0x80, 0x82], [0xE2, 0x80, 0x83], [0xE2, 0x80, 0x84],
   [0xE2, 0x80, 0x85], [0xE2, 0x80, 0x86], [0xE2, 0x80, 0x87], [0xE2, 0x80, 0x88], [0xE2, 0x80, 0x89],
   [0xE2, 0x80, 0x8A], [0xE2, 0x80, 0xA8], [0xE2, 0x80, 0xA9], [0xE2, 0x80, 0xAF], [0xE2, 0x81, 0x9F],
   [0xE3, 0x80, 0x80]]

/-- If `s` starts with one of the encodings `ps`, the rest after it. -/
def stripOne (ps : List Str) (s : Str) : Option Str :=
  match ps with
  | [] => none
  | p :: ps => if p.isPrefixOf s then some (s.drop p.length) else stripOne ps s

/-- Strip leading encodings repeatedly (at most `fuel` times). -/
def stripMany (ps : List Str) : Nat → Str → Str
  | 0, s => s
  | fuel + 1, s => match stripOne ps s with
    | none => s
    | some r => stripMany ps fuel r

/-- `strings.TrimSpace` (xlanguage.go:160, 168): remove leading and trailing white-space runes.
Go decodes runes from the left, then from the right; since the encodings above are complete valid UTF-8 sequences,
"the first (last) rune is white space" is the same as "the string starts (ends) with one of them" (proved for the functions of package strings:
`C31_trimming_is_that_of_strings`). -/
def trimSpace (s : Str) : Str :=
  let l := stripMany spaceRunes s.length s
  (stripMany (spaceRunes.map List.reverse) l.length l.reverse).reverse

/-- Byte-wise lexicographic `≤` on strings: Go's `<=` on strings. -/
def strLe : Str → Str → Bool
  | [], _ => true
  | _ :: _, [] => false
  | a :: as, b :: bs => if a.toNat < b.toNat then true else if b.toNat < a.toNat then false else strLe as bs

/-- Insert into a sorted list. -/
def insertSorted (x : Str) : List Str → List Str
  | [] => [x]
  | y :: ys => if strLe x y then x :: y :: ys else y :: insertSorted x ys

/-- `sort.Strings` (xdataset.go:52, xlanguage.go:263 …). Modelled by insertion sort; the result of sorting strings is unique
(`Xcore.sortStrs_unique`), so the algorithm does not matter. -/
def sortStrs (l : List Str) : List Str := l.foldr insertSorted []

/-- Outcome of a Go call: normal return, panic, or exhaustion of the model's recursion fuel (non-termination). -/
inductive Res (α : Type) where
  | ok (a : α)
  | panic
  | diverge
  deriving Repr, DecidableEq

namespace Res

/-- Sequencing of outcomes. -/
def bind {α β : Type} (r : Res α) (f : α → Res β) : Res β :=
  match r with
  | ok a => f a
  | panic => panic
  | diverge => diverge

/-- Apply a function to a normal result. -/
def map {α β : Type} (f : α → β) (r : Res α) : Res β :=
  match r with
  | ok a => ok (f a)
  | panic => panic
  | diverge => diverge

instance : Monad Res where
  pure := ok
  bind := bind

@[simp] theorem bind_ok {α β : Type} (a : α) (f : α → Res β) : (ok a >>= f) = f a := rfl
@[simp] theorem bind_panic {α β : Type} (f : α → Res β) : ((panic : Res α) >>= f) = panic := rfl
@[simp] theorem bind_diverge {α β : Type} (f : α → Res β) : ((diverge : Res α) >>= f) = diverge := rfl
@[simp] theorem pure_eq {α : Type} (a : α) : (pure a : Res α) = ok a := rfl

theorem bind_eq_ok {α β : Type} {r : Res α} {f : α → Res β} {b : β} :
    (r >>= f) = ok b ↔ ∃ a, r = ok a ∧ f a = ok b := by
  cases r <;> simp

end Res

end Xcore
