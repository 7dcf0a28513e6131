import Verif.Model.Language

/-!
# LoadString with the buffer of its scanner

`LoadString` (v2/xlanguage.go:148-178, and xlanguage.go:148-176 of version 1) reads its lines with a `bufio.Scanner` on a `strings.Reader`.
`Verif/Model/Language.lean` has the lines at once (`scan`). Here is the scanner as package bufio has it: a buffer that is shifted and doubled, and
reads that return as many bytes as the reader likes. (A `strings.Reader` returns all that fits.) `C31_buffering_does_not_matter` shows that
the two agree.
-/

namespace Xcore.Language

/-- `bufio.Scanner`: `size` is `len(s.buf)`, `start` is `s.start`, `pending` are the bytes `s.buf[s.start:s.end]`, `eof` is `s.err == io.EOF`;
`input` is what the reader has not yet given, `reads` the number of reads so far. -/
structure Scanner where
  size : Nat
  start : Nat
  pending : Str
  input : Str
  reads : Nat
  eof : Bool
  deriving DecidableEq, Repr

/-- `bufio.NewScanner(strings.NewReader(data))` (xlanguage.go:149): the buffer is allocated by the first Scan. -/
def Scanner.new (data : Str) : Scanner := ⟨0, 0, [], data, 0, false⟩

/-- `bufio.ScanLines`: how many bytes to advance, and the token if there is one. -/
def scanLines (data : Str) (atEOF : Bool) : Nat × Option Str :=
  match indexByte 10 data with
  | some i => (i + 1, some (dropCR (data.take i)))
  | none => if atEOF ∧ data ≠ [] then (data.length, some (dropCR data)) else (0, none)

/-- `s.r.Read(s.buf[s.end:])`: `avail n` is the number of bytes the reader is ready to give to the `n`-th read; it gives at least one, unless
it is at its end. -/
def Scanner.read (avail : Nat → Nat) (s : Scanner) : Scanner :=
  if s.input = [] then { s with eof := true }
  else
    let n := min (max 1 (avail s.reads)) (s.size - (s.start + s.pending.length))
    { s with pending := s.pending ++ s.input.take n, input := s.input.drop n, reads := s.reads + 1 }

/-- What one iteration of the loop in `Scanner.Scan` leads to: Scan returns true with a token, or false (with the error `ErrTooLong` or without),
or the loop goes on. -/
inductive Iteration where
  | token (t : Str) (s : Scanner)
  | stop (tooLong : Bool)
  | again (s : Scanner)
  deriving DecidableEq

/-- One iteration of the loop in `Scanner.Scan`: a token from the bytes there are; else the bytes are moved to the beginning of the buffer if
space is needed or half of the buffer is behind them; else the buffer is doubled, up to 65536 bytes, from 4096; and the reader is read. -/
def Scanner.iteration (avail : Nat → Nat) (s : Scanner) : Iteration :=
  match (if s.pending ≠ [] ∨ s.eof = true then scanLines s.pending s.eof else (0, none)) with
  | (advance, some t) => .token t { s with pending := s.pending.drop advance, start := s.start + advance }
  | (advance, none) =>
    let s := { s with pending := s.pending.drop advance, start := s.start + advance }
    if s.eof then .stop false
    else
      let s := if 0 < s.start ∧ (s.start + s.pending.length = s.size ∨ s.size / 2 < s.start) then { s with start := 0 } else s
      if s.start + s.pending.length = s.size then
        if maxToken ≤ s.size then .stop true
        else
          let newSize := if s.size * 2 = 0 then 4096 else s.size * 2
          .again ({ s with size := min newSize maxToken, start := 0 }.read avail)
      else .again (s.read avail)

/-- The loop of `LoadString` (xlanguage.go:150-177), from a state of its scanner: `Loads avail l s (l', err)` if it ends with the table `l'` and
an error or not. -/
inductive Loads (avail : Nat → Nat) : Lang → Scanner → Lang × Bool → Prop where
  | token {l : Lang} {s s' : Scanner} {t : Str} {r : Lang × Bool} : s.iteration avail = .token t s' → Loads avail (loadLine l t) s' r →
      Loads avail l s r
  | stop {l : Lang} {s : Scanner} {tooLong : Bool} : s.iteration avail = .stop tooLong → Loads avail l s (l, tooLong)
  | again {l : Lang} {s s' : Scanner} {r : Lang × Bool} : s.iteration avail = .again s' → Loads avail l s' r → Loads avail l s r

end Xcore.Language
