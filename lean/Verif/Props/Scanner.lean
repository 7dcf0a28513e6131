import Verif.Proof.Scanner
import Verif.Proof.TrimSpace

/-!
# C31, C33: LoadString with the buffer of its scanner, and the trimming of package strings

`Verif/Model/Scanner.lean` has the buffer of `bufio.Scanner`, and a reader that decides at every read how many bytes it gives.
-/

namespace Xcore.Language

/-- **C31** Whatever the reader gives at each read and however the buffer is moved and enlarged, LoadString ends, with the table and the
error of the model without buffer, about which the other theorems on C31 to C34 are. -/
theorem C31_buffering_does_not_matter (avail : Nat → Nat) (l : Lang) (data : Str) (r : Lang × Bool) :
    Loads avail l (.new data) r ↔ r = loadString l data := by
  have h := loads_exists avail _ l (.new data) (Scanner.Ok.new data) (Nat.le_refl _)
  have e : ((Scanner.new data).rest.1.foldl loadLine l, (Scanner.new data).rest.2) = loadString l data := rfl
  rw [e] at h
  exact ⟨fun h' => loads_unique h' h, fun h' => h' ▸ h⟩

/-- **C33** With its buffer, too, LoadString fails exactly on texts with 65536 consecutive bytes that are not newlines. -/
theorem C33_full_buffer_iff_long_line (avail : Nat → Nat) (l : Lang) (data : Str) :
    (∃ l', Loads avail l (.new data) (l', true)) ↔ LongRun data := by
  have hl : (loadString l data).2 = true ↔ LongRun data := by
    unfold loadString
    rw [scan_lines]
    exact long_iff data
  rw [← hl]
  constructor
  · rintro ⟨l', h⟩
    rw [← (C31_buffering_does_not_matter avail l data _).1 h]
  · intro h
    exact ⟨(loadString l data).1, (C31_buffering_does_not_matter avail l data _).2 (by rw [← h])⟩

/-- A text read two bytes at a time. -/
example : Loads (fun _ => 2) (new b!"n" b!"en") (.new b!"a=1\r\n\nb = 2") (⟨b!"n", b!"en", [(b!"a", b!"1"), (b!"b", b!"2")], []⟩, false) :=
  (C31_buffering_does_not_matter _ _ _ _).2 (by decide)

/-- The first line arrives with the second read; the next Scan goes on behind it. -/
example : (Scanner.new b!"a=1\nb").iteration (fun _ => 2) = .again ⟨4096, 0, b!"a=", b!"1\nb", 1, false⟩ ∧
    (Scanner.mk 4096 0 b!"a=" b!"1\nb" 1 false).iteration (fun _ => 2) = .again ⟨4096, 0, b!"a=1\n", b!"b", 2, false⟩ ∧
    (Scanner.mk 4096 0 b!"a=1\n" b!"b" 2 false).iteration (fun _ => 2) = .token b!"a=1" ⟨4096, 4, [], b!"b", 2, false⟩ := by decide

/-- **C31** `strings.TrimSpace`, with its fast loops and its decoding of runes, gives what `Trimmed` (Verif/Base/Trim.lean) says: the text without its
leading and trailing white space, also when the text is not UTF-8. -/
theorem C31_trimming_is_that_of_strings (s t : Str) : Trim.trimSpace s = t ↔ Trimmed s t :=
  ⟨fun h => h ▸ Trim.trimSpace_spec s, fun h => by rw [← trimmed_unique (Trim.trimSpace_spec s), trimmed_unique h]⟩

/-- An ideographic space (three bytes) and a no-break space are removed, a broken sequence at the end stays. -/
example : Trim.trimSpace [32, 0xE3, 0x80, 0x80, 97, 0xC2, 0xA0, 9] = [97] ∧ Trim.trimSpace [0xA0, 98, 0xE2, 0x80, 32] = [0xA0, 98, 0xE2, 0x80] := by decide

end Xcore.Language
