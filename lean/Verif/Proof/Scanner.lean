import Verif.Model.Scanner
import Verif.Proof.Language

/-! # The scanner's buffer does not matter -/

namespace Xcore.Language

/-- The bytes are in the buffer, which is not too big; at the end of the data there is nothing to read, and no full buffer. -/
structure Scanner.Ok (s : Scanner) : Prop where
  room : s.start + s.pending.length ≤ s.size
  size : s.size ≤ 65536
  ended : s.eof = true → s.input = [] ∧ s.pending.length < 65536

theorem Scanner.Ok.new (data : Str) : (Scanner.new data).Ok := ⟨by simp [Scanner.new], by simp [Scanner.new], by simp [Scanner.new]⟩

theorem scan_line (l rest : Str) (cur : Str) (h : (10 : UInt8) ∉ l) (hl : cur.length + l.length < 65536) :
    scan cur (l ++ 10 :: rest) = (dropCR (cur ++ l) :: (scan [] rest).1, (scan [] rest).2) := by
  induction l generalizing cur with
  | nil => simp [scan]
  | cons c l ih =>
    simp only [List.mem_cons, not_or] at h
    simp only [List.length_cons] at hl
    rw [List.cons_append, scan, if_neg (fun e => h.1 e.symm), if_neg (by simp only [maxToken]; omega), ih _ h.2 (by simp; omega)]
    simp

theorem scan_long (p rest : Str) (cur : Str) (h : (10 : UInt8) ∉ p) (hp : p ≠ []) (hl : 65536 ≤ cur.length + p.length) :
    scan cur (p ++ rest) = ([], true) := by
  induction p generalizing cur with
  | nil => exact absurd rfl hp
  | cons c p ih =>
    simp only [List.mem_cons, not_or] at h
    simp only [List.length_cons] at hl
    rw [List.cons_append, scan, if_neg (fun e => h.1 e.symm)]
    split
    · rfl
    · rename_i hm
      simp only [maxToken] at hm
      refine ih _ h.2 ?_ (by simp; omega)
      rintro rfl
      simp at hl; omega

theorem scan_last (p : Str) (h : (10 : UInt8) ∉ p) (hp : p ≠ []) (hl : p.length < 65536) : scan [] p = ([dropCR p], false) := by
  have gen : ∀ (p cur : Str), (10 : UInt8) ∉ p → cur.length + p.length < 65536 → cur ++ p ≠ [] → scan cur p = ([dropCR (cur ++ p)], false) := by
    intro p
    induction p with
    | nil => intro cur _ _ hne; simp at hne; simp [scan, hne]
    | cons c p ih =>
      intro cur h hl _
      simp only [List.mem_cons, not_or] at h
      simp only [List.length_cons] at hl
      rw [scan, if_neg (fun e => h.1 e.symm), if_neg (by simp only [maxToken]; omega), ih _ h.2 (by simp; omega) (by simp)]
      simp
  simpa using gen p [] h (by simpa using hl) (by simpa using hp)

/-- What is still to come of a scanner. -/
def Scanner.rest (s : Scanner) : List Str × Bool := scan [] (s.pending ++ s.input)

/-- How much is left to do. -/
def Scanner.work (s : Scanner) : Nat := 2 * s.input.length + s.pending.length + if s.eof then 0 else 1

theorem read_ok {avail : Nat → Nat} {s : Scanner} (h : s.Ok) (hs : s.start + s.pending.length < s.size) (he : s.eof = false) :
    (s.read avail).Ok ∧ (s.read avail).rest = s.rest ∧ (s.read avail).work < s.work := by
  unfold Scanner.read
  split
  · rename_i hi
    refine ⟨⟨h.room, h.size, fun _ => ⟨hi, ?_⟩⟩, rfl, ?_⟩
    · have := h.size; show s.pending.length < 65536; omega
    · simp [Scanner.work, he]
  · rename_i hi
    have hpos : 0 < s.input.length := List.length_pos_iff.2 hi
    generalize hn : min (max 1 (avail s.reads)) (s.size - (s.start + s.pending.length)) = n
    have h1 : 1 ≤ n := by omega
    have h2 : n ≤ s.size - (s.start + s.pending.length) := by omega
    refine ⟨⟨?_, h.size, ?_⟩, ?_, ?_⟩
    · show s.start + (s.pending ++ s.input.take n).length ≤ s.size
      simp only [List.length_append, List.length_take]; omega
    · intro e; rw [show s.eof = true from e] at he; cases he
    · simp [Scanner.rest, List.append_assoc]
    · simp only [Scanner.work, List.length_append, List.length_take, List.length_drop]
      omega

theorem again_ok {s : Scanner} (h : s.Ok) (he : s.eof = false) :
    (∃ s', s' = (if 0 < s.start ∧ (s.start + s.pending.length = s.size ∨ s.size / 2 < s.start) then { s with start := 0 } else s) ∧
      s'.Ok ∧ s'.rest = s.rest ∧ s'.work = s.work ∧ s'.eof = false ∧ s'.pending = s.pending ∧
        (s'.start + s'.pending.length = s'.size → s'.start = 0)) := by
  refine ⟨_, rfl, ?_⟩
  split
  · refine ⟨⟨?_, h.size, h.ended⟩, rfl, rfl, he, rfl, fun _ => rfl⟩
    have := h.room
    show 0 + s.pending.length ≤ s.size
    omega
  · rename_i hx
    refine ⟨h, rfl, rfl, he, rfl, fun e => ?_⟩
    rcases Nat.eq_zero_or_pos s.start with h0 | h0
    · exact h0
    · exact absurd ⟨h0, Or.inl e⟩ hx

/-- What one iteration does to what is still to come. -/
theorem iteration_ok (avail : Nat → Nat) {s : Scanner} (h : s.Ok) :
    match s.iteration avail with
    | .token t s' => s'.Ok ∧ s.rest = (t :: s'.rest.1, s'.rest.2) ∧ s'.work < s.work
    | .stop b => s.rest = ([], b)
    | .again s' => s'.Ok ∧ s'.rest = s.rest ∧ s'.work < s.work := by
  unfold Scanner.iteration
  cases hi : indexByte 10 s.pending with
  | some i =>
    obtain ⟨a, b, h1, h2, h3⟩ := indexByte_eq_some.1 hi
    have hne : s.pending ≠ [] := by rw [h1]; simp
    rw [if_pos (Or.inl hne)]
    unfold scanLines
    rw [hi]
    dsimp only
    have hroom := h.room
    have hsize := h.size
    have hlen : s.pending.length = a.length + 1 + b.length := by rw [h1]; simp; omega
    have hdrop : s.pending.drop (i + 1) = b := by
      rw [h1, ← h3, List.drop_append]; simp
    have htake : s.pending.take i = a := by rw [h1, ← h3]; simp
    rw [hdrop, htake]
    refine ⟨⟨?_, h.size, fun e => ⟨(h.ended e).1, ?_⟩⟩, ?_, ?_⟩
    · show s.start + (i + 1) + b.length ≤ s.size; omega
    · have := (h.ended e).2; show b.length < 65536; omega
    · unfold Scanner.rest
      rw [h1]
      rw [List.append_assoc, List.cons_append, scan_line a _ [] h2 (by simp; omega)]
      rfl
    · simp only [Scanner.work]; omega
  | none =>
    have hn : (10 : UInt8) ∉ s.pending := indexByte_eq_none.1 hi
    cases he : s.eof with
    | true =>
      rw [if_pos (Or.inr rfl)]
      unfold scanLines
      rw [hi]
      dsimp only
      obtain ⟨e1, e2⟩ := h.ended he
      by_cases hp : s.pending = []
      · rw [if_neg (fun x => x.2 hp)]
        dsimp only
        rw [if_pos rfl]
        dsimp only
        unfold Scanner.rest
        rw [hp, e1]; rfl
      · rw [if_pos ⟨rfl, hp⟩]
        dsimp only
        have hroom := h.room
        refine ⟨⟨?_, h.size, fun _ => ⟨e1, ?_⟩⟩, ?_, ?_⟩
        · show s.start + s.pending.length + (s.pending.drop s.pending.length).length ≤ s.size; simp; omega
        · simp
        · unfold Scanner.rest
          dsimp only
          rw [e1, List.append_nil, scan_last _ hn hp e2]
          simp [scan]
        · have := List.length_pos_iff.2 hp
          simp only [Scanner.work, List.length_drop, he, if_true]; omega
    | false =>
      have hnone : (if s.pending ≠ [] ∨ false = true then scanLines s.pending false else (0, none)) = (0, none) := by
        split
        · unfold scanLines; rw [hi]; simp
        · rfl
      rw [hnone]
      dsimp only [Nat.add_zero]
      have hs0 : (⟨s.size, s.start, s.pending, s.input, s.reads, false⟩ : Scanner) = s := by rw [← he]
      simp only [List.drop_zero, hs0]
      rw [if_neg (by simp)]
      obtain ⟨s', hs', o1, o2, o3, o4, o5, o6⟩ := again_ok h he
      rw [he] at hs'
      rw [← hs']
      clear hs'
      rw [← o2, ← o3]
      rw [← o5] at hn
      by_cases hf : s'.start + s'.pending.length = s'.size
      · rw [if_pos hf]
        have h0 := o6 hf
        by_cases hm : maxToken ≤ s'.size
        · rw [if_pos hm]
          dsimp only
          simp only [maxToken] at hm
          unfold Scanner.rest
          refine scan_long _ _ [] hn ?_ (by simp; omega)
          intro e; rw [e] at hf; simp at hf; omega
        · rw [if_neg hm]
          dsimp only
          simp only [maxToken] at hm
          have := read_ok (avail := avail) (s := { s' with size := min (if s'.size * 2 = 0 then 4096 else s'.size * 2) maxToken, start := 0 })
            ⟨?_, ?_, o1.ended⟩ ?_ o4
          · exact this
          · show 0 + s'.pending.length ≤ min _ 65536
            split <;> omega
          · show min _ 65536 ≤ 65536
            omega
          · show 0 + s'.pending.length < min _ 65536
            split <;> omega
      · rw [if_neg hf]
        dsimp only
        exact read_ok o1 (by have := o1.room; omega) o4

theorem loads_exists (avail : Nat → Nat) (n : Nat) : ∀ (l : Lang) (s : Scanner), s.Ok → s.work ≤ n →
    Loads avail l s (s.rest.1.foldl loadLine l, s.rest.2) := by
  induction n with
  | zero =>
    intro l s h hw
    have hi := iteration_ok avail h
    cases e : s.iteration avail with
    | token t s' => rw [e] at hi; have := hi.2.2; omega
    | stop b => rw [e] at hi; dsimp only at hi; rw [hi]; exact .stop e
    | again s' => rw [e] at hi; have := hi.2.2; omega
  | succ n ih =>
    intro l s h hw
    have hi := iteration_ok avail h
    cases e : s.iteration avail with
    | token t s' =>
      rw [e] at hi
      obtain ⟨h1, h2, h3⟩ := hi
      rw [h2]
      exact .token e (ih _ _ h1 (by omega))
    | stop b => rw [e] at hi; dsimp only at hi; rw [hi]; exact .stop e
    | again s' =>
      rw [e] at hi
      obtain ⟨h1, h2, h3⟩ := hi
      rw [← h2]
      exact .again e (ih _ _ h1 (by omega))

theorem loads_unique {avail : Nat → Nat} {l : Lang} {s : Scanner} {r r' : Lang × Bool} (h : Loads avail l s r) (h' : Loads avail l s r') :
    r = r' := by
  induction h generalizing r' with
  | token e _ ih =>
    cases h' with
    | token e' h' => rw [e] at e'; cases e'; exact ih h'
    | stop e' => rw [e] at e'; cases e'
    | again e' h' => rw [e] at e'; cases e'
  | stop e =>
    cases h' with
    | token e' h' => rw [e] at e'; cases e'
    | stop e' => rw [e] at e'; cases e'; rfl
    | again e' h' => rw [e] at e'; cases e'
  | again e _ ih =>
    cases h' with
    | token e' h' => rw [e] at e'; cases e'
    | stop e' => rw [e] at e'; cases e'
    | again e' h' => rw [e] at e'; cases e'; exact ih h'

end Xcore.Language
