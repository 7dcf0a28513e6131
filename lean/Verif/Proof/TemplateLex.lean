import Verif.Spec.Template

/-! # The lexer -/

namespace Xcore.Template

/-- A statement about all bytes. -/
theorem byte_forall {P : UInt8 → Prop} (h : ∀ n, n < 256 → P (UInt8.ofNat n)) (c : UInt8) : P c := by
  have := h c.toNat c.toNat_lt
  rwa [UInt8.ofNat_toNat] at this

theorem langClass_iff (c : UInt8) : langClass c = true ↔ LangChar c := by
  unfold LangChar
  refine byte_forall (P := fun c => langClass c = true ↔ c ∈ (_ : Str)) ?_ c
  decide +kernel

theorem boxClass_iff (c : UInt8) : boxClass c = true ↔ BoxChar c := by
  unfold BoxChar
  refine byte_forall (P := fun c => boxClass c = true ↔ c ∈ (_ : Str)) ?_ c
  decide +kernel

theorem elemClass_iff (c : UInt8) : elemClass c = true ↔ ElemChar c := by
  unfold ElemChar elemClass
  rw [← langClass_iff]
  simp [or_assoc]

theorem isPrefixOf_iff' {p s : Str} : p.isPrefixOf s = true ↔ p <+: s := List.isPrefixOf_iff_prefix

theorem takeWhile_append_stop {cls : UInt8 → Bool} {d r : Str} (hd : ∀ c ∈ d, cls c = true) (hr : ∀ c r', r = c :: r' → cls c = false) :
    (d ++ r).takeWhile cls = d := by
  induction d with
  | nil =>
    cases r with
    | nil => rfl
    | cons c r' => simp [hr c r' rfl]
  | cons c d ih =>
    simp only [List.cons_append, List.takeWhile, hd c (by simp)]
    rw [ih fun c hc => hd c (by simp [hc])]

/-- An element between delimiters. -/
theorem elementAt_iff {op cl : Str} {k : Kind} {cls : UInt8 → Bool} {s : Str} {r : Param × Nat}
    (hcl : ∃ c cl', cl = c :: cl' ∧ cls c = false) :
    elementAt op cl k cls s = some r ↔
      ∃ d rest, s = op ++ d ++ cl ++ rest ∧ d ≠ [] ∧ (∀ c ∈ d, cls c = true) ∧ r = (⟨k, d⟩, op.length + d.length + cl.length) := by
  unfold elementAt
  constructor
  · intro h
    split at h
    case isFalse => cases h
    rename_i hop
    simp only at h
    split at h
    case isFalse => cases h
    rename_i hd
    obtain ⟨s1, rfl⟩ := isPrefixOf_iff'.1 hop
    rw [List.drop_left] at hd h
    have e2 : (op ++ s1).drop (op.length + (s1.takeWhile cls).length) = s1.dropWhile cls := by
      rw [← List.drop_drop, List.drop_left]
      have h1 := List.takeWhile_append_dropWhile (p := cls) (l := s1)
      conv => lhs; arg 2; rw [← h1]
      rw [List.drop_left]
    rw [e2] at hd
    obtain ⟨rest, hrest⟩ := isPrefixOf_iff'.1 hd.2
    refine ⟨s1.takeWhile cls, rest, ?_, hd.1, ?_, ?_⟩
    · have h1 := List.takeWhile_append_dropWhile (p := cls) (l := s1)
      rw [← hrest] at h1
      conv => lhs; rw [← h1]
      simp
    · intro c hc; exact List.all_eq_true.1 (List.all_takeWhile) c hc
    · simpa using h.symm
  · rintro ⟨d, rest, rfl, hd, hc, rfl⟩
    obtain ⟨c, cl', rfl, hcc⟩ := hcl
    have hp : op.isPrefixOf (op ++ d ++ c :: cl' ++ rest) = true := isPrefixOf_iff'.2 ⟨d ++ c :: cl' ++ rest, by simp⟩
    rw [if_pos hp]
    have ht : ((op ++ d ++ c :: cl' ++ rest).drop op.length).takeWhile cls = d := by
      rw [show op ++ d ++ c :: cl' ++ rest = op ++ (d ++ (c :: cl' ++ rest)) by simp, List.drop_left]
      exact takeWhile_append_stop hc (by intro x r' e; simp at e; rw [← e.1]; exact hcc)
    simp only [ht]
    rw [if_pos]
    refine ⟨hd, isPrefixOf_iff'.2 ⟨rest, ?_⟩⟩
    rw [show op ++ d ++ c :: cl' ++ rest = (op ++ d) ++ (c :: cl' ++ rest) by simp, show op.length + d.length = (op ++ d).length by simp,
      List.drop_left]

theorem untilClose_iff {s d : Str} : untilClose s = some d ↔ ∃ rest, s = d ++ b!"--%" ++ rest ∧ ¬ b!"--%" <:+: d ++ b!"--" := by
  induction s generalizing d with
  | nil => simp [untilClose]
  | cons c s ih =>
    unfold untilClose
    split
    · rename_i h
      obtain ⟨r, hr⟩ := isPrefixOf_iff'.1 h
      constructor
      · rintro ⟨rfl⟩
        exact ⟨r, by simpa using hr.symm, by decide⟩
      · rintro ⟨rest, he, hn⟩
        cases d with
        | nil => rfl
        | cons c' d =>
          exfalso; apply hn
          rw [he] at hr
          -- the first three characters of `c' :: d ++ "--%"` are `--%`
          match d with
          | [] => simp at hr
          | [x] => simp at hr
          | x :: y :: d =>
            simp at hr
            obtain ⟨rfl, rfl, rfl, _⟩ := hr
            exact ⟨[], d ++ b!"--", by simp⟩
    · rename_i h
      constructor
      · intro hm
        obtain ⟨d', hd', rfl⟩ := Option.map_eq_some_iff.1 hm
        obtain ⟨rest, rfl, hn⟩ := ih.1 hd'
        refine ⟨rest, by simp, ?_⟩
        rintro ⟨a, b, hab⟩
        cases a with
        | nil =>
          apply h
          refine isPrefixOf_iff'.2 ?_
          match d', hab with
          | [], hab => simp at hab
          | [x], hab => simp at hab
          | x :: y :: d, hab => simp at hab; obtain ⟨rfl, rfl, rfl, _⟩ := hab; exact ⟨_, rfl⟩
        | cons c2 a =>
          simp at hab
          exact hn ⟨a, b, by simpa using hab.2⟩
      · rintro ⟨rest, he, hn⟩
        cases d with
        | nil =>
          exfalso; apply h
          exact isPrefixOf_iff'.2 ⟨rest, by simpa using he.symm⟩
        | cons c' d =>
          simp at he
          obtain ⟨rfl, rfl⟩ := he
          have : untilClose (d ++ 45 :: 45 :: 37 :: rest) = some d := ih.2 ⟨rest, by simp, fun hi => hn (by
            obtain ⟨a, b, hab⟩ := hi
            exact ⟨c :: a, b, by simpa using hab⟩)⟩
          simp [this]

theorem eol_le (s : Str) : eol s ≤ s.length := by
  cases s with
  | nil => simp [eol]
  | cons c s => simp only [eol]; split <;> simp

/-- What `eol` takes. -/
theorem taken_eol {k : Kind} (hk : Swallows k) (s : Str) : Taken k (s.take (eol s)) (s.drop (eol s)) := by
  cases s with
  | nil => exact .inl ⟨rfl, fun _ c r e => by simp [eol] at e⟩
  | cons c s =>
    simp only [eol]
    split
    · rename_i h; exact .inr ⟨hk, c, h, by simp⟩
    · rename_i h; exact .inl ⟨rfl, fun _ c' r e => by simp at e; rw [← e.1]; exact h⟩

theorem eol_of_taken {k : Kind} (hk : Swallows k) {e rest : Str} (h : Taken k e rest) : eol (e ++ rest) = e.length := by
  rcases h with ⟨rfl, h⟩ | ⟨_, c, hc, rfl⟩
  · cases rest with
    | nil => rfl
    | cons c r => simp [eol]; simpa [IsEol] using h hk c r rfl
  · simp only [List.cons_append, List.nil_append, eol, List.length_singleton]; exact if_pos hc

theorem commentAt_iff {s : Str} {r : Param × Nat} :
    commentAt s = some r ↔ ∃ d rest, s = b!"%--" ++ d ++ b!"--%" ++ rest ∧ (¬ b!"--%" <:+: d ++ b!"--") ∧
      r = (⟨.comment, d⟩, d.length + 6 + eol rest) := by
  unfold commentAt
  have key : ∀ d rest : Str, (b!"%--" ++ d ++ b!"--%" ++ rest).drop (d.length + 6) = rest := by
    intro d rest
    rw [show d.length + 6 = (b!"%--" ++ d ++ b!"--%").length by simp <;> omega, List.drop_left]
  constructor
  · intro h
    split at h
    case isFalse => cases h
    rename_i hop
    obtain ⟨s1, rfl⟩ := isPrefixOf_iff'.1 hop
    obtain ⟨d, hd, rfl⟩ := Option.map_eq_some_iff.1 h
    obtain ⟨rest, hrest, hn⟩ := untilClose_iff.1 hd
    have hrest : s1 = d ++ b!"--%" ++ rest := hrest
    subst hrest
    refine ⟨d, rest, by simp, hn, ?_⟩
    have := key d rest
    rw [show b!"%--" ++ (d ++ b!"--%" ++ rest) = b!"%--" ++ d ++ b!"--%" ++ rest by simp, this]
  · rintro ⟨d, rest, rfl, hn, rfl⟩
    have hp : (b!"%--").isPrefixOf (b!"%--" ++ d ++ b!"--%" ++ rest) = true := isPrefixOf_iff'.2 ⟨d ++ b!"--%" ++ rest, by simp⟩
    rw [if_pos hp]
    have : untilClose ((b!"%--" ++ d ++ b!"--%" ++ rest).drop 3) = some d := untilClose_iff.2 ⟨rest, by simp, hn⟩
    rw [this, Option.map_some, key]

theorem stopAt_iff {s : Str} {r : Param × Nat} :
    stopAt s = some r ↔ ∃ rest, s = b!"[[]]" ++ rest ∧ r = (⟨.stop, []⟩, 4 + eol rest) := by
  unfold stopAt
  constructor
  · intro h
    split at h
    case isFalse => cases h
    rename_i hop
    obtain ⟨s1, rfl⟩ := isPrefixOf_iff'.1 hop
    exact ⟨s1, rfl, by simpa using h.symm⟩
  · rintro ⟨rest, rfl, rfl⟩
    rw [if_pos (isPrefixOf_iff'.2 ⟨rest, rfl⟩)]; rfl

theorem startAt_iff {s : Str} {r : Param × Nat} :
    startAt s = some r ↔ ∃ d rest, s = b!"[[" ++ d ++ b!"]]" ++ rest ∧ d ≠ [] ∧ (∀ c ∈ d, boxClass c = true) ∧
      r = (⟨.start, d⟩, d.length + 4 + eol rest) := by
  unfold startAt
  have key : ∀ d rest : Str, (b!"[[" ++ d ++ b!"]]" ++ rest).drop (2 + d.length + 2) = rest := by
    intro d rest
    rw [show 2 + d.length + 2 = (b!"[[" ++ d ++ b!"]]").length by simp <;> omega, List.drop_left]
  constructor
  · intro h
    obtain ⟨q, hq, rfl⟩ := Option.map_eq_some_iff.1 h
    obtain ⟨d, rest, rfl, hd, hc, rfl⟩ := (elementAt_iff ⟨93, [93], rfl, by decide⟩).1 hq
    refine ⟨d, rest, rfl, hd, hc, ?_⟩
    have := key d rest
    show (_, 2 + d.length + 2 + eol (List.drop (2 + d.length + 2) _)) = _
    rw [this, show 2 + d.length + 2 = d.length + 4 by omega]
  · rintro ⟨d, rest, rfl, hd, hc, rfl⟩
    have : elementAt b!"[[" b!"]]" .start boxClass (b!"[[" ++ d ++ b!"]]" ++ rest) = some (⟨.start, d⟩, 2 + d.length + 2) :=
      (elementAt_iff ⟨93, [93], rfl, by decide⟩).2 ⟨d, rest, rfl, hd, hc, rfl⟩
    rw [this]
    show some (_, 2 + d.length + 2 + eol (List.drop (2 + d.length + 2) _)) = _
    rw [key, show 2 + d.length + 2 = d.length + 4 by omega]

/-- An element of the simple kinds: how the model and the grammar see it. -/
theorem elem_simple {op cl : Str} {k : Kind} {cls : UInt8 → Bool} {ok : UInt8 → Prop} {s : Str} {p : Param} {n : Nat}
    (hcl : ∃ c cl', cl = c :: cl' ∧ cls c = false) (hok : ∀ c, cls c = true ↔ ok c) (hk : ¬ Swallows k)
    (hlen : 2 ≤ op.length) (hlen2 : 1 ≤ cl.length)
    (hE : ∀ d, Word ok d → Elem (op ++ d ++ cl) ⟨k, d⟩) (h : elementAt op cl k cls s = some (p, n)) :
    ∃ rest, MetaAt s p rest ∧ s.length = n + rest.length ∧ 4 ≤ n := by
  obtain ⟨d, rest, rfl, hd, hc, he⟩ := (elementAt_iff hcl).1 h
  cases he
  have : 1 ≤ d.length := List.length_pos_iff.2 hd
  refine ⟨rest, ⟨_, [], hE d ⟨hd, fun c hc' => (hok c).1 (hc c hc')⟩, by simp, .inl ⟨rfl, fun hs => absurd hs hk⟩⟩, by simp <;> omega, by omega⟩

theorem swallow_meta {src rest : Str} {p : Param} {n : Nat} (he : Elem src p) (hk : Swallows p.kind) (hn : n = src.length + eol rest)
    (h4 : 4 ≤ src.length) : ∃ rest', MetaAt (src ++ rest) p rest' ∧ (src ++ rest).length = n + rest'.length ∧ 4 ≤ n := by
  have := eol_le rest
  refine ⟨rest.drop (eol rest), ⟨src, rest.take (eol rest), he, by simp, taken_eol hk rest⟩, ?_, by omega⟩
  simp <;> omega

/-- Every match is a meta element of the grammar. -/
theorem matchAt_some {s : Str} {p : Param} {n : Nat} (h : matchAt s = some (p, n)) :
    ∃ rest, MetaAt s p rest ∧ s.length = n + rest.length ∧ 4 ≤ n := by
  unfold matchAt at h
  simp only [Option.or_eq_some_iff] at h
  rcases h with h | ⟨_, h | ⟨_, h | ⟨_, h | ⟨_, h | ⟨_, h | ⟨_, h | ⟨_, h | ⟨_, h⟩⟩⟩⟩⟩⟩⟩⟩
  · obtain ⟨d, rest, rfl, hn, he⟩ := commentAt_iff.1 h
    cases he
    exact swallow_meta (.comment hn) (.inl rfl) (by simp <;> omega) (by simp <;> omega)
  · exact elem_simple ⟨35, [35], rfl, by decide⟩ langClass_iff (by simp [Swallows]) (by decide) (by decide) (fun d h => .language h) h
  · exact elem_simple ⟨38, [38], rfl, by decide⟩ elemClass_iff (by simp [Swallows]) (by decide) (by decide) (fun d h => .reference h) h
  · exact elem_simple ⟨64, [64], rfl, by decide⟩ elemClass_iff (by simp [Swallows]) (by decide) (by decide) (fun d h => .range h) h
  · exact elem_simple ⟨63, [63], rfl, by decide⟩ elemClass_iff (by simp [Swallows]) (by decide) (by decide) (fun d h => .condition h) h
  · exact elem_simple ⟨33, [33], rfl, by decide⟩ elemClass_iff (by simp [Swallows]) (by decide) (by decide) (fun d h => .dump h) h
  · exact elem_simple ⟨125, [125], rfl, by decide⟩ elemClass_iff (by simp [Swallows]) (by decide) (by decide) (fun d h => .variable h) h
  · obtain ⟨rest, rfl, he⟩ := stopAt_iff.1 h
    cases he
    exact swallow_meta .stop (.inr (.inr rfl)) (by simp) (by simp)
  · obtain ⟨d, rest, rfl, hd, hc, he⟩ := startAt_iff.1 h
    cases he
    exact swallow_meta (.start ⟨hd, fun c h => (boxClass_iff c).1 (hc c h)⟩) (.inr (.inl rfl)) (by simp <;> omega)
      (by have := List.length_pos_iff.2 hd; simp <;> omega)

theorem elementAt_none {op cl : Str} {k : Kind} {cls : UInt8 → Bool} {s : Str} (h : ¬ op <+: s) : elementAt op cl k cls s = none := by
  unfold elementAt; rw [if_neg fun h' => h (isPrefixOf_iff'.1 h')]

theorem commentAt_none {s : Str} (h : ¬ b!"%--" <+: s) : commentAt s = none := by
  unfold commentAt; rw [if_neg fun h' => h (isPrefixOf_iff'.1 h')]

theorem stopAt_none {s : Str} (h : ¬ b!"[[]]" <+: s) : stopAt s = none := by
  unfold stopAt; rw [if_neg fun h' => h (isPrefixOf_iff'.1 h')]

theorem simple_match {op cl : Str} {k : Kind} {cls : UInt8 → Bool} {ok : UInt8 → Prop} {d e rest : Str}
    (hcl : ∃ c cl', cl = c :: cl' ∧ cls c = false) (hok : ∀ c, cls c = true ↔ ok c) (hk : ¬ Swallows k) (hw : Word ok d)
    (ht : Taken k e rest) :
    elementAt op cl k cls (op ++ d ++ cl ++ e ++ rest) = some (⟨k, d⟩, (op ++ d ++ cl ++ e ++ rest).length - rest.length) := by
  rcases ht with ⟨rfl, _⟩ | ⟨h, _⟩
  · refine (elementAt_iff hcl).2 ⟨d, rest, by simp, hw.1, fun c hc => (hok c).2 (hw.2 c hc), ?_⟩
    simp <;> omega
  · exact absurd h hk

/-- Every meta element of the grammar is matched. -/
theorem metaAt_match {s rest : Str} {p : Param} (h : MetaAt s p rest) : matchAt s = some (p, s.length - rest.length) := by
  obtain ⟨src, e, he, rfl, ht⟩ := h
  unfold matchAt
  cases he with
  | comment hn =>
    rename_i d
    have h1 : commentAt (b!"%--" ++ d ++ b!"--%" ++ e ++ rest) = some (⟨.comment, d⟩, (b!"%--" ++ d ++ b!"--%" ++ e ++ rest).length - rest.length) :=
      commentAt_iff.2 ⟨d, e ++ rest, by simp, hn, by rw [eol_of_taken (.inl rfl) ht]; simp <;> omega⟩
    rw [h1]; rfl
  | language hw =>
    rw [commentAt_none (by simp), simple_match ⟨35, [35], rfl, by decide⟩ langClass_iff (by simp [Swallows]) hw ht]; rfl
  | reference hw =>
    rw [commentAt_none (by simp), elementAt_none (by simp), simple_match ⟨38, [38], rfl, by decide⟩ elemClass_iff (by simp [Swallows]) hw ht]; rfl
  | range hw =>
    rw [commentAt_none (by simp), elementAt_none (by simp), elementAt_none (by simp),
      simple_match ⟨64, [64], rfl, by decide⟩ elemClass_iff (by simp [Swallows]) hw ht]; rfl
  | condition hw =>
    rw [commentAt_none (by simp), elementAt_none (by simp), elementAt_none (by simp), elementAt_none (by simp),
      simple_match ⟨63, [63], rfl, by decide⟩ elemClass_iff (by simp [Swallows]) hw ht]; rfl
  | dump hw =>
    rw [commentAt_none (by simp), elementAt_none (by simp), elementAt_none (by simp), elementAt_none (by simp), elementAt_none (by simp),
      simple_match ⟨33, [33], rfl, by decide⟩ elemClass_iff (by simp [Swallows]) hw ht]; rfl
  | «variable» hw =>
    rw [commentAt_none (by simp), elementAt_none (by simp), elementAt_none (by simp), elementAt_none (by simp), elementAt_none (by simp),
      elementAt_none (by simp), simple_match ⟨125, [125], rfl, by decide⟩ elemClass_iff (by simp [Swallows]) hw ht]; rfl
  | stop =>
    have h1 : stopAt (b!"[[]]" ++ e ++ rest) = some (⟨.stop, []⟩, (b!"[[]]" ++ e ++ rest).length - rest.length) :=
      stopAt_iff.2 ⟨e ++ rest, by simp, by rw [eol_of_taken (.inr (.inr rfl)) ht]; simp <;> omega⟩
    rw [commentAt_none (by simp), elementAt_none (by simp), elementAt_none (by simp), elementAt_none (by simp), elementAt_none (by simp),
      elementAt_none (by simp), elementAt_none (by simp), h1]; rfl
  | start hw =>
    rename_i d
    have h1 : startAt (b!"[[" ++ d ++ b!"]]" ++ e ++ rest) = some (⟨.start, d⟩, (b!"[[" ++ d ++ b!"]]" ++ e ++ rest).length - rest.length) :=
      startAt_iff.2 ⟨d, e ++ rest, by simp, hw.1, fun c hc => (boxClass_iff c).2 (hw.2 c hc),
        by rw [eol_of_taken (.inr (.inl rfl)) ht]; simp <;> omega⟩
    have h2 : ¬ b!"[[]]" <+: b!"[[" ++ d ++ b!"]]" ++ e ++ rest := by
      obtain ⟨hne, hc⟩ := hw
      match d, hne, hc with
      | c :: d, _, hc =>
        have : c ≠ 93 := by
          rintro rfl
          have := (boxClass_iff 93).2 (hc 93 (by simp))
          revert this; decide
        simp
        intro h; exact absurd h.symm this
    rw [commentAt_none (by simp), elementAt_none (by simp), elementAt_none (by simp), elementAt_none (by simp), elementAt_none (by simp),
      elementAt_none (by simp), elementAt_none (by simp), stopAt_none h2, h1]; rfl

theorem matchAt_none {s : Str} (h : matchAt s = none) : ¬ ∃ p r, MetaAt s p r := by
  rintro ⟨p, r, hm⟩
  rw [metaAt_match hm] at h; cases h

theorem findAll_skip (k pos : Nat) (s : Str) (h : k ≤ s.length) : findAll k pos s = findAll 0 (pos + k) (s.drop k) := by
  induction k generalizing pos s with
  | zero => rfl
  | succ k ih =>
    cases s with
    | nil => simp at h
    | cons c s =>
      rw [findAll, ih _ _ (by simpa using h)]
      simp [Nat.add_assoc, Nat.add_comm 1 k]

/-- The first pass reads the text: `lit` has been passed since the last match. -/
theorem firstPass_reads (n : Nat) : ∀ (s pre lit : Str), s.length ≤ n →
    (∀ t₁ t₂, lit = t₁ ++ t₂ → t₂ ≠ [] → ¬ ∃ p r, MetaAt (t₂ ++ s) p r) →
    ∃ l, Reads (lit ++ s) l ∧
      firstPass (pre ++ lit ++ s) pre.length (findAll 0 (pre.length + lit.length) s) = l.map Prod.snd := by
  have stop : ∀ (pre lit : Str), (∀ t₁ t₂, lit = t₁ ++ t₂ → t₂ ≠ [] → ¬ ∃ p r, MetaAt (t₂ ++ []) p r) →
      ∃ l, Reads (lit ++ []) l ∧ firstPass (pre ++ lit ++ []) pre.length [] = l.map Prod.snd := by
    intro pre lit hl
    by_cases hlit : lit = []
    · subst hlit; exact ⟨[], .nil, by simp [firstPass]⟩
    · refine ⟨[(lit, ⟨.string, lit⟩)], .text hlit hl (.inl rfl) .nil, ?_⟩
      have : 0 < lit.length := List.length_pos_iff.2 hlit
      rw [firstPass, if_pos (by simp; omega)]
      simp
  induction n with
  | zero =>
    intro s pre lit hs hl
    have : s = [] := List.length_eq_zero_iff.1 (by omega)
    subst this
    exact stop pre lit hl
  | succ n ih =>
    intro s pre lit hs hl
    cases s with
    | nil => exact stop pre lit hl
    | cons c s =>
      rw [findAll]
      cases hm : matchAt (c :: s) with
      | none =>
        obtain ⟨l, hr, he⟩ := ih s pre (lit ++ [c]) (by simpa using hs) (by
          intro t₁ t₂ e ht
          rcases List.eq_nil_or_concat t₂ with rfl | ⟨t, x, rfl⟩
          · exact absurd rfl ht
          · rw [List.concat_eq_append, ← List.append_assoc] at e
            obtain ⟨e1, e2⟩ := List.append_inj' e rfl
            cases e2
            by_cases h0 : t = []
            · subst h0; simpa using matchAt_none hm
            · have := hl t₁ t e1 h0
              simpa using this)
        refine ⟨l, by simpa using hr, ?_⟩
        simp only [List.append_assoc, List.length_append, List.length_singleton, List.singleton_append, Nat.add_assoc] at he ⊢
        exact he
      | some r =>
        obtain ⟨p, k⟩ := r
        obtain ⟨rest, hmeta, hlen, h4⟩ := matchAt_some hm
        obtain ⟨src0, e0, he0, hsplit, htaken⟩ := hmeta
        have hmeta : MetaAt (c :: s) p rest := ⟨src0, e0, he0, hsplit, htaken⟩
        have hk : (src0 ++ e0).length = k := by rw [hsplit] at hlen; simp at hlen ⊢; omega
        generalize hsrc : src0 ++ e0 = src at hsplit hk
        have hdrop : (c :: s).drop k = rest := by rw [hsplit, ← hk, List.drop_left]
        obtain ⟨l, hr, he⟩ := ih rest (pre ++ lit ++ src) [] (by simp at hlen hs; omega) (by simp)
        have hfind : findAll (k - 1) (pre.length + lit.length + 1) s = findAll 0 (pre.length + lit.length + k) rest := by
          rw [findAll_skip _ _ _ (by simp at hlen; omega), ← hdrop]
          obtain ⟨j, rfl⟩ : ∃ j, k = j + 1 := ⟨k - 1, by omega⟩
          simp [Nat.add_assoc, Nat.add_comm 1 j]
        have hfp : firstPass (pre ++ lit ++ (c :: s)) (pre.length + lit.length + k) (findAll 0 (pre.length + lit.length + k) rest) = l.map Prod.snd := by
          simp only [List.append_nil, List.length_append, List.length_nil, Nat.add_zero, hk] at he
          rw [hsplit, ← List.append_assoc]; exact he
        simp only [hfind, firstPass, hfp]
        have hrest : Reads (c :: s) ((src, p) :: l) := by
          rw [hsplit]; refine .elem ?_ (by simpa using hr)
          rw [← hsplit]; exact hmeta
        by_cases hlit : lit = []
        · subst hlit
          exact ⟨_, by simpa using hrest, by simp⟩
        · have : 0 < lit.length := List.length_pos_iff.2 hlit
          refine ⟨(lit, ⟨.string, lit⟩) :: (src, p) :: l, .text hlit hl (.inr ⟨p, rest, hmeta⟩) hrest, ?_⟩
          rw [if_pos (by omega)]
          have : ((pre ++ lit ++ (c :: s)).take (pre.length + lit.length)).drop pre.length = lit := by
            rw [show pre.length + lit.length = (pre ++ lit).length by simp, List.take_left, List.drop_left]
          rw [this]; rfl

theorem elem_ne_nil {src : Str} {p : Param} (h : Elem src p) : src ≠ [] := by cases h <;> simp

theorem metaAt_ne_nil {s r : Str} {p : Param} (h : MetaAt s p r) : s ≠ [] := by
  obtain ⟨src, e, he, rfl, _⟩ := h
  have := elem_ne_nil he
  simp [this]

/-- Lexing is the reading of the text. -/
theorem lex_reads (data : Str) : ∃ l, Reads data l ∧ lex data = l.map Prod.snd := by
  have := firstPass_reads data.length data [] [] (Nat.le_refl _) (by simp)
  simpa [lex] using this

/-- A text can be read in one way only. -/
theorem reads_unique {s : Str} {l l' : List (Str × Param)} (h : Reads s l) (h' : Reads s l') : l = l' := by
  induction h generalizing l' with
  | nil =>
    generalize e : ([] : Str) = s at h'
    cases h' with
    | nil => rfl
    | elem hm _ => exact absurd e.symm (metaAt_ne_nil hm)
    | text ht _ _ _ => simp at e; exact absurd e.1 ht
  | @elem src rest p l hm hr ih =>
    generalize e : src ++ rest = s at h'
    cases h' with
    | nil => exact absurd e (metaAt_ne_nil hm)
    | @elem src' rest' p' l' hm' hr' =>
      have h1 := metaAt_match hm
      have h2 := metaAt_match hm'
      rw [e, h2] at h1
      simp only [Option.some.injEq, Prod.mk.injEq] at h1
      have hl : src.length = src'.length := by
        have := congrArg List.length e
        simp at this h1
        omega
      obtain ⟨rfl, rfl⟩ := List.append_inj e hl
      rw [h1.1, ih hr']
    | @text t rest' l' ht hn _ _ =>
      exfalso
      apply hn [] t rfl ht
      rw [← e]; exact ⟨p, rest, hm⟩
  | @text t rest l ht hn hr hrest ih =>
    generalize e : t ++ rest = s at h'
    cases h' with
    | nil => simp at e; exact absurd e.1 ht
    | @elem src' rest' p' l' hm' hr' =>
      exfalso
      apply hn [] t rfl ht
      rw [e]; exact ⟨p', rest', hm'⟩
    | @text t' rest' l' ht' hn' hr' hrest' =>
      have key : ∀ {t t' rest rest' : Str}, t ++ rest = t' ++ rest' → (rest = [] ∨ ∃ p r, MetaAt rest p r) →
          (∀ t₁ t₂, t' = t₁ ++ t₂ → t₂ ≠ [] → ¬ ∃ p r, MetaAt (t₂ ++ rest') p r) → ¬ t.length < t'.length := by
        intro t t' rest rest' e hr hn hlt
        obtain ⟨u, hu⟩ : ∃ u, t' = t ++ u := by
          have : t <+: t' := List.prefix_of_prefix_length_le (l₃ := t ++ rest) ⟨rest, rfl⟩ ⟨rest', e.symm⟩ (by omega)
          obtain ⟨u, hu⟩ := this
          exact ⟨u, hu.symm⟩
        subst hu
        have hr2 : rest = u ++ rest' := by simpa using e
        have hu : u ≠ [] := by rintro rfl; simp at hlt
        rcases hr with rfl | hr
        · simp at hr2; exact hu hr2.1
        · exact hn t u rfl hu (hr2 ▸ hr)
      have h1 := key e hr hn'
      have h2 := key e.symm hr' hn
      obtain ⟨rfl, rfl⟩ := List.append_inj e (by omega)
      rw [ih hrest']

theorem reads_concat {s : Str} {l : List (Str × Param)} (h : Reads s l) : (l.map Prod.fst).flatten = s := by
  induction h with
  | nil => rfl
  | elem _ _ ih => simp [ih]
  | text _ _ _ _ ih => simp [ih]

/-- The lexer gives exactly the reading of the text. -/
theorem lex_eq {s : Str} {l : List (Str × Param)} (h : Reads s l) : lex s = l.map Prod.snd := by
  obtain ⟨l', h', e⟩ := lex_reads s
  rw [e, reads_unique h' h]

end Xcore.Template
