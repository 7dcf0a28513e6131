import Verif.Spec.V1.Template
import Verif.Proof.TemplateCompile

/-! # The lexer of version 1 -/

namespace Xcore.V1.Template

open Xcore.Template (Kind Param Doc eol commentAt stopAt startAt Match firstPass Taken Swallows IsEol Word BoxChar boxClass boxClass_iff
  isPrefixOf_iff' eol_le taken_eol eol_of_taken commentAt_iff stopAt_iff startAt_iff commentAt_none stopAt_none Lexed)

/-- Up to the first delimiter. -/
theorem untilDelim_iff {cl : Str} (hcl : cl ≠ []) {s d : Str} : untilDelim cl s = some d ↔
    ∃ rest, s = d ++ cl ++ rest ∧ ∀ u v, d ++ cl = u ++ cl ++ v → v = [] := by
  induction s generalizing d with
  | nil => simp [untilDelim, hcl]
  | cons c s ih =>
    unfold untilDelim
    split
    · rename_i hp
      obtain ⟨r, hr⟩ := isPrefixOf_iff'.1 hp
      constructor
      · rintro ⟨rfl⟩
        refine ⟨r, by simpa using hr.symm, fun u v e => ?_⟩
        have := congrArg List.length e
        simp at this
        exact List.length_eq_zero_iff.1 (by omega)
      · rintro ⟨rest, he, hn⟩
        cases d with
        | nil => rfl
        | cons c' d =>
          exfalso
          have hpre : cl <+: c' :: d ++ cl := by
            refine List.prefix_of_prefix_length_le (l₃ := c :: s) ⟨r, hr⟩ ⟨rest, he.symm⟩ ?_
            simp <;> omega
          obtain ⟨v, hv⟩ := hpre
          have h0 := hn [] v (by simpa using hv.symm)
          subst h0
          have := congrArg List.length hv
          simp at this
          omega
    · rename_i hp
      constructor
      · intro hm
        obtain ⟨d', hd', rfl⟩ := Option.map_eq_some_iff.1 hm
        obtain ⟨rest, rfl, hn⟩ := ih.1 hd'
        refine ⟨rest, by simp, fun u v e => ?_⟩
        cases u with
        | nil =>
          exfalso
          apply hp
          refine isPrefixOf_iff'.2 ⟨v ++ rest, ?_⟩
          have : c :: (d' ++ cl ++ rest) = (c :: d' ++ cl) ++ rest := by simp
          rw [this, e]; simp
        | cons c2 u => simp at e; exact hn u v (by simpa using e.2)
      · rintro ⟨rest, he, hn⟩
        cases d with
        | nil => exact absurd (isPrefixOf_iff'.2 ⟨rest, by simpa using he.symm⟩) hp
        | cons c' d =>
          simp at he
          obtain ⟨rfl, rfl⟩ := he
          have : untilDelim cl (d ++ (cl ++ rest)) = some d := ih.2 ⟨rest, by simp, fun u v e => hn (c :: u) v (by simp at e ⊢; exact e)⟩
          simp [this]

/-- An element between delimiters. -/
theorem elementAt_iff {op cl : Str} {k : Kind} {s : Str} {r : Param × Nat} (hcl : cl ≠ []) :
    elementAt op cl k s = some r ↔
      ∃ d rest, s = op ++ d ++ cl ++ rest ∧ Closes cl d ∧ r = (⟨k, d⟩, op.length + d.length + cl.length) := by
  unfold elementAt
  constructor
  · intro h
    split at h
    case isFalse => cases h
    rename_i hop
    obtain ⟨s1, rfl⟩ := isPrefixOf_iff'.1 hop
    rw [List.drop_left] at h
    cases s1 with
    | nil => cases h
    | cons c s1 =>
      simp only at h
      obtain ⟨d, hd, rfl⟩ := Option.map_eq_some_iff.1 h
      obtain ⟨rest, rfl, hn⟩ := (untilDelim_iff hcl).1 hd
      refine ⟨c :: d, rest, by simp, ⟨by simp, fun u v e hu => ?_⟩, rfl⟩
      cases u with
      | nil => exact absurd rfl hu
      | cons c2 u => simp at e; exact hn u v (by simpa using e.2)
  · rintro ⟨d, rest, rfl, ⟨hd, hc⟩, rfl⟩
    have hp : op.isPrefixOf (op ++ d ++ cl ++ rest) = true := isPrefixOf_iff'.2 ⟨d ++ cl ++ rest, by simp⟩
    rw [if_pos hp]
    cases d with
    | nil => exact absurd rfl hd
    | cons c d =>
      rw [show op ++ (c :: d) ++ cl ++ rest = op ++ (c :: (d ++ cl ++ rest)) by simp, List.drop_left]
      simp only
      rw [(untilDelim_iff hcl).2 ⟨rest, rfl, fun u v e => hc (c :: u) v (by simp at e ⊢; exact e) (by simp)⟩]
      rfl

/-- An element of the simple kinds: how the model and the grammar see it. -/
theorem elem_simple {op cl : Str} {k : Kind} {s : Str} {p : Param} {n : Nat}
    (hcl : cl ≠ []) (hk : ¬ Swallows k) (hlen : 2 ≤ op.length) (hlen2 : 1 ≤ cl.length)
    (hE : ∀ d, Closes cl d → Elem (op ++ d ++ cl) ⟨k, d⟩) (h : elementAt op cl k s = some (p, n)) :
    ∃ rest, MetaAt s p rest ∧ s.length = n + rest.length ∧ 4 ≤ n := by
  obtain ⟨d, rest, rfl, hc, he⟩ := (elementAt_iff hcl).1 h
  cases he
  have : 1 ≤ d.length := List.length_pos_iff.2 hc.1
  refine ⟨rest, ⟨_, [], hE d hc, by simp, .inl ⟨rfl, fun hs => absurd hs hk⟩⟩, by simp <;> omega, by omega⟩

theorem swallow_meta {src rest : Str} {p : Param} {n : Nat} (he : Elem src p) (hk : Swallows p.kind) (hn : n = src.length + eol rest)
    (h4 : 4 ≤ src.length) : ∃ rest', MetaAt (src ++ rest) p rest' ∧ (src ++ rest).length = n + rest'.length ∧ 4 ≤ n := by
  have := eol_le rest
  refine ⟨rest.drop (eol rest), ⟨src, rest.take (eol rest), he, by simp, taken_eol hk rest⟩, ?_, by omega⟩
  simp <;> omega

/-- Every match is a meta element of the grammar. -/
theorem matchAt_some {s : Str} {p : Param} {n : Nat} (h : matchAt s = some (p, n)) :
    ∃ rest, MetaAt s p rest ∧ s.length = n + rest.length ∧ 4 ≤ n := by
  unfold matchAt at h
  simp only [Option.or_eq_some_iff] at h
  rcases h with h | ⟨_, h | ⟨_, h | ⟨_, h | ⟨_, h | ⟨_, h | ⟨_, h | ⟨_, h | ⟨_, h⟩⟩⟩⟩⟩⟩⟩⟩
  · obtain ⟨d, rest, rfl, hn, he⟩ := commentAt_iff.1 h
    cases he
    exact swallow_meta (.comment hn) (.inl rfl) (by simp <;> omega) (by simp <;> omega)
  · exact elem_simple (by decide) (by simp [Swallows]) (by decide) (by decide) (fun d h => .language h) h
  · exact elem_simple (by decide) (by simp [Swallows]) (by decide) (by decide) (fun d h => .reference h) h
  · exact elem_simple (by decide) (by simp [Swallows]) (by decide) (by decide) (fun d h => .range h) h
  · exact elem_simple (by decide) (by simp [Swallows]) (by decide) (by decide) (fun d h => .condition h) h
  · exact elem_simple (by decide) (by simp [Swallows]) (by decide) (by decide) (fun d h => .dump h) h
  · exact elem_simple (by decide) (by simp [Swallows]) (by decide) (by decide) (fun d h => .variable h) h
  · obtain ⟨rest, rfl, he⟩ := stopAt_iff.1 h
    cases he
    exact swallow_meta .stop (.inr (.inr rfl)) (by simp) (by simp)
  · obtain ⟨d, rest, rfl, hd, hc, he⟩ := startAt_iff.1 h
    cases he
    exact swallow_meta (.start ⟨hd, fun c h => (boxClass_iff c).1 (hc c h)⟩) (.inr (.inl rfl)) (by simp <;> omega)
      (by have := List.length_pos_iff.2 hd; simp <;> omega)

theorem elementAt_none {op cl : Str} {k : Kind} {s : Str} (h : ¬ op <+: s) : elementAt op cl k s = none := by
  unfold elementAt; rw [if_neg fun h' => h (isPrefixOf_iff'.1 h')]

theorem simple_match {op cl : Str} {k : Kind} {d e rest : Str} (hcl : cl ≠ []) (hk : ¬ Swallows k) (hw : Closes cl d) (ht : Taken k e rest) :
    elementAt op cl k (op ++ d ++ cl ++ e ++ rest) = some (⟨k, d⟩, (op ++ d ++ cl ++ e ++ rest).length - rest.length) := by
  rcases ht with ⟨rfl, _⟩ | ⟨h, _⟩
  · refine (elementAt_iff hcl).2 ⟨d, rest, by simp, hw, ?_⟩
    simp <;> omega
  · exact absurd h hk

/-- Every meta element of the grammar is matched. -/
theorem metaAt_match {s rest : Str} {p : Param} (h : MetaAt s p rest) : matchAt s = some (p, s.length - rest.length) := by
  obtain ⟨src, e, he, rfl, ht⟩ := h
  unfold matchAt
  cases he with
  | comment hn =>
    rename_i d
    have h1 : commentAt (b!"%--" ++ d ++ b!"--%" ++ e ++ rest) = some (⟨.comment, d⟩, (b!"%--" ++ d ++ b!"--%" ++ e ++ rest).length - rest.length) :=
      commentAt_iff.2 ⟨d, e ++ rest, by simp, hn, by rw [eol_of_taken (.inl rfl) ht]; simp <;> omega⟩
    rw [h1]; rfl
  | language hw =>
    rw [commentAt_none (by simp), simple_match (by decide) (by simp [Swallows]) hw ht]; rfl
  | reference hw =>
    rw [commentAt_none (by simp), elementAt_none (by simp), simple_match (by decide) (by simp [Swallows]) hw ht]; rfl
  | range hw =>
    rw [commentAt_none (by simp), elementAt_none (by simp), elementAt_none (by simp),
      simple_match (by decide) (by simp [Swallows]) hw ht]; rfl
  | condition hw =>
    rw [commentAt_none (by simp), elementAt_none (by simp), elementAt_none (by simp), elementAt_none (by simp),
      simple_match (by decide) (by simp [Swallows]) hw ht]; rfl
  | dump hw =>
    rw [commentAt_none (by simp), elementAt_none (by simp), elementAt_none (by simp), elementAt_none (by simp), elementAt_none (by simp),
      simple_match (by decide) (by simp [Swallows]) hw ht]; rfl
  | «variable» hw =>
    rw [commentAt_none (by simp), elementAt_none (by simp), elementAt_none (by simp), elementAt_none (by simp), elementAt_none (by simp),
      elementAt_none (by simp), simple_match (by decide) (by simp [Swallows]) hw ht]; rfl
  | stop =>
    have h1 : stopAt (b!"[[]]" ++ e ++ rest) = some (⟨.stop, []⟩, (b!"[[]]" ++ e ++ rest).length - rest.length) :=
      stopAt_iff.2 ⟨e ++ rest, by simp, by rw [eol_of_taken (.inr (.inr rfl)) ht]; simp <;> omega⟩
    rw [commentAt_none (by simp), elementAt_none (by simp), elementAt_none (by simp), elementAt_none (by simp), elementAt_none (by simp),
      elementAt_none (by simp), elementAt_none (by simp), h1]; rfl
  | start hw =>
    rename_i d
    have h1 : startAt (b!"[[" ++ d ++ b!"]]" ++ e ++ rest) = some (⟨.start, d⟩, (b!"[[" ++ d ++ b!"]]" ++ e ++ rest).length - rest.length) :=
      startAt_iff.2 ⟨d, e ++ rest, by simp, hw.1, fun c hc => (boxClass_iff c).2 (hw.2 c hc),
        by rw [eol_of_taken (.inr (.inl rfl)) ht]; simp <;> omega⟩
    have h2 : ¬ b!"[[]]" <+: b!"[[" ++ d ++ b!"]]" ++ e ++ rest := by
      obtain ⟨hne, hc⟩ := hw
      match d, hne, hc with
      | c :: d, _, hc =>
        have : c ≠ 93 := by
          rintro rfl
          have := (boxClass_iff 93).2 (hc 93 (by simp))
          revert this; decide
        simp
        intro h; exact absurd h.symm this
    rw [commentAt_none (by simp), elementAt_none (by simp), elementAt_none (by simp), elementAt_none (by simp), elementAt_none (by simp),
      elementAt_none (by simp), elementAt_none (by simp), stopAt_none h2, h1]; rfl

theorem matchAt_none {s : Str} (h : matchAt s = none) : ¬ ∃ p r, MetaAt s p r := by
  rintro ⟨p, r, hm⟩
  rw [metaAt_match hm] at h; cases h

theorem findAll_skip (k pos : Nat) (s : Str) (h : k ≤ s.length) : findAll k pos s = findAll 0 (pos + k) (s.drop k) := by
  induction k generalizing pos s with
  | zero => rfl
  | succ k ih =>
    cases s with
    | nil => simp at h
    | cons c s =>
      rw [findAll, ih _ _ (by simpa using h)]
      simp [Nat.add_assoc, Nat.add_comm 1 k]

/-- The first pass reads the text: `lit` has been passed since the last match. -/
theorem firstPass_reads (n : Nat) : ∀ (s pre lit : Str), s.length ≤ n →
    (∀ t₁ t₂, lit = t₁ ++ t₂ → t₂ ≠ [] → ¬ ∃ p r, MetaAt (t₂ ++ s) p r) →
    ∃ l, Reads (lit ++ s) l ∧
      firstPass (pre ++ lit ++ s) pre.length (findAll 0 (pre.length + lit.length) s) = l.map Prod.snd := by
  have stop : ∀ (pre lit : Str), (∀ t₁ t₂, lit = t₁ ++ t₂ → t₂ ≠ [] → ¬ ∃ p r, MetaAt (t₂ ++ []) p r) →
      ∃ l, Reads (lit ++ []) l ∧ firstPass (pre ++ lit ++ []) pre.length [] = l.map Prod.snd := by
    intro pre lit hl
    by_cases hlit : lit = []
    · subst hlit; exact ⟨[], .nil, by simp [firstPass]⟩
    · refine ⟨[(lit, ⟨.string, lit⟩)], .text hlit hl (.inl rfl) .nil, ?_⟩
      have : 0 < lit.length := List.length_pos_iff.2 hlit
      rw [firstPass, if_pos (by simp; omega)]
      simp
  induction n with
  | zero =>
    intro s pre lit hs hl
    have : s = [] := List.length_eq_zero_iff.1 (by omega)
    subst this
    exact stop pre lit hl
  | succ n ih =>
    intro s pre lit hs hl
    cases s with
    | nil => exact stop pre lit hl
    | cons c s =>
      rw [findAll]
      cases hm : matchAt (c :: s) with
      | none =>
        obtain ⟨l, hr, he⟩ := ih s pre (lit ++ [c]) (by simpa using hs) (by
          intro t₁ t₂ e ht
          rcases List.eq_nil_or_concat t₂ with rfl | ⟨t, x, rfl⟩
          · exact absurd rfl ht
          · rw [List.concat_eq_append, ← List.append_assoc] at e
            obtain ⟨e1, e2⟩ := List.append_inj' e rfl
            cases e2
            by_cases h0 : t = []
            · subst h0; simpa using matchAt_none hm
            · have := hl t₁ t e1 h0
              simpa using this)
        refine ⟨l, by simpa using hr, ?_⟩
        simp only [List.append_assoc, List.length_append, List.length_singleton, List.singleton_append, Nat.add_assoc] at he ⊢
        exact he
      | some r =>
        obtain ⟨p, k⟩ := r
        obtain ⟨rest, hmeta, hlen, h4⟩ := matchAt_some hm
        obtain ⟨src0, e0, he0, hsplit, htaken⟩ := hmeta
        have hmeta : MetaAt (c :: s) p rest := ⟨src0, e0, he0, hsplit, htaken⟩
        have hk : (src0 ++ e0).length = k := by rw [hsplit] at hlen; simp at hlen ⊢; omega
        generalize hsrc : src0 ++ e0 = src at hsplit hk
        have hdrop : (c :: s).drop k = rest := by rw [hsplit, ← hk, List.drop_left]
        obtain ⟨l, hr, he⟩ := ih rest (pre ++ lit ++ src) [] (by simp at hlen hs; omega) (by simp)
        have hfind : findAll (k - 1) (pre.length + lit.length + 1) s = findAll 0 (pre.length + lit.length + k) rest := by
          rw [findAll_skip _ _ _ (by simp at hlen; omega), ← hdrop]
          obtain ⟨j, rfl⟩ : ∃ j, k = j + 1 := ⟨k - 1, by omega⟩
          simp [Nat.add_assoc, Nat.add_comm 1 j]
        have hfp : firstPass (pre ++ lit ++ (c :: s)) (pre.length + lit.length + k) (findAll 0 (pre.length + lit.length + k) rest) = l.map Prod.snd := by
          simp only [List.append_nil, List.length_append, List.length_nil, Nat.add_zero, hk] at he
          rw [hsplit, ← List.append_assoc]; exact he
        simp only [hfind, firstPass, hfp]
        have hrest : Reads (c :: s) ((src, p) :: l) := by
          rw [hsplit]; refine .elem ?_ (by simpa using hr)
          rw [← hsplit]; exact hmeta
        by_cases hlit : lit = []
        · subst hlit
          exact ⟨_, by simpa using hrest, by simp⟩
        · have : 0 < lit.length := List.length_pos_iff.2 hlit
          refine ⟨(lit, ⟨.string, lit⟩) :: (src, p) :: l, .text hlit hl (.inr ⟨p, rest, hmeta⟩) hrest, ?_⟩
          rw [if_pos (by omega)]
          have : ((pre ++ lit ++ (c :: s)).take (pre.length + lit.length)).drop pre.length = lit := by
            rw [show pre.length + lit.length = (pre ++ lit).length by simp, List.take_left, List.drop_left]
          rw [this]; rfl

theorem elem_ne_nil {src : Str} {p : Param} (h : Elem src p) : src ≠ [] := by cases h <;> simp

theorem metaAt_ne_nil {s r : Str} {p : Param} (h : MetaAt s p r) : s ≠ [] := by
  obtain ⟨src, e, he, rfl, _⟩ := h
  have := elem_ne_nil he
  simp [this]

/-- Lexing is the reading of the text. -/
theorem lex_reads (data : Str) : ∃ l, Reads data l ∧ lex data = l.map Prod.snd := by
  have := firstPass_reads data.length data [] [] (Nat.le_refl _) (by simp)
  simpa [lex] using this

/-- A text can be read in one way only. -/
theorem reads_unique {s : Str} {l l' : List (Str × Param)} (h : Reads s l) (h' : Reads s l') : l = l' := by
  induction h generalizing l' with
  | nil =>
    generalize e : ([] : Str) = s at h'
    cases h' with
    | nil => rfl
    | elem hm _ => exact absurd e.symm (metaAt_ne_nil hm)
    | text ht _ _ _ => simp at e; exact absurd e.1 ht
  | @elem src rest p l hm hr ih =>
    generalize e : src ++ rest = s at h'
    cases h' with
    | nil => exact absurd e (metaAt_ne_nil hm)
    | @elem src' rest' p' l' hm' hr' =>
      have h1 := metaAt_match hm
      have h2 := metaAt_match hm'
      rw [e, h2] at h1
      simp only [Option.some.injEq, Prod.mk.injEq] at h1
      have hl : src.length = src'.length := by
        have := congrArg List.length e
        simp at this h1
        omega
      obtain ⟨rfl, rfl⟩ := List.append_inj e hl
      rw [h1.1, ih hr']
    | @text t rest' l' ht hn _ _ =>
      exfalso
      apply hn [] t rfl ht
      rw [← e]; exact ⟨p, rest, hm⟩
  | @text t rest l ht hn hr hrest ih =>
    generalize e : t ++ rest = s at h'
    cases h' with
    | nil => simp at e; exact absurd e.1 ht
    | @elem src' rest' p' l' hm' hr' =>
      exfalso
      apply hn [] t rfl ht
      rw [e]; exact ⟨p', rest', hm'⟩
    | @text t' rest' l' ht' hn' hr' hrest' =>
      have key : ∀ {t t' rest rest' : Str}, t ++ rest = t' ++ rest' → (rest = [] ∨ ∃ p r, MetaAt rest p r) →
          (∀ t₁ t₂, t' = t₁ ++ t₂ → t₂ ≠ [] → ¬ ∃ p r, MetaAt (t₂ ++ rest') p r) → ¬ t.length < t'.length := by
        intro t t' rest rest' e hr hn hlt
        obtain ⟨u, hu⟩ : ∃ u, t' = t ++ u := by
          have : t <+: t' := List.prefix_of_prefix_length_le (l₃ := t ++ rest) ⟨rest, rfl⟩ ⟨rest', e.symm⟩ (by omega)
          obtain ⟨u, hu⟩ := this
          exact ⟨u, hu.symm⟩
        subst hu
        have hr2 : rest = u ++ rest' := by simpa using e
        have hu : u ≠ [] := by rintro rfl; simp at hlt
        rcases hr with rfl | hr
        · simp at hr2; exact hu hr2.1
        · exact hn t u rfl hu (hr2 ▸ hr)
      have h1 := key e hr hn'
      have h2 := key e.symm hr' hn
      obtain ⟨rfl, rfl⟩ := List.append_inj e (by omega)
      rw [ih hrest']

theorem reads_concat {s : Str} {l : List (Str × Param)} (h : Reads s l) : (l.map Prod.fst).flatten = s := by
  induction h with
  | nil => rfl
  | elem _ _ ih => simp [ih]
  | text _ _ _ _ ih => simp [ih]

/-- The lexer gives exactly the reading of the text. -/
theorem lex_eq {s : Str} {l : List (Str × Param)} (h : Reads s l) : lex s = l.map Prod.snd := by
  obtain ⟨l', h', e⟩ := lex_reads s
  rw [e, reads_unique h' h]


theorem elem_lexed {src : Str} {p : Param} (h : Elem src p) : Lexed p := by
  cases h <;> constructor <;> simp_all [Word]

theorem reads_lexed {s : Str} {l : List (Str × Param)} (h : Reads s l) : ∀ p ∈ l.map Prod.snd, Lexed p := by
  induction h with
  | nil => simp
  | elem hm _ ih =>
    obtain ⟨_, _, he, _⟩ := hm
    simp only [List.map_cons, List.mem_cons, forall_eq_or_imp]
    exact ⟨elem_lexed he, ih⟩
  | text _ _ _ _ ih =>
    simp only [List.map_cons, List.mem_cons, forall_eq_or_imp]
    exact ⟨⟨by simp, by simp, by simp⟩, ih⟩

theorem lex_lexed (data : Str) : ∀ p ∈ lex data, Lexed p := by
  obtain ⟨l, h, e⟩ := lex_reads data
  rw [e]; exact reads_lexed h

end Xcore.V1.Template
