import Verif.Proof.XmlRef

/-! # Character data: model and grammar -/

namespace Xcore.Xml

open Language

theorem infix_step {b0 b1 b : UInt8} {s : Str} (h1 : ¬ (b0 = 93 ∧ b1 = 93 ∧ b = 62)) (h2 : ¬ b!"]]>" <:+: b1 :: b :: s) : ¬ b!"]]>" <:+: b0 :: b1 :: b :: s := by
  rw [List.infix_cons_iff]
  rintro (h | h)
  · obtain ⟨t, e⟩ := h
    simp only [List.cons_append, List.cons.injEq] at e
    exact h1 ⟨e.1.symm, e.2.1.symm, e.2.2.1.symm⟩
  · exact h2 h

/-- A part without brackets cannot take part in `]]>`. -/
theorem infix_gap {b0 b1 : UInt8} {e s : Str} (he : ∀ b ∈ e, b ≠ 93 ∧ b ≠ 62) (hne : e ≠ []) (h : ¬ b!"]]>" <:+: s) : ¬ b!"]]>" <:+: b0 :: b1 :: (e ++ s) := by
  have h1 : ∀ e : Str, (∀ b ∈ e, b ≠ 93 ∧ b ≠ 62) → ¬ b!"]]>" <:+: e ++ s := by
    intro e
    induction e with
    | nil => intro _; simpa using h
    | cons b e ih =>
      intro he
      rw [List.cons_append, List.infix_cons_iff]
      rintro (hp | hp)
      · obtain ⟨t, ee⟩ := hp
        simp only [List.cons_append, List.cons.injEq] at ee
        exact (he b (by simp)).1 ee.1.symm
      · exact ih (fun c hc => he c (by simp [hc])) hp
  obtain ⟨b, e, rfl⟩ := List.exists_cons_of_ne_nil hne
  have hb := he b (by simp)
  rw [List.cons_append]
  refine infix_step (fun hh => hb.2 hh.2.2) ?_
  rw [List.infix_cons_iff]
  rintro (hp | hp)
  · obtain ⟨t, ee⟩ := hp
    simp only [List.cons_append, List.cons.injEq] at ee
    exact hb.1 ee.2.1.symm
  · exact h1 (b :: e) he hp

theorem textGo_ref {q : Option UInt8} {c : Bool} {b0 b1 : UInt8} {buf pre r : Str} (hr : 59 ∉ r) (s : Str) :
    textGo q c b0 b1 buf (some pre) (r ++ 59 :: s) =
      match reference (pre ++ r) with
      | some t => textGo q c 0 0 (buf ++ t) none s
      | none => none := by
  induction r generalizing pre with
  | nil =>
    rw [List.nil_append, List.append_nil, textGo.eq_def]
    simp only [if_true]
    all_goals (cases reference pre <;> rfl)
  | cons b r ih =>
    simp only [List.mem_cons, not_or] at hr
    have hb : b ≠ 59 := fun e => hr.1 e.symm
    rw [List.cons_append, textGo.eq_def]
    simp only [hb, if_false]
    rw [ih hr.2]
    simp

theorem textGo_ref_inv {q : Option UInt8} {c : Bool} {b0 b1 : UInt8} {buf pre s : Str} {x : Str × Str}
    (h : textGo q c b0 b1 buf (some pre) s = some x) :
    ∃ r t s', s = r ++ 59 :: s' ∧ reference (pre ++ r) = some t ∧ textGo q c 0 0 (buf ++ t) none s' = some x := by
  induction s generalizing pre with
  | nil => rw [textGo.eq_def] at h; simp at h
  | cons b s ih =>
    rw [textGo.eq_def] at h
    simp only at h
    split at h
    · rename_i hb
      cases hr : reference pre with
      | none => rw [hr] at h; cases h
      | some t => rw [hr] at h; exact ⟨[], t, s, by simp [hb], by simpa using hr, h⟩
    · obtain ⟨r, t, s', rfl, h2, h3⟩ := ih h
      exact ⟨b :: r, t, s', rfl, by simpa using h2, h3⟩

/-- The decoder reads character data. -/
theorem textGo_literal {q : Option UInt8} {c marked : Bool} {src m : Str} (h : Literal marked src m) (hm : marked = !c) (hq : ∀ d, q = some d → d ∉ src)
    {b0 b1 : UInt8} (hi : q = none → ¬ b!"]]>" <:+: b0 :: b1 :: src) (hcr : b1 = 13 → src.head? ≠ some 10) (buf : Str) :
    ∃ b0' b1', ∀ rest, textGo q c b0 b1 buf none (src ++ rest) = textGo q c b0' b1' (buf ++ m) none rest := by
  induction h generalizing b0 b1 buf with
  | nil => exact ⟨b0, b1, by simp⟩
  | @byte b s m h13 hb _ ih =>
    obtain ⟨x, y, e⟩ := ih (fun d hd hh => hq d hd (by simp [hh])) (b0 := b1) (b1 := b) (fun hn hh => hi hn (hh.trans ⟨[b0], [], by simp⟩))
      (fun e => absurd e h13) (buf ++ [b])
    refine ⟨x, y, fun rest => ?_⟩
    rw [List.cons_append, textGo.eq_def]
    have n1 : ¬ (q = none ∧ b0 = 93 ∧ b1 = 93 ∧ b = 62) := by
      rintro ⟨hn, rfl, rfl, rfl⟩
      exact hi hn ⟨[], s, rfl⟩
    have n2 : ¬ (b = 60 ∧ c = false) := by
      rintro ⟨rfl, rfl⟩; exact (hb (by simp [hm])).2 rfl
    have n3 : ¬ q = some b := fun e => hq b e (by simp)
    have n4 : ¬ (b = 38 ∧ c = false) := by
      rintro ⟨rfl, rfl⟩; exact (hb (by simp [hm])).1 rfl
    have n5 : ¬ (b1 = 13 ∧ b = 10) := by
      rintro ⟨e1, rfl⟩; exact hcr e1 rfl
    simp only [n1, n2, n3, n4, n5, h13, if_false]
    rw [e]; simp
  | @crlf s m _ ih =>
    obtain ⟨x, y, e⟩ := ih (fun d hd hh => hq d hd (by simp [hh])) (b0 := 13) (b1 := 10)
      (fun hn hh => hi hn (hh.trans ⟨[b0, b1], [], by simp⟩)) (fun e => absurd e (by decide)) (buf ++ [10])
    refine ⟨x, y, fun rest => ?_⟩
    have n3 : ¬ q = some 13 := fun e => hq 13 e (by simp)
    have n4 : ¬ q = some 10 := fun e => hq 10 e (by simp)
    rw [List.cons_append, textGo.eq_def]
    simp only [n3, (by decide : ¬ ((13 : UInt8) = 62)), (by decide : ¬ ((13 : UInt8) = 60)), (by decide : ¬ ((13 : UInt8) = 38)), and_false, false_and, if_false,
      if_true]
    rw [List.cons_append, textGo.eq_def]
    simp only [n4, (by decide : ¬ ((10 : UInt8) = 62)), (by decide : ¬ ((10 : UInt8) = 60)), (by decide : ¬ ((10 : UInt8) = 38)), (by decide : ¬ ((10 : UInt8) = 13)),
      and_false, false_and, if_false, and_true, if_true]
    rw [e]; simp
  | @cr s m h10 _ ih =>
    obtain ⟨x, y, e⟩ := ih (fun d hd hh => hq d hd (by simp [hh])) (b0 := b1) (b1 := 13)
      (fun hn hh => hi hn (hh.trans ⟨[b0], [], by simp⟩)) (fun _ => h10) (buf ++ [10])
    refine ⟨x, y, fun rest => ?_⟩
    have n3 : ¬ q = some 13 := fun e => hq 13 e (by simp)
    rw [List.cons_append, textGo.eq_def]
    simp only [n3, (by decide : ¬ ((13 : UInt8) = 62)), (by decide : ¬ ((13 : UInt8) = 60)), (by decide : ¬ ((13 : UInt8) = 38)), and_false, false_and, if_false,
      if_true]
    rw [e]; simp
  | @reference r t s m hmk hr _ ih =>
    have hc : c = false := by cases c; rfl; rw [hm] at hmk; cases hmk
    obtain ⟨x, y, e⟩ := ih (fun d hd hh => hq d hd (by simp [hh])) (b0 := 0) (b1 := 0)
      (fun hn hh => hi hn ((infix_zeros hh).trans ⟨b0 :: b1 :: 38 :: (r ++ [59]), [], by simp⟩)) (fun e => absurd e (by decide)) (buf ++ t)
    refine ⟨x, y, fun rest => ?_⟩
    have n3 : ¬ q = some 38 := fun e => hq 38 e (by simp)
    have e1 : b!"&" ++ r ++ b!";" ++ s ++ rest = 38 :: (r ++ 59 :: (s ++ rest)) := by simp
    rw [e1, textGo.eq_def]
    simp only [n3, hc, (by decide : ¬ ((38 : UInt8) = 62)), (by decide : ¬ ((38 : UInt8) = 60)), and_false, false_and, if_false, and_self, if_true]
    rw [textGo_ref (fun h59 => (hr.bytes 59 h59).1 rfl)]
    simp only [List.nil_append, reference_iff.2 hr]
    rw [hc] at e
    rw [e]; simp

/-- Character data after the byte `b1`. -/
def LitAfter (marked : Bool) (b1 : UInt8) (s m : Str) : Prop :=
  (b1 = 13 ∧ ∃ s', s = 10 :: s' ∧ Literal marked s' m) ∨ ((b1 = 13 → s.head? ≠ some 10) ∧ Literal marked s m)

theorem LitAfter.plain {marked : Bool} {b1 : UInt8} {s m : Str} (h : LitAfter marked b1 s m) (hb : b1 ≠ 13) : Literal marked s m := by
  rcases h with ⟨h, _⟩ | ⟨_, h⟩
  · exact absurd h hb
  · exact h

theorem textGo_inv {q : Option UInt8} (hqq : ∀ d, q = some d → d = 34 ∨ d = 39) {c : Bool} {b0 b1 : UInt8} {buf s x rest : Str} :
    textGo q c b0 b1 buf none s = some (x, rest) →
    ∃ src tail m, s = src ++ tail ∧ LitAfter (!c) b1 src m ∧ (q = none → ¬ b!"]]>" <:+: b0 :: b1 :: src) ∧ (∀ d, q = some d → d ∉ src) ∧
      ((c = false ∧ q = none ∧ x = buf ++ m ∧ rest = tail ∧ (tail = [] ∨ tail.head? = some 60)) ∨
       (∃ d, q = some d ∧ x = buf ++ m ∧ (tail = d :: rest ∨ (c = false ∧ tail = [] ∧ rest = []))) ∨
       (c = true ∧ q = none ∧ tail = 62 :: rest ∧ x = (buf ++ m).take ((buf ++ m).length - 2) ∧ b!"]]" <:+ b0 :: b1 :: src)) := by
  have short : ∀ a b : UInt8, ¬ b!"]]>" <:+: [a, b] := fun a b hh => by have := hh.length_le; simp at this
  induction hn : s.length using Nat.strongRecOn generalizing s b0 b1 buf with
  | ind n ih =>
  intro h
  subst hn
  have stop : LitAfter (!c) b1 [] [] := Or.inr ⟨by simp, .nil⟩
  cases s with
  | nil =>
    rw [textGo.eq_def] at h
    simp only [ne_eq, not_true_eq_false, or_false] at h
    split at h
    · cases h
    · rename_i hc
      have hc : c = false := by simpa using hc
      simp only [Option.some.injEq, Prod.mk.injEq] at h
      obtain ⟨rfl, rfl⟩ := h
      refine ⟨[], [], [], rfl, stop, fun _ => short _ _, by simp, ?_⟩
      cases q with
      | none => exact Or.inl ⟨hc, rfl, by simp, rfl, Or.inl rfl⟩
      | some d => exact Or.inr (Or.inl ⟨d, rfl, by simp, Or.inr ⟨hc, rfl, rfl⟩⟩)
  | cons b s =>
    rw [textGo.eq_def] at h
    simp only at h
    split at h
    · rename_i h1
      obtain ⟨rfl, rfl, rfl, rfl⟩ := h1
      split at h
      · rename_i hc
        simp only [Option.some.injEq, Prod.mk.injEq] at h
        obtain ⟨rfl, rfl⟩ := h
        exact ⟨[], 62 :: s, [], rfl, stop, fun _ => short _ _, by simp, Or.inr (Or.inr ⟨hc, rfl, rfl, by simp, ⟨[], rfl⟩⟩)⟩
      · cases h
    · rename_i h1
      split at h
      · rename_i h2
        obtain ⟨rfl, hc⟩ := h2
        split at h
        · rename_i hq
          simp only [Option.some.injEq, Prod.mk.injEq] at h
          obtain ⟨rfl, rfl⟩ := h
          exact ⟨[], 60 :: s, [], rfl, stop, fun _ => short _ _, by simp, Or.inl ⟨hc, hq, by simp, rfl, Or.inr rfl⟩⟩
        · cases h
      · rename_i h2
        split at h
        · rename_i hq
          simp only [Option.some.injEq, Prod.mk.injEq] at h
          obtain ⟨rfl, rfl⟩ := h
          exact ⟨[], b :: s, [], rfl, stop, fun _ => short _ _, by simp, Or.inr (Or.inl ⟨b, hq, by simp, Or.inl rfl⟩)⟩
        · rename_i h3
          have h1' : q = none → ¬ (b0 = 93 ∧ b1 = 93 ∧ b = 62) := fun hq hh => h1 ⟨hq, hh⟩
          split at h
          · rename_i h4
            obtain ⟨rfl, rfl⟩ := h4
            obtain ⟨r, t, s', rfl, hr, h⟩ := textGo_ref_inv h
            rw [List.nil_append] at hr
            have hr := reference_iff.1 hr
            obtain ⟨src, tail, m, rfl, k1, k2, k3, k4⟩ := ih s'.length (by simp; omega) rfl h
            have k1 := k1.plain (by decide)
            refine ⟨38 :: (r ++ 59 :: src), tail, t ++ m, by simp, Or.inr ⟨by simp, ?_⟩, ?_, ?_, ?_⟩
            · have := Literal.reference (marked := true) rfl hr k1
              simpa using this
            · intro hq
              have := infix_gap (b0 := b0) (b1 := b1) (e := 38 :: (r ++ [59])) (s := src) ?_ (by simp) (fun hh => k2 hq (hh.trans ⟨[0, 0], [], by simp⟩))
              · simpa using this
              · intro b hb
                simp only [List.mem_cons, List.mem_append, List.not_mem_nil, or_false] at hb
                rcases hb with rfl | hb | rfl
                · decide
                · exact ⟨(hr.bytes b hb).2.1, (hr.bytes b hb).2.2.1⟩
                · decide
            · intro d hd
              have hh := k3 d hd
              have h34 := hqq d hd
              simp only [List.mem_cons, List.mem_append, not_or]
              refine ⟨?_, fun hm => ?_, ?_, hh⟩
              · rcases h34 with rfl | rfl <;> decide
              · have := hr.bytes d hm
                rcases h34 with rfl | rfl
                · exact this.2.2.2.1 rfl
                · exact this.2.2.2.2.1 rfl
              · rcases h34 with rfl | rfl <;> decide
            · rcases k4 with ⟨a1, a2, rfl, a4⟩ | ⟨d, a1, rfl, a3⟩ | ⟨a1, _⟩
              · exact Or.inl ⟨a1, a2, by simp, a4⟩
              · exact Or.inr (Or.inl ⟨d, a1, by simp, a3⟩)
              · cases a1
          · rename_i h4
            have fin : ∀ (src tail m m' : Str) (buf' : Str), buf' ++ m = buf ++ m' →
                ((c = false ∧ q = none ∧ x = buf' ++ m ∧ rest = tail ∧ (tail = [] ∨ tail.head? = some 60)) ∨
                 (∃ d, q = some d ∧ x = buf' ++ m ∧ (tail = d :: rest ∨ (c = false ∧ tail = [] ∧ rest = []))) ∨
                 (c = true ∧ q = none ∧ tail = 62 :: rest ∧ x = (buf' ++ m).take ((buf' ++ m).length - 2) ∧ b!"]]" <:+ b1 :: b :: src)) →
                ((c = false ∧ q = none ∧ x = buf ++ m' ∧ rest = tail ∧ (tail = [] ∨ tail.head? = some 60)) ∨
                 (∃ d, q = some d ∧ x = buf ++ m' ∧ (tail = d :: rest ∨ (c = false ∧ tail = [] ∧ rest = []))) ∨
                 (c = true ∧ q = none ∧ tail = 62 :: rest ∧ x = (buf ++ m').take ((buf ++ m').length - 2) ∧ b!"]]" <:+ b0 :: b1 :: b :: src)) := by
              intro src tail m m' buf' e hh
              rw [e] at hh
              rcases hh with hh | hh | ⟨a1, a2, a3, a4, a5⟩
              · exact Or.inl hh
              · exact Or.inr (Or.inl hh)
              · exact Or.inr (Or.inr ⟨a1, a2, a3, a4, a5.trans (List.suffix_cons _ _)⟩)
            have quoted : ∀ src : Str, (∀ d, q = some d → d ∉ src) → ∀ d, q = some d → d ∉ b :: src := by
              intro src k3 d hd
              simp only [List.mem_cons, not_or]
              exact ⟨fun e => h3 (e ▸ hd), k3 d hd⟩
            split at h
            · rename_i h5
              subst h5
              obtain ⟨src, tail, m, rfl, k1, k2, k3, k4⟩ := ih s.length (by simp) rfl h
              refine ⟨13 :: src, tail, 10 :: m, rfl, Or.inr ⟨by simp, ?_⟩, fun hq => infix_step (h1' hq) (k2 hq), quoted _ k3, fin src tail m _ _ (by simp) k4⟩
              rcases k1 with ⟨_, s', rfl, k1⟩ | ⟨hh, k1⟩
              · exact .crlf k1
              · exact .cr (hh rfl) k1
            · rename_i h5
              split at h
              · rename_i h6
                obtain ⟨rfl, rfl⟩ := h6
                obtain ⟨src, tail, m, rfl, k1, k2, k3, k4⟩ := ih s.length (by simp) rfl h
                exact ⟨10 :: src, tail, m, rfl, Or.inl ⟨rfl, src, rfl, k1.plain (by decide)⟩, fun hq => infix_step (h1' hq) (k2 hq), quoted _ k3,
                  fin src tail m _ _ rfl k4⟩
              · rename_i h6
                obtain ⟨src, tail, m, rfl, k1, k2, k3, k4⟩ := ih s.length (by simp) rfl h
                refine ⟨b :: src, tail, b :: m, rfl, Or.inr ⟨?_, ?_⟩, fun hq => infix_step (h1' hq) (k2 hq), quoted _ k3, fin src tail m _ _ (by simp) k4⟩
                · intro e e2
                  simp only [List.head?_cons, Option.some.injEq] at e2
                  exact h6 ⟨e, e2⟩
                · refine .byte h5 (fun hc => ?_) (k1.plain h5)
                  have hc : c = false := by simpa using hc
                  exact ⟨fun e => h4 ⟨e, hc⟩, fun e => h2 ⟨e, hc⟩⟩

/-! ## Text between tags -/

theorem text_plain_iff {s m rest : Str} :
    text none false s = some (m, rest) ↔
      ∃ src, s = src ++ rest ∧ Literal true src m ∧ ¬ b!"]]>" <:+: src ∧ XmlText m ∧ (rest = [] ∨ rest.head? = some 60) := by
  unfold text
  constructor
  · intro h
    cases ht : textGo none false 0 0 [] none s with
    | none => rw [ht] at h; cases h
    | some p =>
      obtain ⟨x, r⟩ := p
      rw [ht] at h
      simp only [Option.bind_some] at h
      split at h
      · rename_i ho
        simp only [Option.some.injEq, Prod.mk.injEq] at h
        obtain ⟨rfl, rfl⟩ := h
        obtain ⟨src, tail, m, rfl, k1, k2, _, k4⟩ := textGo_inv (by simp) ht
        rcases k4 with ⟨_, _, rfl, rfl, k⟩ | ⟨d, hd, _⟩ | ⟨hh, _⟩
        · exact ⟨src, rfl, k1.plain (by decide), fun hh => k2 rfl (hh.trans ⟨[0, 0], [], by simp⟩), okText_iff.1 ho, k⟩
        · cases hd
        · cases hh
      · cases h
  · rintro ⟨src, rfl, h1, h2, h3, h4⟩
    obtain ⟨x, y, e⟩ := textGo_literal (q := none) (c := false) h1 rfl (by simp) (b0 := 0) (b1 := 0) (fun _ hh => h2 (infix_zeros hh)) (fun e => absurd e (by decide)) []
    rw [e]
    have : textGo none false x y ([] ++ m) none rest = some (m, rest) := by
      cases rest with
      | nil => rw [textGo.eq_def]; simp
      | cons b r =>
        have : b = 60 := by simpa using h4
        subst this
        rw [textGo.eq_def]; simp
    rw [this]
    simp [okText_iff.2 h3]

/-! ## Values of attributes -/

theorem text_quote_of {q : UInt8} (hq : q = 34 ∨ q = 39) {src m : Str} (h1 : Literal true src m) (h2 : q ∉ src) (h3 : XmlText m) (rest : Str) :
    text (some q) false (src ++ q :: rest) = some (m, rest) := by
  unfold text
  obtain ⟨x, y, e⟩ := textGo_literal (q := some q) (c := false) h1 rfl (by simpa using h2) (b0 := 0) (b1 := 0) (by simp) (fun e => absurd e (by decide)) []
  rw [e, textGo.eq_def]
  have : q ≠ 60 := by rcases hq with rfl | rfl <;> decide
  simp [this, okText_iff.2 h3]

theorem text_quote_inv {q : UInt8} (hq : q = 34 ∨ q = 39) {s m rest : Str} (h : text (some q) false s = some (m, rest)) :
    (∃ src, s = src ++ q :: rest ∧ Literal true src m ∧ q ∉ src ∧ XmlText m) ∨ rest = [] := by
  unfold text at h
  cases ht : textGo (some q) false 0 0 [] none s with
  | none => rw [ht] at h; cases h
  | some p =>
    obtain ⟨x, r⟩ := p
    rw [ht] at h
    simp only [Option.bind_some] at h
    split at h
    · rename_i ho
      simp only [Option.some.injEq, Prod.mk.injEq] at h
      obtain ⟨rfl, rfl⟩ := h
      obtain ⟨src, tail, m, rfl, k1, _, k3, k4⟩ := textGo_inv (by simpa using hq) ht
      rcases k4 with ⟨_, hd, _⟩ | ⟨d, hd, rfl, k⟩ | ⟨hh, _⟩
      · cases hd
      · cases hd
        rcases k with rfl | ⟨_, _, k⟩
        · exact Or.inl ⟨src, rfl, k1.plain (by decide), k3 q rfl, okText_iff.1 ho⟩
        · exact Or.inr k
      · cases hh
    · cases h

/-! ## CDATA sections -/

theorem Literal.brackets {s m' : Str} (h : Literal false (s ++ b!"]]") m') : ∃ m, m' = m ++ b!"]]" ∧ Literal false s m := by
  generalize hs : s ++ b!"]]" = t at h
  have mk : ∀ {t m' : Str}, Literal false t m' → (t = b!"]]" → m' = b!"]]") ∧ (t = b!"]" → m' = b!"]") ∧ (t = [] → m' = []) := by
    intro t m' h
    refine ⟨?_, ?_, ?_⟩
    · rintro rfl
      cases h with
      | byte _ _ h =>
        cases h with
        | byte _ _ h => cases h; rfl
    · rintro rfl
      cases h with
      | byte _ _ h => cases h; rfl
    · rintro rfl
      cases h; rfl
  induction h generalizing s with
  | nil => simp at hs
  | @byte b t m h13 hb ht ih =>
    cases s with
    | nil =>
      have := (mk (.byte h13 hb ht)).1 (by simpa using hs.symm)
      exact ⟨[], by simpa using this, .nil⟩
    | cons a s =>
      simp only [List.cons_append, List.cons.injEq] at hs
      obtain ⟨rfl, hs⟩ := hs
      obtain ⟨m, rfl, k⟩ := ih hs
      exact ⟨a :: m, rfl, .byte h13 hb k⟩
  | @crlf t m ht ih =>
    match s, hs with
    | [], hs => simp at hs
    | [a], hs => simp at hs
    | a :: b :: s, hs =>
      simp only [List.cons_append, List.cons.injEq] at hs
      obtain ⟨rfl, rfl, hs⟩ := hs
      obtain ⟨m, rfl, k⟩ := ih hs
      exact ⟨10 :: m, rfl, .crlf k⟩
  | @cr t m h10 ht ih =>
    cases s with
    | nil => simp at hs
    | cons a s =>
      simp only [List.cons_append, List.cons.injEq] at hs
      obtain ⟨rfl, hs⟩ := hs
      obtain ⟨m, rfl, k⟩ := ih hs
      refine ⟨10 :: m, rfl, .cr ?_ k⟩
      rw [← hs] at h10
      cases s with
      | nil => simp
      | cons b s => simpa using h10
  | reference hm _ _ _ => cases hm

theorem text_cdata_iff {s m rest : Str} :
    text none true s = some (m, rest) ↔ ∃ src, s = src ++ b!"]]>" ++ rest ∧ Literal false src m ∧ ¬ b!"]]>" <:+: src ∧ XmlText m := by
  unfold text
  constructor
  · intro h
    cases ht : textGo none true 0 0 [] none s with
    | none => rw [ht] at h; cases h
    | some p =>
      obtain ⟨x, r⟩ := p
      rw [ht] at h
      simp only [Option.bind_some] at h
      split at h
      · rename_i ho
        simp only [Option.some.injEq, Prod.mk.injEq] at h
        obtain ⟨rfl, rfl⟩ := h
        obtain ⟨src, tail, m, rfl, k1, k2, _, k4⟩ := textGo_inv (by simp) ht
        rcases k4 with ⟨hh, _⟩ | ⟨d, hd, _⟩ | ⟨_, _, rfl, rfl, k⟩
        · cases hh
        · cases hd
        · obtain ⟨p, e⟩ := k
          obtain ⟨src, rfl⟩ : ∃ src', src = src' ++ b!"]]" := by
            match p with
            | [] => simp at e
            | [_] => simp at e
            | _ :: _ :: p =>
              simp only [List.cons_append, List.cons.injEq] at e
              exact ⟨p, e.2.2.symm⟩
          obtain ⟨m, rfl, k⟩ := (k1.plain (by decide)).brackets
          have e2 : List.take (([] ++ (m ++ b!"]]")).length - 2) ([] ++ (m ++ b!"]]")) = m := by simp
          rw [e2] at ho ⊢
          refine ⟨src, by simp, k, fun hh => k2 rfl (hh.trans ⟨[0, 0], b!"]]", by simp⟩), okText_iff.1 ho⟩
      · cases h
  · rintro ⟨src, rfl, h1, h2, h3⟩
    obtain ⟨x, y, e⟩ := textGo_literal (q := none) (c := true) h1 rfl (by simp) (b0 := 0) (b1 := 0) (fun _ hh => h2 (infix_zeros hh)) (fun e => absurd e (by decide)) []
    rw [List.append_assoc, e]
    have : textGo none true x y ([] ++ m) none (b!"]]>" ++ rest) = some (m, rest) := by
      simp only [List.cons_append, List.nil_append]
      rw [textGo.eq_def]
      simp only [reduceCtorEq, (by decide : ¬ ((93 : UInt8) = 62)), (by decide : ¬ ((93 : UInt8) = 60)), (by decide : ¬ ((93 : UInt8) = 13)), and_false, if_false,
        Bool.true_eq_false, (by decide : ¬ ((93 : UInt8) = 10))]
      rw [textGo.eq_def]
      simp only [reduceCtorEq, (by decide : ¬ ((93 : UInt8) = 62)), (by decide : ¬ ((93 : UInt8) = 60)), (by decide : ¬ ((93 : UInt8) = 13)), and_false, if_false,
        Bool.true_eq_false, (by decide : ¬ ((93 : UInt8) = 10))]
      rw [textGo.eq_def]
      simp
    rw [this]
    simp [okText_iff.2 h3]

end Xcore.Xml
