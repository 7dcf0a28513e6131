import Verif.Proof.XmlText

/-! # Markup: model and grammar -/

namespace Xcore.Xml

open Language

/-! ## White space and names -/

theorem isSpace_iff (b : UInt8) : isSpace b = true ↔ (b = 32 ∨ b = 9 ∨ b = 10 ∨ b = 13) := by
  revert b
  exact byte_cases (by decide +kernel)

theorem white_iff {w : Str} : White w ↔ ∀ b ∈ w, isSpace b = true := by
  unfold White
  simp only [isSpace_iff]

theorem nameStart_iff (b : UInt8) : nameStart b = true ↔ Letter b := by
  unfold Letter
  revert b
  exact byte_cases (by decide +kernel)

theorem nameByte_iff (b : UInt8) : nameByte b = true ↔ (Letter b ∨ b ∈ b!"0123456789.-") := by
  unfold Letter
  revert b
  exact byte_cases (by decide +kernel)

theorem nameByte_of_start (b : UInt8) : nameStart b = true → nameByte b = true := by
  revert b
  exact byte_cases (by decide +kernel)

theorem nameByte_ascii (b : UInt8) : nameByte b = true → b.toNat < 128 ∧ isSpace b = false ∧ b ≠ 58 ∧ b ≠ 62 ∧ b ≠ 47 ∧ b ≠ 61 ∧ b ≠ 63 ∧ b ≠ 33 := by
  revert b
  exact byte_cases (by decide +kernel)

theorem dropWhile_white {w : Str} (h : White w) {s : Str} (hs : ∀ b, s.head? = some b → isSpace b = false) : (w ++ s).dropWhile isSpace = s := by
  rw [List.dropWhile_append_of_pos (white_iff.1 h)]
  cases s with
  | nil => rfl
  | cons b s => rw [List.dropWhile_cons_of_neg]; simp [hs b rfl]

theorem dropWhile_split (s : Str) : ∃ w, White w ∧ s = w ++ s.dropWhile isSpace :=
  ⟨s.takeWhile isSpace, white_iff.2 (fun b hb => by have := List.all_takeWhile (p := isSpace) (l := s); exact List.all_eq_true.1 this b hb),
    List.takeWhile_append_dropWhile.symm⟩

theorem name_iff {b : UInt8} {s : Str} : Name (b :: s) ↔ nameStart b = true ∧ ∀ c ∈ s, nameByte c = true := by
  simp only [nameStart_iff, nameByte_iff]
  exact ⟨fun h => by cases h with | mk h1 h2 => exact ⟨h1, h2⟩, fun h => .mk h.1 h.2⟩

theorem Name.ne_nil {n : Str} (h : Name n) : ∃ b s, n = b :: s ∧ nameStart b = true := by
  cases h with
  | mk h1 h2 => exact ⟨_, _, rfl, (nameStart_iff _).2 h1⟩

theorem Name.bytes {n : Str} (h : Name n) : ∀ c ∈ n, nameByte c = true := by
  obtain ⟨b, s, rfl, hb⟩ := h.ne_nil
  intro c hc
  rcases List.mem_cons.1 hc with rfl | hc
  · exact nameByte_of_start _ hb
  · exact (name_iff.1 h).2 c hc

/-- The byte after a name. -/
def Stop (d : UInt8) : Prop := nameByte d = false ∧ d ≠ 58 ∧ d.toNat < 128

theorem stop_space {b : UInt8} (h : isSpace b = true) : Stop b := by
  have : ∀ b : UInt8, isSpace b = true → nameByte b = false ∧ b ≠ 58 ∧ b.toNat < 128 := byte_cases (by decide +kernel)
  exact this b h

theorem readName_of {n : Str} (h : Name n) {d : UInt8} (hd : Stop d) (r : Str) : readName (n ++ d :: r) = some (n, d :: r) := by
  unfold readName
  have h1 : (n ++ d :: r).takeWhile nameByte = n := by
    rw [List.takeWhile_append_of_pos h.bytes, List.takeWhile_cons_of_neg (by simp [hd.1])]
    simp
  have h2 : (n ++ d :: r).dropWhile nameByte = d :: r := by
    rw [List.dropWhile_append_of_pos h.bytes, List.dropWhile_cons_of_neg (by simp [hd.1])]
  rw [h1, h2]
  obtain ⟨b, s, rfl, hb⟩ := h.ne_nil
  simp [hb, hd.2.1, hd.2.2]

theorem readName_inv {s n rest : Str} (h : readName s = some (n, rest)) : Name n ∧ s = n ++ rest ∧ ∃ d r, rest = d :: r ∧ Stop d := by
  unfold readName at h
  split at h
  · cases h
  · rename_i c m ht
    split at h
    · cases h
    · rename_i d r hd
      split at h
      · rename_i hc
        simp only [Option.some.injEq, Prod.mk.injEq] at h
        obtain ⟨rfl, rfl⟩ := h
        have hall : ∀ b ∈ s.takeWhile nameByte, nameByte b = true := List.all_eq_true.1 List.all_takeWhile
        refine ⟨name_iff.2 ⟨hc.1, ?_⟩, ?_, d, r, rfl, ?_, hc.2.1, hc.2.2⟩
        · intro b hb
          exact hall b (by rw [ht]; simp [hb])
        · rw [← hd, ← ht, List.takeWhile_append_dropWhile]
        · have := List.head?_dropWhile_not nameByte s
          rw [hd] at this
          simpa using this
      · cases h

/-! ## Attributes -/

theorem attrsN_step {k : Nat} {s t : Str} {b : UInt8} {acc : List (Str × Str)} (hd : s.dropWhile isSpace = b :: t) (h1 : b ≠ 62) (h2 : b ≠ 47) :
    attrsN (k + 1) s acc = (readName (b :: t)).bind fun q => match q.2.dropWhile isSpace with
      | 61 :: r => match r.dropWhile isSpace with
        | 34 :: r => (text (some 34) false r).bind fun v => attrsN k v.2 (acc ++ [(q.1, v.1)])
        | 39 :: r => (text (some 39) false r).bind fun v => attrsN k v.2 (acc ++ [(q.1, v.1)])
        | _ => none
      | _ => none := by
  conv => lhs; unfold attrsN
  rw [hd]
  split
  · rename_i e; cases e; exact absurd rfl h1
  · rename_i e; cases e; exact absurd rfl h2
  · cases readName (b :: t) with
    | none => rfl
    | some q => rfl

theorem attrsN_done {k : Nat} {w : Str} (hw : White w) (close : Bool) (rest : Str) (acc : List (Str × Str)) :
    attrsN (k + 1) (w ++ (if close then b!"/>" else b!">") ++ rest) acc = some (acc, close, rest) := by
  unfold attrsN
  cases close with
  | false =>
    rw [List.append_assoc, dropWhile_white hw (by intro b hb; cases hb; decide)]
    rfl
  | true =>
    rw [List.append_assoc, dropWhile_white hw (by intro b hb; cases hb; decide)]
    rfl

theorem Value.quoted {q v : Str} (h : Value q v) : ∃ d s, (d = 34 ∨ d = 39) ∧ q = d :: (s ++ [d]) ∧ Literal true s v ∧ d ∉ s ∧ XmlText v := by
  cases h with
  | double h1 h2 h3 => exact ⟨34, _, Or.inl rfl, by simp, h1, h2, h3⟩
  | single h1 h2 h3 => exact ⟨39, _, Or.inr rfl, by simp, h1, h2, h3⟩

theorem Value.of {d : UInt8} (hd : d = 34 ∨ d = 39) {s v : Str} (h1 : Literal true s v) (h2 : d ∉ s) (h3 : XmlText v) : Value (d :: (s ++ [d])) v := by
  rcases hd with rfl | rfl
  · simpa using Value.double h1 h2 h3
  · simpa using Value.single h1 h2 h3

theorem attrsN_of {a : Str} {l : List (Str × Str)} (h : Attributes a l) {w : Str} (hw : White w) (close : Bool) (rest : Str) (k : Nat) (hk : l.length < k)
    (acc : List (Str × Str)) : attrsN k (a ++ w ++ (if close then b!"/>" else b!">") ++ rest) acc = some (acc ++ l, close, rest) := by
  induction h generalizing k acc with
  | nil =>
    obtain ⟨k, rfl⟩ : ∃ j, k = j + 1 := ⟨k - 1, by simp at hk; omega⟩
    simp only [List.nil_append, List.append_nil]
    exact attrsN_done hw close rest acc
  | @cons w1 n w2 w3 q v r l hw1 hn hw2 hw3 hv _ ih =>
    obtain ⟨k, rfl⟩ : ∃ j, k = j + 1 := ⟨k - 1, by omega⟩
    have hk' : l.length < k := by simp at hk; omega
    obtain ⟨d, s, hd, rfl, h1, h2, h3⟩ := hv.quoted
    obtain ⟨b, n', rfl, hb⟩ := hn.ne_nil
    have hb' := nameByte_ascii _ (nameByte_of_start _ hb)
    generalize htl : (if close then b!"/>" else b!">") = cl at *
    have e : w1 ++ (b :: n') ++ w2 ++ b!"=" ++ w3 ++ (d :: (s ++ [d])) ++ r ++ w ++ cl ++ rest =
        w1 ++ (b :: (n' ++ (w2 ++ 61 :: (w3 ++ d :: (s ++ d :: (r ++ w ++ cl ++ rest)))))) := by simp
    rw [e, attrsN_step (dropWhile_white hw1 (by intro c hc; cases hc; exact hb'.2.1)) hb'.2.2.2.1 hb'.2.2.2.2.1]
    have hdw : ∀ x, (w2 ++ 61 :: x).dropWhile isSpace = 61 :: x := fun x => dropWhile_white hw2 (by intro c hc; cases hc; decide)
    have hrn : readName (b :: (n' ++ (w2 ++ 61 :: (w3 ++ d :: (s ++ d :: (r ++ w ++ cl ++ rest)))))) =
        some (b :: n', w2 ++ 61 :: (w3 ++ d :: (s ++ d :: (r ++ w ++ cl ++ rest)))) := by
      cases w2 with
      | nil => exact readName_of hn (d := 61) (by unfold Stop; decide) _
      | cons c w2 => exact readName_of hn (stop_space (white_iff.1 hw2 c (by simp))) _
    rw [hrn]
    simp only [Option.bind_some]
    rw [hdw]
    simp only
    rw [dropWhile_white hw3 (by intro c hc; cases hc; rcases hd with rfl | rfl <;> decide)]
    rcases hd with rfl | rfl
    · simp only
      rw [text_quote_of (Or.inl rfl) h1 h2 h3]
      simp only [Option.bind_some]
      rw [ih k hk']
      simp
    · simp only
      rw [text_quote_of (Or.inr rfl) h1 h2 h3]
      simp only [Option.bind_some]
      rw [ih k hk']
      simp

theorem attrsN_nil (k : Nat) (acc : List (Str × Str)) : attrsN k [] acc = none := by cases k <;> rfl

theorem attrsN_inv {k : Nat} {s : Str} {acc l' : List (Str × Str)} {close : Bool} {rest : Str} (h : attrsN k s acc = some (l', close, rest)) :
    ∃ a l w, l' = acc ++ l ∧ Attributes a l ∧ White w ∧ s = a ++ w ++ (if close then b!"/>" else b!">") ++ rest := by
  induction k generalizing s acc with
  | zero => cases h
  | succ k ih =>
    obtain ⟨w1, hw1, hs⟩ := dropWhile_split s
    cases hd : s.dropWhile isSpace with
    | nil => unfold attrsN at h; rw [hd] at h; cases h
    | cons b t =>
      rw [hd] at hs
      by_cases hb : b = 62
      · subst hb
        unfold attrsN at h
        rw [hd] at h
        simp only [Option.some.injEq, Prod.mk.injEq] at h
        obtain ⟨rfl, rfl, rfl⟩ := h
        exact ⟨[], [], w1, by simp, .nil, hw1, by simp [hs]⟩
      · by_cases hb2 : b = 47
        · subst hb2
          unfold attrsN at h
          rw [hd] at h
          split at h
          · rename_i e; cases e
          · rename_i r e
            simp only [List.cons.injEq, true_and] at e
            subst e
            simp only [Option.some.injEq, Prod.mk.injEq] at h
            obtain ⟨rfl, rfl, rfl⟩ := h
            exact ⟨[], [], w1, by simp, .nil, hw1, by simp [hs]⟩
          · have : readName (47 :: t) = none := by unfold readName; rfl
            rw [this] at h; cases h
        · rw [attrsN_step hd hb hb2] at h
          cases hr : readName (b :: t) with
          | none => rw [hr] at h; cases h
          | some q =>
            obtain ⟨n, r⟩ := q
            rw [hr] at h
            simp only [Option.bind_some] at h
            obtain ⟨hn, e1, _⟩ := readName_inv hr
            obtain ⟨w2, hw2, e2⟩ := dropWhile_split r
            split at h
            · rename_i r2 e3
              rw [e3] at e2
              obtain ⟨w3, hw3, e4⟩ := dropWhile_split r2
              have fin : ∀ (d : UInt8) (r3 : Str), d = 34 ∨ d = 39 → r2.dropWhile isSpace = d :: r3 →
                  ((text (some d) false r3).bind fun v => attrsN k v.2 (acc ++ [(n, v.1)])) = some (l', close, rest) →
                  ∃ a l w, l' = acc ++ l ∧ Attributes a l ∧ White w ∧ s = a ++ w ++ (if close then b!"/>" else b!">") ++ rest := by
                intro d r3 hq e5 h
                cases ht : text (some d) false r3 with
                | none => rw [ht] at h; cases h
                | some v =>
                  obtain ⟨v, r4⟩ := v
                  rw [ht] at h
                  simp only [Option.bind_some] at h
                  rcases text_quote_inv hq ht with ⟨src, e6, k1, k2, k3⟩ | rfl
                  · obtain ⟨a, l, w, rfl, ha, hw, e7⟩ := ih h
                    refine ⟨_, _, w, ?_, .cons hw1 hn hw2 hw3 (Value.of hq k1 k2 k3) ha, hw, ?_⟩
                    · simp
                    · rw [hs, e1, e2, e4, e5, e6, e7]; simp
                  · rw [attrsN_nil] at h; cases h
              split at h
              · rename_i r3 e5; exact fin 34 r3 (Or.inl rfl) e5 h
              · rename_i r3 e5; exact fin 39 r3 (Or.inr rfl) e5 h
              · cases h
            · cases h

theorem Attributes.length {a : Str} {l : List (Str × Str)} (h : Attributes a l) : l.length ≤ a.length := by
  induction h with
  | nil => simp
  | cons _ _ _ _ _ _ ih => simp; omega

/-- The first attribute begins after white space, if the name ends there. -/
theorem Attributes.head {a : Str} {l : List (Str × Str)} (h : Attributes a l) {x : UInt8} {t r : Str} (e : a ++ t = x :: r) (hx : nameByte x = false) :
    a = [] ∨ ∃ b ∈ a.head?, White [b] := by
  cases h with
  | nil => exact Or.inl rfl
  | @cons w1 n w2 w3 q v r' l hw1 hn hw2 hw3 hv ha =>
    cases w1 with
    | nil =>
      obtain ⟨b, n', rfl, hb⟩ := hn.ne_nil
      simp only [List.nil_append, List.cons_append, List.cons.injEq] at e
      rw [← e.1, nameByte_of_start _ hb] at hx
      cases hx
    | cons b w1 =>
      refine Or.inr ⟨b, by simp, ?_⟩
      intro c hc
      exact hw1 c (by simp only [List.mem_singleton] at hc; simp [hc])

/-! ## Comments, instructions, the declaration -/

theorem pastInstruction_iff {s rest : Str} : pastInstruction s = some rest ↔ ∃ d, s = d ++ b!"?>" ++ rest ∧ ¬ b!"?>" <:+: d := by
  constructor
  · intro h
    induction s with
    | nil => cases h
    | cons b s ih =>
      unfold pastInstruction at h
      split at h
      · cases h
      · rename_i r e
        rw [Option.some.injEq] at h
        subst h
        exact ⟨[], by rw [e]; rfl, by simp⟩
      · rename_i b' s' hne e
        simp only [List.cons.injEq] at e
        obtain ⟨rfl, rfl⟩ := e
        obtain ⟨d, rfl, hd⟩ := ih h
        refine ⟨b :: d, by simp, ?_⟩
        rw [List.infix_cons_iff]
        rintro (hp | hp)
        · obtain ⟨t, ee⟩ := hp
          cases d with
          | nil => simp at ee
          | cons c d =>
            simp only [List.cons_append, List.cons.injEq] at ee
            obtain ⟨rfl, rfl, rfl⟩ := ee
            exact hne _ rfl rfl
        · exact hd hp
  · rintro ⟨d, rfl, hd⟩
    induction d with
    | nil => rfl
    | cons b d ih =>
      have ih := ih (fun hh => hd (hh.trans (List.suffix_cons b d).isInfix))
      unfold pastInstruction
      split
      · rename_i e; simp at e
      · rename_i r e
        simp only [List.cons_append, List.append_assoc, List.cons.injEq] at e
        obtain ⟨rfl, e⟩ := e
        cases d with
        | nil => simp at e
        | cons c d =>
          simp only [List.cons_append, List.cons.injEq] at e
          obtain ⟨rfl, _⟩ := e
          exact absurd ⟨[], d, rfl⟩ hd
      · rename_i b' s' _ e
        simp only [List.cons_append, List.cons.injEq] at e
        obtain ⟨rfl, rfl⟩ := e
        simpa using ih

theorem pastComment_iff {s rest : Str} : pastComment s = some rest ↔ ∃ c, s = c ++ b!"-->" ++ rest ∧ ¬ b!"--" <:+: c ++ b!"-" := by
  constructor
  · intro h
    induction s with
    | nil => cases h
    | cons b s ih =>
      unfold pastComment at h
      split at h
      · cases h
      · rename_i r e
        rw [Option.some.injEq] at h
        subst h
        exact ⟨[], by rw [e]; rfl, by decide⟩
      · cases h
      · rename_i b' s' _ hne e
        simp only [List.cons.injEq] at e
        obtain ⟨rfl, rfl⟩ := e
        obtain ⟨d, rfl, hd⟩ := ih h
        refine ⟨b :: d, by simp, ?_⟩
        rw [List.cons_append, List.infix_cons_iff]
        rintro (hp | hp)
        · obtain ⟨t, ee⟩ := hp
          cases d with
          | nil =>
            simp only [List.cons_append, List.nil_append, List.cons.injEq] at ee
            exact hne (45 :: 62 :: rest) ee.1.symm rfl
          | cons c d =>
            simp only [List.cons_append, List.nil_append, List.cons.injEq] at ee
            obtain ⟨rfl, rfl, _⟩ := ee
            exact hne _ rfl (by simp only [List.cons_append]; rfl)
        · exact hd hp
  · rintro ⟨d, rfl, hd⟩
    induction d with
    | nil => rfl
    | cons b d ih =>
      have ih := ih (fun hh => hd (hh.trans (List.suffix_cons b (d ++ b!"-")).isInfix))
      have no : ∀ r, b = 45 → d ++ b!"-->" ++ rest = 45 :: r → False := by
        rintro r rfl e
        cases d with
        | nil => exact hd ⟨[], [], rfl⟩
        | cons c d =>
          simp only [List.cons_append, List.cons.injEq] at e
          obtain ⟨rfl, _⟩ := e
          exact hd ⟨[], d ++ b!"-", rfl⟩
      unfold pastComment
      split
      · rename_i e; simp at e
      · rename_i r e
        simp only [List.cons_append, List.cons.injEq] at e
        exact (no _ e.1 e.2).elim
      · rename_i r _ e
        simp only [List.cons_append, List.cons.injEq] at e
        exact (no _ e.1 e.2).elim
      · rename_i b' s' _ _ e
        simp only [List.cons_append, List.cons.injEq] at e
        obtain ⟨rfl, rfl⟩ := e
        simpa using ih

theorem after_inv {ps : List Str} {s r : Str} (h : after ps s = some r) : ∃ p ∈ ps, s = p ++ r := by
  unfold after at h
  obtain ⟨p, hp, h⟩ := List.exists_of_findSome?_eq_some h
  split at h
  · rename_i e
    rw [Option.some.injEq] at h
    obtain ⟨t, rfl⟩ := List.isPrefixOf_iff_prefix.1 e
    simp only [List.drop_left] at h
    exact ⟨p, hp, by rw [h]⟩
  · cases h

/-- The declaration after `<?xml`. -/
def DeclRest (s rest : Str) : Prop :=
  ∃ w1 v w2, White w1 ∧ v ∈ [b!"version=\"1.0\"", b!"version='1.0'"] ∧ White w2 ∧
    (s = w1 ++ v ++ w2 ++ b!"?>" ++ rest ∨
     ∃ e w3, w2 ≠ [] ∧ e ∈ [b!"encoding=\"UTF-8\"", b!"encoding='UTF-8'", b!"encoding=\"utf-8\"", b!"encoding='utf-8'"] ∧ White w3 ∧
       s = w1 ++ v ++ w2 ++ e ++ w3 ++ b!"?>" ++ rest)

theorem declaration_iff {s rest : Str} : declaration s = some rest ↔ DeclRest s rest := by
  constructor
  · intro h
    unfold declaration at h
    obtain ⟨w1, hw1, e1⟩ := dropWhile_split s
    cases ha : after [b!"version=\"1.0\"", b!"version='1.0'"] (s.dropWhile isSpace) with
    | none => rw [ha] at h; cases h
    | some t =>
      rw [ha] at h
      simp only [Option.bind_some] at h
      obtain ⟨v, hv, e2⟩ := after_inv ha
      obtain ⟨w2, hw2, e3⟩ := dropWhile_split t
      split at h
      · rename_i r e4
        rw [Option.some.injEq] at h
        subst h
        exact ⟨w1, v, w2, hw1, hv, hw2, Or.inl (by rw [e1, e2, e3, e4]; simp)⟩
      · split at h
        · cases h
        · rename_i hne
          cases hb : after [b!"encoding=\"UTF-8\"", b!"encoding='UTF-8'", b!"encoding=\"utf-8\"", b!"encoding='utf-8'"] (t.dropWhile isSpace) with
          | none => rw [hb] at h; cases h
          | some u =>
            rw [hb] at h
            simp only [Option.bind_some] at h
            obtain ⟨e, he, e5⟩ := after_inv hb
            obtain ⟨w3, hw3, e6⟩ := dropWhile_split u
            split at h
            · rename_i r e7
              rw [Option.some.injEq] at h
              subst h
              refine ⟨w1, v, w2, hw1, hv, hw2, Or.inr ⟨e, w3, ?_, he, hw3, by rw [e1, e2, e3, e5, e6, e7]; simp⟩⟩
              rintro rfl
              exact hne (by simpa using e3.symm)
            · cases h
  · rintro ⟨w1, v, w2, hw1, hv, hw2, h⟩
    have hv1 : ∀ t, ((w1 ++ (v ++ t)).dropWhile isSpace) = v ++ t := by
      intro t
      refine dropWhile_white hw1 ?_
      simp only [List.mem_cons, List.not_mem_nil, or_false] at hv
      rcases hv with rfl | rfl <;> (intro b hb; cases hb; decide)
    have hv2 : ∀ t, after [b!"version=\"1.0\"", b!"version='1.0'"] (v ++ t) = some t := by
      intro t
      simp only [List.mem_cons, List.not_mem_nil, or_false] at hv
      rcases hv with rfl | rfl <;> rfl
    have hq : ∀ w : Str, White w → (w ++ b!"?>" ++ rest).dropWhile isSpace = 63 :: 62 :: rest := by
      intro w hw
      rw [List.append_assoc]
      exact dropWhile_white hw (by intro b hb; cases hb; decide)
    unfold declaration
    rcases h with rfl | ⟨e, w3, hne, he, hw3, rfl⟩
    · have : w1 ++ v ++ w2 ++ b!"?>" ++ rest = w1 ++ (v ++ (w2 ++ b!"?>" ++ rest)) := by simp
      rw [this, hv1, hv2]
      simp only [Option.bind_some]
      rw [hq w2 hw2]
      rfl
    · have : w1 ++ v ++ w2 ++ e ++ w3 ++ b!"?>" ++ rest = w1 ++ (v ++ (w2 ++ (e ++ (w3 ++ b!"?>" ++ rest)))) := by simp
      rw [this, hv1, hv2]
      simp only [Option.bind_some]
      generalize hx : w3 ++ b!"?>" ++ rest = x at *
      have hd : (w2 ++ (e ++ x)).dropWhile isSpace = e ++ x := by
        refine dropWhile_white hw2 ?_
        simp only [List.mem_cons, List.not_mem_nil, or_false] at he
        rcases he with rfl | rfl | rfl | rfl <;> (intro b hb; cases hb; decide)
      have ha : after [b!"encoding=\"UTF-8\"", b!"encoding='UTF-8'", b!"encoding=\"utf-8\"", b!"encoding='utf-8'"] (e ++ x) = some x := by
        simp only [List.mem_cons, List.not_mem_nil, or_false] at he
        rcases he with rfl | rfl | rfl | rfl <;> rfl
      have hnq : ∀ r, e ++ x ≠ 63 :: 62 :: r := by
        simp only [List.mem_cons, List.not_mem_nil, or_false] at he
        rcases he with rfl | rfl | rfl | rfl <;> (intro r hh; simp at hh)
      have hnn : e ++ x ≠ w2 ++ (e ++ x) := by
        intro hh
        have := congrArg List.length hh
        simp only [List.length_append] at this
        have : w2.length = 0 := by omega
        exact hne (List.length_eq_zero_iff.1 this)
      rw [hd]
      split
      · rename_i hh; exact absurd hh (hnq _)
      · rw [if_neg hnn, ha]
        simp only [Option.bind_some]
        rw [← hx, hq w3 hw3]
        rfl

end Xcore.Xml
