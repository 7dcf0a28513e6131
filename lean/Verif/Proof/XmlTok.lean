import Verif.Proof.XmlMarkup

/-! # Tokens: model and grammar -/

namespace Xcore.Xml

open Language



/-- What the grammar says of a token read. -/
def Piece (src rest : Str) : Tok → Prop
  | .start n a false => Tag b!">" src n a
  | .start n a true => Tag b!"/>" src n a
  | .stop n => EndTag src n
  | .text m => (Text src m ∧ (rest = [] ∨ rest.head? = some 60)) ∨ CData src m
  | .other => Misc src

theorem nextTok_tag {b : UInt8} (h : nameByte b = true) (t : Str) :
    nextTok (60 :: b :: t) = (readName (b :: t)).bind fun q => (attrsN (q.2.length + 1) q.2 []).map fun a => (.start q.1 a.1 a.2.1, a.2.2) := by
  have hb := nameByte_ascii b h
  unfold nextTok
  split
  · rename_i e; cases e
  · rename_i e; simp only [List.cons.injEq] at e; exact absurd e.2.1 hb.2.2.2.2.2.2.1
  · rename_i e; simp only [List.cons.injEq] at e; exact absurd e.2.1 hb.2.2.2.2.1
  · rename_i e; simp only [List.cons.injEq] at e; exact absurd e.2.1 hb.2.2.2.2.2.2.2
  · rename_i e; simp only [List.cons.injEq] at e; exact absurd e.2.1 hb.2.2.2.2.2.2.2
  · rename_i e; simp only [List.cons.injEq] at e; exact absurd e.2.1 hb.2.2.2.2.2.2.2
  · rename_i r _ _ _ _ _ e
    simp only [List.cons.injEq, true_and] at e
    subst e; rfl
  · rename_i h1
    exact (h1 (b :: t) rfl).elim

theorem nextTok_plain {b : UInt8} (h : b ≠ 60) (t : Str) : nextTok (b :: t) = (Xml.text none false (b :: t)).map fun q => (.text q.1, q.2) := by
  unfold nextTok
  split <;> first | rfl | (rename_i e; simp only [List.cons.injEq] at e; exact absurd e.1 h) | (rename_i e; cases e)

theorem tag_next {close : Bool} {src n : Str} {a : List (Str × Str)} (h : Tag (if close then b!"/>" else b!">") src n a) (rest : Str) :
    nextTok (src ++ rest) = some (.start n a close, rest) := by
  generalize hcl : (if close then b!"/>" else b!">") = cl at h
  cases h with
  | @mk n as l w hn ha hd hw =>
    obtain ⟨b, n', rfl, hb⟩ := hn.ne_nil
    have e : b!"<" ++ (b :: n') ++ as ++ w ++ cl ++ rest = 60 :: b :: (n' ++ (as ++ w ++ cl ++ rest)) := by simp
    rw [e, nextTok_tag (nameByte_of_start _ hb)]
    have hr : readName (b :: (n' ++ (as ++ w ++ cl ++ rest))) = some (b :: n', as ++ w ++ cl ++ rest) := by
      have key : ∃ d r, as ++ w ++ cl ++ rest = d :: r ∧ Stop d := by
        rcases hd with rfl | ⟨d, hd, hwd⟩
        · cases w with
          | nil =>
            cases close
            · simp only [Bool.false_eq_true, if_false] at hcl; subst hcl
              exact ⟨62, _, rfl, by unfold Stop; decide⟩
            · simp only [if_true] at hcl; subst hcl
              exact ⟨47, _, rfl, by unfold Stop; decide⟩
          | cons c w => exact ⟨c, _, rfl, stop_space (white_iff.1 hw c (by simp))⟩
        · cases as with
          | nil => simp at hd
          | cons c as =>
            simp only [List.head?_cons, Option.mem_def, Option.some.injEq] at hd
            subst hd
            exact ⟨c, _, rfl, stop_space (white_iff.1 hwd c (by simp))⟩
      obtain ⟨d, r, e2, hs⟩ := key
      rw [e2]
      exact readName_of hn hs r
    rw [hr]
    simp only [Option.bind_some]
    rw [← hcl, attrsN_of ha hw close rest _ (by have := ha.length; simp; omega)]
    rfl

theorem endTag_next {src n : Str} (h : EndTag src n) (rest : Str) : nextTok (src ++ rest) = some (.stop n, rest) := by
  cases h with
  | @mk n w hn hw =>
    have e : b!"</" ++ n ++ w ++ b!">" ++ rest = 60 :: 47 :: (n ++ (w ++ 62 :: rest)) := by simp
    rw [e]
    show ((readName (n ++ (w ++ 62 :: rest))).bind _) = _
    have hr : readName (n ++ (w ++ 62 :: rest)) = some (n, w ++ 62 :: rest) := by
      cases w with
      | nil => exact readName_of hn (d := 62) (by unfold Stop; decide) _
      | cons c w => exact readName_of hn (stop_space (white_iff.1 hw c (by simp))) _
    rw [hr]
    simp only [Option.bind_some]
    rw [dropWhile_white hw (by intro b hb; cases hb; decide)]
    rfl

theorem misc_next {src : Str} (h : Misc src) (rest : Str) : nextTok (src ++ rest) = some (.other, rest) := by
  have decl : ∀ w1 t, White w1 → w1 ≠ [] → declaration (w1 ++ t) = some rest → nextTok (b!"<?xml" ++ (w1 ++ t)) = some (.other, rest) := by
    intro w1 t hw hne hd
    obtain ⟨c, w, rfl⟩ := List.exists_cons_of_ne_nil hne
    have hr : readName (b!"xml" ++ (c :: w ++ t)) = some (b!"xml", c :: w ++ t) :=
      readName_of (by rw [name_iff]; decide) (stop_space (white_iff.1 hw c (by simp))) _
    show ((readName (b!"xml" ++ (c :: w ++ t))).bind _) = _
    rw [hr]
    simp only [Option.bind_some, if_true]
    rw [hd]; rfl
  cases h with
  | @comment c hc =>
    have e : b!"<!--" ++ c ++ b!"-->" ++ rest = b!"<!--" ++ (c ++ b!"-->" ++ rest) := by simp
    rw [e]
    show ((pastComment (c ++ b!"-->" ++ rest)).map _) = _
    rw [pastComment_iff.2 ⟨c, rfl, hc⟩]; rfl
  | @instruction n d hn hne hd hi =>
    have e : b!"<?" ++ n ++ d ++ b!"?>" ++ rest = 60 :: 63 :: (n ++ (d ++ b!"?>" ++ rest)) := by simp
    rw [e]
    show ((readName (n ++ (d ++ b!"?>" ++ rest))).bind _) = _
    rcases hd with rfl | ⟨c, hc, hw⟩
    · have hr : readName (n ++ ([] ++ b!"?>" ++ rest)) = some (n, b!"?>" ++ rest) := readName_of hn (d := 63) (by unfold Stop; decide) _
      rw [hr]
      simp only [Option.bind_some, hne, if_false]
      rfl
    · cases d with
      | nil => simp at hc
      | cons c' d =>
        simp only [List.head?_cons, Option.mem_def, Option.some.injEq] at hc
        subst hc
        have hsp := white_iff.1 hw c' (by simp)
        have hr : readName (n ++ (c' :: d ++ b!"?>" ++ rest)) = some (n, c' :: d ++ b!"?>" ++ rest) := readName_of hn (stop_space hsp) _
        rw [hr]
        simp only [Option.bind_some, hne, if_false]
        have hp : pastInstruction (d ++ b!"?>" ++ rest) = some rest :=
          pastInstruction_iff.2 ⟨d, rfl, fun hh => hi (hh.trans (List.suffix_cons c' d).isInfix)⟩
        simp only [List.cons_append]
        split
        · rename_i e2
          simp only [List.cons.injEq] at e2
          rw [e2.1] at hsp
          exact absurd hsp (by decide)
        · rename_i b r _ e2
          simp only [List.cons.injEq] at e2
          obtain ⟨rfl, rfl⟩ := e2
          rw [if_pos hsp, hp]; rfl
        · rename_i e2; cases e2
  | @declaration w1 v w2 hw1 hne hv hw2 =>
    have e : b!"<?xml" ++ w1 ++ v ++ w2 ++ b!"?>" ++ rest = b!"<?xml" ++ (w1 ++ (v ++ w2 ++ b!"?>" ++ rest)) := by simp
    rw [e]
    exact decl _ _ hw1 hne (declaration_iff.2 ⟨w1, v, w2, hw1, hv, hw2, Or.inl (by simp)⟩)
  | @encoded w1 v w2 ec w3 hw1 hne hv hw2 hne2 he hw3 =>
    have e : b!"<?xml" ++ w1 ++ v ++ w2 ++ ec ++ w3 ++ b!"?>" ++ rest = b!"<?xml" ++ (w1 ++ (v ++ w2 ++ ec ++ w3 ++ b!"?>" ++ rest)) := by simp
    rw [e]
    exact decl _ _ hw1 hne (declaration_iff.2 ⟨w1, v, w2, hw1, hv, hw2, Or.inr ⟨ec, w3, hne2, he, hw3, by simp⟩⟩)

theorem Literal.head {s m : Str} (h : Literal true s m) : s.head? ≠ some 60 := by
  cases h with
  | nil => simp
  | byte _ hb _ => simpa using (hb rfl).2
  | crlf _ => simp
  | cr _ _ => simp
  | reference _ _ _ => simp

theorem nextTok_of {src rest : Str} {t : Tok} (h : Piece src rest t) : nextTok (src ++ rest) = some (t, rest) := by
  cases t with
  | start n a close =>
    cases close with
    | false => exact tag_next (close := false) h rest
    | true => exact tag_next (close := true) h rest
  | stop n => exact endTag_next h rest
  | other => exact misc_next h rest
  | text m =>
    rcases h with ⟨h, hr⟩ | h
    · cases h with
      | mk hne h1 h2 h3 =>
        obtain ⟨b, s, rfl⟩ := List.exists_cons_of_ne_nil hne
        have hb : b ≠ 60 := by have := h1.head; simpa using this
        rw [List.cons_append, nextTok_plain hb, ← List.cons_append, text_plain_iff.2 ⟨b :: s, rfl, h1, h2, h3, hr⟩]
        rfl
    · cases h with
      | @mk s m h1 h2 h3 =>
        have e : b!"<![CDATA[" ++ s ++ b!"]]>" ++ rest = b!"<![CDATA[" ++ (s ++ b!"]]>" ++ rest) := by simp
        rw [e, nextTok_cdata, text_cdata_iff.2 ⟨s, rfl, h1, h2, h3⟩]
        rfl

theorem nextTok_inv {s rest : Str} {t : Tok} (h : nextTok s = some (t, rest)) : ∃ src, s = src ++ rest ∧ Piece src rest t := by
  unfold nextTok at h
  split at h
  · cases h
  · -- <?
    rename_i r
    cases hr : readName r with
    | none => rw [hr] at h; cases h
    | some q =>
      obtain ⟨n, r2⟩ := q
      rw [hr] at h
      simp only [Option.bind_some] at h
      obtain ⟨hn, rfl, d, r3, rfl, hs⟩ := readName_inv hr
      split at h
      · rename_i hx
        subst hx
        cases hd : declaration (d :: r3) with
        | none => rw [hd] at h; cases h
        | some r4 =>
          rw [hd] at h
          simp only [Option.map_some, Option.some.injEq, Prod.mk.injEq] at h
          obtain ⟨rfl, rfl⟩ := h
          obtain ⟨w1, v, w2, hw1, hv, hw2, h⟩ := declaration_iff.1 hd
          have hne : ∀ x, d :: r3 = w1 ++ (v ++ x) → w1 ≠ [] := by
            rintro x e rfl
            simp only [List.mem_cons, List.not_mem_nil, or_false] at hv
            have hd118 : d = 118 := by rcases hv with rfl | rfl <;> (simp only [List.nil_append, List.cons_append, List.cons.injEq] at e; exact e.1)
            rw [hd118] at hs
            exact absurd hs.1 (by decide)
          rcases h with e | ⟨ec, w3, hne2, he, hw3, e⟩
          · refine ⟨b!"<?xml" ++ w1 ++ v ++ w2 ++ b!"?>", by rw [e]; simp, ?_⟩
            exact .declaration hw1 (hne (w2 ++ b!"?>" ++ r4) (by rw [e]; simp)) hv hw2
          · refine ⟨b!"<?xml" ++ w1 ++ v ++ w2 ++ ec ++ w3 ++ b!"?>", by rw [e]; simp, ?_⟩
            exact .encoded hw1 (hne (w2 ++ ec ++ w3 ++ b!"?>" ++ r4) (by rw [e]; simp)) hv hw2 hne2 he hw3
      · rename_i hx
        split at h
        · rename_i r4 e
          simp only [Option.some.injEq, Prod.mk.injEq] at h
          obtain ⟨rfl, rfl⟩ := h
          refine ⟨b!"<?" ++ n ++ [] ++ b!"?>", by rw [e]; simp, ?_⟩
          exact .instruction hn hx (Or.inl rfl) (by simp)
        · rename_i b r4 _ e
          simp only [List.cons.injEq] at e
          obtain ⟨rfl, rfl⟩ := e
          split at h
          · rename_i hsp
            cases hp : pastInstruction r3 with
            | none => rw [hp] at h; cases h
            | some r4 =>
              rw [hp] at h
              simp only [Option.map_some, Option.some.injEq, Prod.mk.injEq] at h
              obtain ⟨rfl, rfl⟩ := h
              obtain ⟨dd, rfl, hi⟩ := pastInstruction_iff.1 hp
              refine ⟨b!"<?" ++ n ++ (d :: dd) ++ b!"?>", by simp, .instruction hn hx (Or.inr ⟨d, by simp, ?_⟩) ?_⟩
              · rw [white_iff]; simpa using hsp
              · rw [List.infix_cons_iff]
                rintro (⟨t, ee⟩ | hh)
                · simp only [List.cons_append, List.cons.injEq] at ee
                  rw [← ee.1] at hsp
                  exact absurd hsp (by decide)
                · exact hi hh
          · cases h
        · cases h
  · -- </
    rename_i r
    cases hr : readName r with
    | none => rw [hr] at h; cases h
    | some q =>
      obtain ⟨n, r2⟩ := q
      rw [hr] at h
      simp only [Option.bind_some] at h
      obtain ⟨hn, rfl, _⟩ := readName_inv hr
      obtain ⟨w, hw, e⟩ := dropWhile_split r2
      split at h
      · rename_i r3 e2
        simp only [Option.some.injEq, Prod.mk.injEq] at h
        obtain ⟨rfl, rfl⟩ := h
        exact ⟨b!"</" ++ n ++ w ++ b!">", by rw [e, e2]; simp, .mk hn hw⟩
      · cases h
  · -- CDATA
    rename_i r
    cases hr : Xml.text none true r with
    | none => rw [hr] at h; cases h
    | some q =>
      obtain ⟨m, r2⟩ := q
      rw [hr] at h
      simp only [Option.map_some, Option.some.injEq, Prod.mk.injEq] at h
      obtain ⟨rfl, rfl⟩ := h
      obtain ⟨src, rfl, h1, h2, h3⟩ := text_cdata_iff.1 hr
      exact ⟨b!"<![CDATA[" ++ src ++ b!"]]>", by simp, Or.inr (.mk h1 h2 h3)⟩
  · -- comments
    rename_i r
    cases hr : pastComment r with
    | none => rw [hr] at h; cases h
    | some r2 =>
      rw [hr] at h
      simp only [Option.map_some, Option.some.injEq, Prod.mk.injEq] at h
      obtain ⟨rfl, rfl⟩ := h
      obtain ⟨c, rfl, hc⟩ := pastComment_iff.1 hr
      exact ⟨b!"<!--" ++ c ++ b!"-->", by simp, .comment hc⟩
  · cases h
  · -- tags
    rename_i r _ _ _ _ _
    cases hr : readName r with
    | none => rw [hr] at h; cases h
    | some q =>
      obtain ⟨n, r2⟩ := q
      rw [hr] at h
      simp only [Option.bind_some] at h
      obtain ⟨hn, rfl, d, r3, e, hs⟩ := readName_inv hr
      cases ha : attrsN (r2.length + 1) r2 [] with
      | none => rw [ha] at h; cases h
      | some p =>
        obtain ⟨l, close, r4⟩ := p
        rw [ha] at h
        simp only [Option.map_some, Option.some.injEq, Prod.mk.injEq] at h
        obtain ⟨rfl, rfl⟩ := h
        obtain ⟨a, l, w, rfl, k1, k2, k3⟩ := attrsN_inv ha
        have hh := k1.head (t := w ++ (if close then b!"/>" else b!">") ++ r4) (x := d) (r := r3) (by rw [← e, k3]; simp) hs.1
        refine ⟨b!"<" ++ n ++ a ++ w ++ (if close then b!"/>" else b!">"), by rw [k3]; simp, ?_⟩
        cases close with
        | false => exact .mk hn k1 hh k2
        | true => exact .mk hn k1 hh k2
  · -- text
    rename_i h0 _ _ _ _ _ h1
    cases hr : Xml.text none false s with
    | none => rw [hr] at h; cases h
    | some q =>
      obtain ⟨m, r2⟩ := q
      rw [hr] at h
      simp only [Option.map_some, Option.some.injEq, Prod.mk.injEq] at h
      obtain ⟨rfl, rfl⟩ := h
      obtain ⟨src, rfl, k1, k2, k3, k4⟩ := text_plain_iff.1 hr
      refine ⟨src, rfl, Or.inl ⟨.mk ?_ k1 k2 k3, k4⟩⟩
      rintro rfl
      rcases k4 with rfl | k4
      · exact h0 rfl
      · cases r2 with
        | nil => cases k4
        | cons b r2 =>
          simp only [List.head?_cons, Option.some.injEq] at k4
          subst k4
          exact h1 r2 rfl

theorem Piece.ne_nil {src rest : Str} {t : Tok} (h : Piece src rest t) : src ≠ [] := by
  cases t with
  | start n a close => cases close <;> (cases h; simp)
  | stop n => cases h; simp
  | other => cases h <;> simp
  | text m =>
    rcases h with ⟨h, _⟩ | h
    · cases h; assumption
    · cases h; simp

end Xcore.Xml
