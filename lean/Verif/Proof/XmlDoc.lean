import Verif.Proof.XmlTok

/-! # Documents: model and grammar -/

namespace Xcore.Xml

open Language

/-! ## The decoder without a count of steps -/

theorem nextTok_shorter {s rest : Str} {t : Tok} (h : nextTok s = some (t, rest)) : rest.length < s.length := by
  obtain ⟨src, rfl, hp⟩ := nextTok_inv h
  have := List.length_pos_iff.2 hp.ne_nil
  simp; omega

theorem runN_fuel {n m : Nat} {st : St} {s : Str} (hn : s.length < n) (hm : s.length < m) : runN n st s = runN m st s := by
  induction n generalizing m st s with
  | zero => omega
  | succ n ih =>
    obtain ⟨m, rfl⟩ : ∃ j, m = j + 1 := ⟨m - 1, by omega⟩
    simp only [runN]
    cases ht : nextTok s with
    | none => rfl
    | some t =>
      obtain ⟨t, rest⟩ := t
      have := nextTok_shorter ht
      simp only [Option.bind_some]
      cases feed st t with
      | none => rfl
      | some r =>
        simp only [Option.bind_some]
        split
        · rfl
        · exact ih (by omega) (by omega)

/-- The decoder from a state on. -/
def go (st : St) (s : Str) : Option XLang := runN (s.length + 1) st s

theorem go_tok {st : St} {s rest : Str} {t : Tok} (h : nextTok s = some (t, rest)) :
    go st s = (feed st t).bind fun r => if r.2 then some r.1.doc else go r.1 rest := by
  have hs := nextTok_shorter h
  have e : go st s = (feed st t).bind fun r => if r.2 then some r.1.doc else runN s.length r.1 rest := by
    simp only [go, runN, h, Option.bind_some]
  rw [e]
  cases feed st t with
  | none => rfl
  | some r =>
    simp only [Option.bind_some]
    split
    · rfl
    · exact runN_fuel (by omega) (by omega)

theorem go_piece {st : St} {src rest : Str} {t : Tok} (h : Piece src rest t) :
    go st (src ++ rest) = (feed st t).bind fun r => if r.2 then some r.1.doc else go r.1 rest := go_tok (nextTok_of h)

/-! ## What nodes do -/

theorem attr_eq (a : List (Str × Str)) (n : Str) : attr a n = valueOf a n := by
  unfold attr valueOf
  rw [List.getLast?_eq_head?_reverse, ← List.filter_reverse, List.head?_filter]

/-- The state after nodes, inside of the root element. -/
def absorb (st : St) (l : List Node) : St :=
  match st.pos with
  | .prolog => st
  | .root => { st with doc := { st.doc with entries := st.doc.entries ++ entriesOf l } }
  | .entry e => { st with pos := .entry { e with entry := e.entry ++ textOf l } }
  | .skip _ _ => st

theorem absorb_nil (st : St) : absorb st [] = st := by
  obtain ⟨names, pos, doc⟩ := st
  cases pos <;> simp [absorb, entriesOf, textOf]

theorem absorb_cons (st : St) (x : Node) (l : List Node) : absorb st (x :: l) = absorb (absorb st [x]) l := by
  obtain ⟨names, pos, doc⟩ := st
  cases pos with
  | prolog => rfl
  | skip d e => rfl
  | entry e => simp [absorb, textOf, List.append_assoc]
  | root =>
    simp only [absorb]
    have : entriesOf (x :: l) = entriesOf [x] ++ entriesOf l := by
      unfold entriesOf
      rw [← List.filterMap_append]; rfl
    simp [this]

theorem absorb_names (st : St) (l : List Node) : (absorb st l).names = st.names := by
  unfold absorb; split <;> rfl

theorem absorb_pos {st : St} (h : st.pos ≠ .prolog) (l : List Node) : (absorb st l).pos ≠ .prolog := by
  unfold absorb; split <;> simp_all

theorem absorb_text {st : St} (m : Str) : onText st m = absorb st [.text m] := by
  obtain ⟨names, pos, doc⟩ := st
  cases pos <;> simp [absorb, onText, entriesOf, textOf]

theorem onStart_pos (st : St) (n : Str) (a : List (Str × Str)) : (onStart st n a).pos ≠ .prolog := by
  unfold onStart
  cases st.pos with
  | root => simp only; split <;> simp
  | _ => simp

theorem onStart_names (st : St) (n : Str) (a : List (Str × Str)) : (onStart st n a).names = n :: st.names := by
  unfold onStart
  cases st.pos with
  | root => simp only; split <;> rfl
  | _ => rfl

theorem element_closes {st : St} (h : st.pos ≠ .prolog) (n : Str) (a : List (Str × Str)) (cs : List Node) :
    onStop (absorb (onStart st n a) cs) n = some (absorb st [.element n a cs], false) := by
  obtain ⟨names, pos, doc⟩ := st
  cases pos with
  | prolog => exact absurd rfl h
  | skip d e => simp [onStart, absorb, onStop]
  | entry e => simp [onStart, absorb, onStop, textOf]
  | root =>
    by_cases hn : n = b!"entry"
    · simp [onStart, hn, absorb, onStop, entriesOf, attr_eq]
    · simp [onStart, hn, absorb, onStop, entriesOf]

theorem root_closes (ns : List Str) (n : Str) (a : List (Str × Str)) (doc : XLang) (cs : List Node) :
    ∃ st', onStop (absorb (onStart ⟨ns, .prolog, doc⟩ n a) cs) n = some (st', true) ∧
      st'.doc = ⟨valueOf a b!"id", valueOf a b!"lang", entriesOf cs⟩ := by
  refine ⟨⟨ns, .root, ⟨attr a b!"id", attr a b!"lang", [] ++ entriesOf cs⟩⟩, ?_, by simp [attr_eq]⟩
  simp only [onStart, absorb, onStop, ne_eq, not_true_eq_false, if_false]

/-! ## From the grammar to the decoder -/

theorem EndTag.head {e n : Str} (h : EndTag e n) (x : Str) : (e ++ x).head? = some 60 := by
  cases h; rfl

theorem go_content {s : Str} {l : List Node} (h : Content s l) {st : St} (hp : st.pos ≠ .prolog) {rest : Str} (hr : rest.head? = some 60) :
    go st (s ++ rest) = go (absorb st l) rest := by
  induction h generalizing st rest with
  | nil => rw [absorb_nil]; rfl
  | @text s m r l ht hh _ ih =>
    have hh' : r ++ rest = [] ∨ (r ++ rest).head? = some 60 := by
      rcases hh with rfl | hh
      · exact Or.inr hr
      · cases r with
        | nil => cases hh
        | cons b r => exact Or.inr hh
    rw [List.append_assoc, go_piece (t := .text m) (Or.inl ⟨ht, hh'⟩)]
    simp only [feed, Option.bind_some, Bool.false_eq_true, if_false]
    rw [absorb_text, ih (absorb_pos hp _) hr, ← absorb_cons]
  | @cdata s m r l ht _ ih =>
    rw [List.append_assoc, go_piece (t := .text m) (Or.inr ht)]
    simp only [feed, Option.bind_some, Bool.false_eq_true, if_false]
    rw [absorb_text, ih (absorb_pos hp _) hr, ← absorb_cons]
  | @misc s r l ht _ ih =>
    rw [List.append_assoc, go_piece (t := .other) ht]
    simp only [feed, Option.bind_some, Bool.false_eq_true, if_false]
    exact ih hp hr
  | @empty s n a r l ht _ ih =>
    rw [List.append_assoc, go_piece (t := .start n a true) ht]
    have e := element_closes hp n a []
    rw [absorb_nil] at e
    simp only [feed]
    rw [e]
    simp only [Option.bind_some, Bool.false_eq_true, if_false]
    rw [ih (absorb_pos hp _) hr, ← absorb_cons]
  | @element s n a c cs e r l ht _ he _ ih1 ih2 =>
    rw [List.append_assoc, List.append_assoc, List.append_assoc, go_piece (t := .start n a false) ht]
    simp only [feed, Option.bind_some, Bool.false_eq_true, if_false]
    rw [ih1 (onStart_pos _ _ _) (he.head _), go_piece (t := .stop n) he]
    simp only [feed]
    rw [element_closes hp]
    simp only [Option.bind_some, Bool.false_eq_true, if_false]
    rw [ih2 (absorb_pos hp _) hr, ← absorb_cons]

/-- Before the root element. -/
abbrev prolog : St := ⟨[], .prolog, ⟨[], [], []⟩⟩

theorem go_document {s : Str} {l : List Node} (h : Content s l) : ∀ (before : List Node) n a cs, l = before ++ [.element n a cs] →
    (∀ x ∈ before, ∃ t, x = .text t) → ∀ rest, go prolog (s ++ rest) = some ⟨valueOf a b!"id", valueOf a b!"lang", entriesOf cs⟩ := by
  induction h with
  | nil => intro before n a cs e; simp at e
  | @text s m r l ht hh hc ih =>
    intro before n a cs e hb rest
    cases before with
    | nil => simp at e
    | cons x before =>
      simp only [List.cons_append, List.cons.injEq] at e
      have hne : r ≠ [] := by
        rintro rfl
        have : l = [] := by
          generalize hz : ([] : Str) = z at hc
          cases hc with
          | nil => rfl
          | text h _ _ => cases h with | mk hne _ _ _ => simp at hz; exact absurd hz.1 hne
          | cdata h _ => cases h; simp at hz
          | misc h _ => cases h <;> simp at hz
          | empty h _ => cases h; simp at hz
          | element h _ _ _ => cases h; simp at hz
        rw [this] at e
        simp at e
      have hh' : r ++ rest = [] ∨ (r ++ rest).head? = some 60 := by
        cases r with
        | nil => exact absurd rfl hne
        | cons b r => rcases hh with hh | hh; cases hh; exact Or.inr hh
      rw [List.append_assoc, go_piece (t := .text m) (Or.inl ⟨ht, hh'⟩)]
      simp only [feed, Option.bind_some, Bool.false_eq_true, if_false]
      exact ih before n a cs e.2 (fun x hx => hb x (by simp [hx])) rest
  | @cdata s m r l ht _ ih =>
    intro before n a cs e hb rest
    cases before with
    | nil => simp at e
    | cons x before =>
      simp only [List.cons_append, List.cons.injEq] at e
      rw [List.append_assoc, go_piece (t := .text m) (Or.inr ht)]
      simp only [feed, Option.bind_some, Bool.false_eq_true, if_false]
      exact ih before n a cs e.2 (fun x hx => hb x (by simp [hx])) rest
  | @misc s r l ht _ ih =>
    intro before n a cs e hb rest
    rw [List.append_assoc, go_piece (t := .other) ht]
    simp only [feed, Option.bind_some, Bool.false_eq_true, if_false]
    exact ih before n a cs e hb rest
  | @empty s n' a' r l ht _ ih =>
    intro before n a cs e hb rest
    cases before with
    | cons x before =>
      simp only [List.cons_append, List.cons.injEq] at e
      obtain ⟨t, ht⟩ := hb x (by simp)
      rw [ht] at e; cases e.1
    | nil =>
      simp only [List.nil_append, List.cons.injEq] at e
      obtain ⟨e, rfl⟩ := e
      cases e
      rw [List.append_assoc, go_piece (t := .start n' a' true) ht]
      obtain ⟨st', k1, k2⟩ := root_closes [] n' a' ⟨[], [], []⟩ []
      rw [absorb_nil] at k1
      simp only [feed]
      rw [k1]
      simp [k2]
  | @element s n' a' c cs' en r l ht hc he _ _ _ =>
    intro before n a cs e hb rest
    cases before with
    | cons x before =>
      simp only [List.cons_append, List.cons.injEq] at e
      obtain ⟨t, ht⟩ := hb x (by simp)
      rw [ht] at e; cases e.1
    | nil =>
      simp only [List.nil_append, List.cons.injEq] at e
      obtain ⟨e, rfl⟩ := e
      cases e
      rw [List.append_assoc, List.append_assoc, List.append_assoc, go_piece (t := .start n' a' false) ht]
      simp only [feed, Option.bind_some, Bool.false_eq_true, if_false]
      rw [go_content hc (onStart_pos _ _ _) (he.head _), go_piece (t := .stop n') he]
      obtain ⟨st', k1, k2⟩ := root_closes [] n' a' ⟨[], [], []⟩ cs'
      simp only [feed]
      rw [k1]
      simp [k2]

/-! ## From the decoder to the grammar -/

theorem follow_of {c e rest : Str} (h : c ++ e ++ rest = [] ∨ (c ++ e ++ rest).head? = some 60) : c = [] ∨ c.head? = some 60 := by
  cases c with
  | nil => exact Or.inl rfl
  | cons b c => simpa using h

theorem content_of_go {s : Str} {st : St} {n0 : Str} {ns : List Str} {d : XLang} (hp : st.pos ≠ .prolog) (hn : st.names = n0 :: ns) (h : go st s = some d) :
    ∃ c l e rest, s = c ++ e ++ rest ∧ Content c l ∧ EndTag e n0 ∧
      ∃ st' fin, onStop (absorb st l) n0 = some (st', fin) ∧ (if fin then some st'.doc else go st' rest) = some d := by
  induction hlen : s.length using Nat.strongRecOn generalizing s st n0 ns with
  | ind k ih =>
  subst hlen
  cases ht : nextTok s with
  | none => simp [go, runN, ht] at h
  | some t =>
    obtain ⟨t, r⟩ := t
    have hlt := nextTok_shorter ht
    rw [go_tok ht] at h
    obtain ⟨src, rfl, hpc⟩ := nextTok_inv ht
    have more : ∀ x, go (absorb st x) r = some d → ∃ c l e rest, r = c ++ e ++ rest ∧ Content c l ∧ EndTag e n0 ∧
        ∃ st' fin, onStop (absorb st (x ++ l)) n0 = some (st', fin) ∧ (if fin then some st'.doc else go st' rest) = some d := by
      intro x hx
      obtain ⟨c, l, e, rest, h1, h2, h3, st', fin, h4, h5⟩ := ih r.length hlt (absorb_pos hp x) (by rw [absorb_names, hn]) hx rfl
      refine ⟨c, l, e, rest, h1, h2, h3, st', fin, ?_, h5⟩
      rw [← h4]
      congr 1
      clear h hx ih h4
      induction x generalizing st with
      | nil => rw [absorb_nil]; rfl
      | cons y x ihx =>
        rw [List.cons_append, absorb_cons, absorb_cons st y x]
        exact ihx (absorb_pos hp _) (by rw [absorb_names, hn])
    cases t with
    | other =>
      simp only [feed, Option.bind_some, Bool.false_eq_true, if_false] at h
      obtain ⟨c, l, e, rest, rfl, h2, h3, h4⟩ := more [] (by rw [absorb_nil]; exact h)
      exact ⟨src ++ c, l, e, rest, by simp, .misc hpc h2, h3, h4⟩
    | text m =>
      simp only [feed, Option.bind_some, Bool.false_eq_true, if_false] at h
      rw [absorb_text] at h
      obtain ⟨c, l, e, rest, rfl, h2, h3, h4⟩ := more _ h
      refine ⟨src ++ c, .text m :: l, e, rest, by simp, ?_, h3, h4⟩
      rcases hpc with ⟨h5, h6⟩ | h5
      · exact .text h5 (follow_of h6) h2
      · exact .cdata h5 h2
    | stop n =>
      simp only [feed] at h
      cases ho : onStop st n with
      | none => rw [ho] at h; cases h
      | some q =>
        obtain ⟨st', fin⟩ := q
        rw [ho] at h
        simp only [Option.bind_some] at h
        have hnn : n = n0 := by
          unfold onStop at ho
          rw [hn] at ho
          simp only at ho
          split at ho
          · cases ho
          · rename_i e; exact (Decidable.not_not.1 e).symm
        subst hnn
        exact ⟨[], [], src, r, by simp, .nil, hpc, st', fin, by rw [absorb_nil]; exact ho, h⟩
    | start n a close =>
      cases close with
      | true =>
        simp only [feed] at h
        have e := element_closes hp n a []
        rw [absorb_nil] at e
        rw [e] at h
        simp only [Option.bind_some, Bool.false_eq_true, if_false] at h
        obtain ⟨c, l, e, rest, rfl, h2, h3, h4⟩ := more _ h
        exact ⟨src ++ c, .element n a [] :: l, e, rest, by simp, .empty hpc h2, h3, h4⟩
      | false =>
        simp only [feed, Option.bind_some, Bool.false_eq_true, if_false] at h
        obtain ⟨c1, l1, e1, r1, rfl, k1, k2, st1, fin1, k3, k4⟩ := ih r.length hlt (onStart_pos st n a) (onStart_names st n a) h rfl
        rw [element_closes hp] at k3
        simp only [Option.some.injEq, Prod.mk.injEq] at k3
        obtain ⟨rfl, rfl⟩ := k3
        simp only [Bool.false_eq_true, if_false] at k4
        obtain ⟨c, l, e, rest, rfl, h2, h3, st', fin, h4, h5⟩ :=
          ih r1.length (by simp at hlt ⊢; omega) (absorb_pos hp [.element n a l1]) (by rw [absorb_names, hn]) k4 rfl
        rw [← absorb_cons] at h4
        exact ⟨src ++ c1 ++ e1 ++ c, .element n a l1 :: l, e, rest, by simp, .element hpc k1 k2 h2, h3, st', fin, h4, h5⟩

theorem document_of_go {s : Str} {d : XLang} (h : go prolog s = some d) :
    ∃ src rest before n a cs, s = src ++ rest ∧ Content src (before ++ [.element n a cs]) ∧ (∀ x ∈ before, ∃ t, x = Node.text t) ∧
      d = ⟨valueOf a b!"id", valueOf a b!"lang", entriesOf cs⟩ := by
  induction hlen : s.length using Nat.strongRecOn generalizing s with
  | ind k ih =>
  subst hlen
  cases ht : nextTok s with
  | none => simp [go, runN, ht] at h
  | some t =>
    obtain ⟨t, r⟩ := t
    have hlt := nextTok_shorter ht
    rw [go_tok ht] at h
    obtain ⟨src, rfl, hpc⟩ := nextTok_inv ht
    cases t with
    | other =>
      simp only [feed, Option.bind_some, Bool.false_eq_true, if_false] at h
      obtain ⟨s2, rest, before, n, a, cs, rfl, h2, h3, h4⟩ := ih r.length hlt h rfl
      exact ⟨src ++ s2, rest, before, n, a, cs, by simp, .misc hpc h2, h3, h4⟩
    | text m =>
      simp only [feed, onText, Option.bind_some, Bool.false_eq_true, if_false] at h
      obtain ⟨s2, rest, before, n, a, cs, rfl, h2, h3, h4⟩ := ih r.length hlt h rfl
      refine ⟨src ++ s2, rest, .text m :: before, n, a, cs, by simp, ?_, ?_, h4⟩
      · rcases hpc with ⟨h5, h6⟩ | h5
        · exact .text h5 (follow_of (e := []) (by simpa using h6)) h2
        · exact .cdata h5 h2
      · intro x hx
        rcases List.mem_cons.1 hx with rfl | hx
        · exact ⟨m, rfl⟩
        · exact h3 x hx
    | stop n =>
      simp only [feed, onStop] at h
      cases h
    | start n a close =>
      cases close with
      | true =>
        obtain ⟨st', k1, k2⟩ := root_closes [] n a ⟨[], [], []⟩ []
        rw [absorb_nil] at k1
        simp only [feed] at h
        rw [k1] at h
        simp only [Option.bind_some, if_true, Option.some.injEq] at h
        refine ⟨src, r, [], n, a, [], rfl, ?_, by simp, by rw [← h, k2]⟩
        have := Content.empty hpc .nil
        simpa using this
      | false =>
        simp only [feed, Option.bind_some, Bool.false_eq_true, if_false] at h
        obtain ⟨c1, l1, e1, r1, rfl, k1, k2, st1, fin1, k3, k4⟩ := content_of_go (onStart_pos prolog n a) (onStart_names prolog n a) h
        obtain ⟨st', j1, j2⟩ := root_closes [] n a ⟨[], [], []⟩ l1
        rw [j1] at k3
        simp only [Option.some.injEq, Prod.mk.injEq] at k3
        obtain ⟨rfl, rfl⟩ := k3
        simp only [if_true, Option.some.injEq] at k4
        refine ⟨src ++ c1 ++ e1, r1, [], n, a, l1, by simp, ?_, by simp, by rw [← k4, j2]⟩
        have := Content.element hpc k1 k2 .nil
        simpa using this

theorem unmarshal_iff {s : Str} {d : XLang} : unmarshal s = some d ↔ ∃ src rest, s = src ++ rest ∧ Document src d := by
  show go prolog s = some d ↔ _
  constructor
  · intro h
    obtain ⟨src, rest, before, n, a, cs, rfl, h1, h2, rfl⟩ := document_of_go h
    exact ⟨src, rest, rfl, .mk h1 h2⟩
  · rintro ⟨src, rest, rfl, h⟩
    cases h with
    | mk h1 h2 => exact go_document h1 _ _ _ _ rfl h2 rest

end Xcore.Xml
