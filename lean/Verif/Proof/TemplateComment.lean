import Verif.Proof.TemplateTotal
import Verif.Proof.TemplateCompile
import Verif.Spec.TemplateComment

/-!
# Comments

Templates that differ only in comments, and in how literal texts are cut into pieces, render the same.
-/

namespace Xcore.Template

open Xcore.Dataset

/-! ## Documents -/

/-- Put a literal text in front. -/
def Doc.join (t : Str) : Doc → Doc
  | .elem ⟨.string, u⟩ r => .elem ⟨.string, t ++ u⟩ r
  | d => .elem ⟨.string, t⟩ d

/-- The document without comments. -/
def Doc.clean : Doc → Doc
  | .nil => .nil
  | .elem p r => match p.kind with
    | .comment => r.clean
    | .string => r.clean.join p.data
    | _ => .elem p r.clean
  | .box n b r => .box n b.clean r.clean

theorem joinText_nil (t : Str) : joinText t [] = [⟨.string, t⟩] := rfl

theorem joinText_string (t u : Str) (l : List Param) : joinText t (⟨.string, u⟩ :: l) = ⟨.string, t ++ u⟩ :: l := rfl

theorem joinText_other {t : Str} {p : Param} (hp : p.kind ≠ .string) (l : List Param) : joinText t (p :: l) = ⟨.string, t⟩ :: p :: l := by
  obtain ⟨k, d⟩ := p
  cases k <;> first | rfl | exact absurd rfl hp

theorem joinText_joinText (t u : Str) (l : List Param) : joinText t (joinText u l) = joinText (t ++ u) l := by
  cases l with
  | nil => rfl
  | cons p l =>
    by_cases hp : p.kind = .string
    · obtain ⟨k, d⟩ := p
      simp only at hp; subst hp
      simp [joinText_string]
    · rw [joinText_other hp, joinText_other hp]; rfl

theorem skeleton_comment (d : Str) (l : List Param) : skeleton (⟨.comment, d⟩ :: l) = skeleton l := rfl

theorem skeleton_string (d : Str) (l : List Param) : skeleton (⟨.string, d⟩ :: l) = joinText d (skeleton l) := rfl

theorem skeleton_other {p : Param} (h1 : p.kind ≠ .comment) (h2 : p.kind ≠ .string) (l : List Param) : skeleton (p :: l) = p :: skeleton l := by
  obtain ⟨k, d⟩ := p
  cases k <;> first | rfl | exact absurd rfl h1 | exact absurd rfl h2

theorem skeleton_joinText (t : Str) (l : List Param) : skeleton (joinText t l) = joinText t (skeleton l) := by
  cases l with
  | nil => rfl
  | cons p l =>
    by_cases hp : p.kind = .string
    · obtain ⟨k, d⟩ := p
      simp only at hp; subst hp
      rw [joinText_string, skeleton_string, skeleton_string, joinText_joinText]
    · rw [joinText_other hp, skeleton_string]

theorem joinText_append {t : Str} {l : List Param} {p : Param} (hp : p.kind ≠ .string) (m : List Param) :
    joinText t (l ++ p :: m) = joinText t l ++ p :: m := by
  cases l with
  | nil => rw [List.nil_append, joinText_other hp]; rfl
  | cons q l =>
    by_cases hq : q.kind = .string
    · obtain ⟨k, d⟩ := q
      simp only at hq; subst hq
      rfl
    · rw [List.cons_append, joinText_other hq, joinText_other hq]; rfl

theorem skeleton_append {p : Param} (h1 : p.kind ≠ .comment) (h2 : p.kind ≠ .string) (l m : List Param) :
    skeleton (l ++ p :: m) = skeleton l ++ p :: skeleton m := by
  induction l with
  | nil => exact skeleton_other h1 h2 m
  | cons q l ih =>
    obtain ⟨k, d⟩ := q
    rw [List.cons_append]
    by_cases hc : k = .comment
    · subst hc; rw [skeleton_comment, skeleton_comment, ih]
    · by_cases hs : k = .string
      · subst hs; rw [skeleton_string, skeleton_string, ih, joinText_append h2]
      · rw [skeleton_other hc hs, skeleton_other hc hs, ih]; rfl

theorem clean_comment (t : Str) (r : Doc) : (Doc.elem ⟨.comment, t⟩ r).clean = r.clean := rfl

theorem clean_string (t : Str) (r : Doc) : (Doc.elem ⟨.string, t⟩ r).clean = r.clean.join t := rfl

theorem clean_other {p : Param} (h1 : p.kind ≠ .comment) (h2 : p.kind ≠ .string) (r : Doc) : (Doc.elem p r).clean = .elem p r.clean := by
  obtain ⟨k, d⟩ := p
  cases k <;> first | rfl | exact absurd rfl h1 | exact absurd rfl h2

theorem join_other {t : Str} {p : Param} (h : p.kind ≠ .string) (r : Doc) : (Doc.elem p r).join t = .elem ⟨.string, t⟩ (.elem p r) := by
  obtain ⟨k, d⟩ := p
  cases k <;> first | rfl | exact absurd rfl h

theorem tokens_join (t : Str) (d : Doc) : (d.join t).tokens = joinText t d.tokens := by
  cases d with
  | nil => rfl
  | elem p r =>
    by_cases hp : p.kind = .string
    · obtain ⟨k, u⟩ := p
      simp only at hp; subst hp
      rfl
    · rw [join_other hp]
      simp only [Doc.tokens]
      rw [joinText_other hp]
  | box n b r => rfl

theorem tokens_clean (d : Doc) : d.clean.tokens = skeleton d.tokens := by
  induction d with
  | nil => rfl
  | elem p r ih =>
    obtain ⟨k, t⟩ := p
    simp only [Doc.tokens]
    by_cases hc : k = .comment
    · subst hc; rw [clean_comment, skeleton_comment, ih]
    · by_cases hs : k = .string
      · subst hs; rw [clean_string, skeleton_string, tokens_join, ih]
      · rw [clean_other hc hs, skeleton_other hc hs, Doc.tokens, ih]
  | box n b r ihb ih =>
    simp only [Doc.tokens, Doc.clean]
    rw [skeleton_other (by simp) (by simp), skeleton_append (by simp) (by simp), ihb, ih]

theorem plain_join {t : Str} {d : Doc} (h : d.Plain) : (d.join t).Plain := by
  cases d with
  | nil => simp [Doc.join, Doc.Plain]
  | elem p r =>
    by_cases hp : p.kind = .string
    · obtain ⟨k, u⟩ := p
      simp only at hp; subst hp
      exact h
    · rw [join_other hp]; simp [Doc.Plain] at h ⊢; exact h
  | box n b r => simp [Doc.join, Doc.Plain] at h ⊢; exact h

theorem plain_clean {d : Doc} (h : d.Plain) : d.clean.Plain := by
  induction d with
  | nil => trivial
  | elem p r ih =>
    obtain ⟨k, t⟩ := p
    by_cases hc : k = .comment
    · subst hc; rw [clean_comment]; exact ih h.2.2.2
    · by_cases hs : k = .string
      · subst hs; rw [clean_string]; exact plain_join (ih h.2.2.2)
      · rw [clean_other hc hs]; exact ⟨h.1, h.2.1, h.2.2.1, ih h.2.2.2⟩
  | box n b r ihb ih => exact ⟨h.1, ihb h.2.1, ih h.2.2⟩

theorem clean_eq {d d' : Doc} (h : d.Plain) (h' : d'.Plain) (e : skeleton d.tokens = skeleton d'.tokens) : d.clean = d'.clean := by
  rw [← tokens_clean, ← tokens_clean] at e
  exact (tokens_inj (plain_clean h) (plain_clean h') (r := []) (r' := []) (by simp) (by simp) (by simpa using e)).1

/-! ## Rendering -/

theorem own_join (t : Str) (d : Doc) : skeleton (d.join t).own = joinText t (skeleton d.own) := by
  cases d with
  | nil => rfl
  | elem p r =>
    by_cases hp : p.kind = .string
    · obtain ⟨k, u⟩ := p
      simp only at hp; subst hp
      simp only [Doc.join, Doc.own]
      rw [skeleton_string, skeleton_string, joinText_joinText]
    · rw [join_other hp]; rfl
  | box n b r => rfl

theorem own_clean (d : Doc) : skeleton d.clean.own = skeleton d.own := by
  induction d with
  | nil => rfl
  | elem p r ih =>
    obtain ⟨k, t⟩ := p
    simp only [Doc.own]
    by_cases hc : k = .comment
    · subst hc; rw [clean_comment, skeleton_comment, ih]
    · by_cases hs : k = .string
      · subst hs; rw [clean_string, skeleton_string, own_join, ih]
      · rw [clean_other hc hs, Doc.own, skeleton_other hc hs, skeleton_other hc hs, ih]
  | box n b r _ ih => exact ih

theorem find_join (t : Str) (d : Doc) (v : Str) : (d.join t).find v = d.find v := by
  cases d with
  | nil => rfl
  | elem p r =>
    by_cases hp : p.kind = .string
    · obtain ⟨k, u⟩ := p
      simp only at hp; subst hp
      rfl
    · rw [join_other hp]; rfl
  | box n b r => rfl

theorem find_clean (d : Doc) (v : Str) : d.clean.find v = (d.find v).map Doc.clean := by
  induction d with
  | nil => rfl
  | elem p r ih =>
    obtain ⟨k, t⟩ := p
    by_cases hc : k = .comment
    · subst hc; exact ih
    · by_cases hs : k = .string
      · subst hs; rw [clean_string, find_join]; exact ih
      · rw [clean_other hc hs]; exact ih
  | box n b r _ ih =>
    simp only [Doc.clean, Doc.find, ih]
    cases r.find v with
    | some b' => rfl
    | none => split <;> rfl

theorem lookup_clean (sc : List Doc) (v : Str) : lookup (sc.map Doc.clean) v = (lookup sc v).map (List.map Doc.clean) := by
  induction sc with
  | nil => rfl
  | cons d up ih =>
    simp only [List.map_cons, lookup, find_clean]
    cases d.find v with
    | none => exact ih
    | some b => rfl

theorem lookup_same {sc sc' : List Doc} (e : sc.map Doc.clean = sc'.map Doc.clean) (v : Str) :
    (lookup sc v).map (List.map Doc.clean) = (lookup sc' v).map (List.map Doc.clean) := by
  rw [← lookup_clean, ← lookup_clean, e]

theorem findSome_same {sc sc' : List Doc} (e : sc.map Doc.clean = sc'.map Doc.clean) (names : List Str) :
    (names.findSome? (lookup sc)).map (List.map Doc.clean) = (names.findSome? (lookup sc')).map (List.map Doc.clean) := by
  induction names with
  | nil => rfl
  | cons v names ih =>
    have := lookup_same e v
    simp only [List.findSome?_cons]
    cases e1 : lookup sc v with
    | none =>
      rw [e1] at this
      cases e2 : lookup sc' v with
      | none => exact ih
      | some b => rw [e2] at this; cases this
    | some b =>
      rw [e1] at this
      cases e2 : lookup sc' v with
      | none => rw [e2] at this; cases this
      | some b' => rw [e2] at this; exact this

section

variable {x : Ext} {lang : Option Language.Lang} {sc : List Doc} {σ : Option (List Nat)}

theorem body_joinText {t : Str} {l : List Param} {h h' : Heap} {s : Str} :
    Renders x lang sc (.body (joinText t l)) σ h h' s ↔ ∃ s', s = t ++ s' ∧ Renders x lang sc (.body l) σ h h' s' := by
  have plain : Renders x lang sc (.body (⟨.string, t⟩ :: l)) σ h h' s ↔ ∃ s', s = t ++ s' ∧ Renders x lang sc (.body l) σ h h' s' := by
    constructor
    · intro r
      cases r with
      | cons r1 r2 =>
        cases r1 with
        | text => exact ⟨_, rfl, r2⟩
        | unknown hk => exact hk.elim
    · rintro ⟨s', rfl, r⟩
      exact .cons .text r
  cases l with
  | nil => exact plain
  | cons p l =>
    by_cases hp : p.kind = .string
    · obtain ⟨k, u⟩ := p
      simp only at hp; subst hp
      rw [joinText_string]
      constructor
      · intro r
        cases r with
        | cons r1 r2 =>
          cases r1 with
          | text => exact ⟨_, by rw [List.append_assoc], .cons .text r2⟩
          | unknown hk => exact hk.elim
      · rintro ⟨s', rfl, r⟩
        cases r with
        | cons r1 r2 =>
          cases r1 with
          | text => rw [← List.append_assoc]; exact .cons .text r2
          | unknown hk => exact hk.elim
    · rw [joinText_other hp]; exact plain

/-- Dropping comments and joining texts changes nothing. -/
theorem body_skeleton {l : List Param} : ∀ {h h' : Heap} {s : Str},
    Renders x lang sc (.body (skeleton l)) σ h h' s ↔ Renders x lang sc (.body l) σ h h' s := by
  induction l with
  | nil => intro h h' s; exact Iff.rfl
  | cons p l ih =>
    intro h h' s
    obtain ⟨k, t⟩ := p
    by_cases hc : k = .comment
    · subst hc
      rw [skeleton_comment, ih]
      constructor
      · intro r; exact (.cons .comment r : Renders x lang sc (.body (⟨.comment, t⟩ :: l)) σ h h' ([] ++ s))
      · intro r
        cases r with
        | cons r1 r2 =>
          cases r1 with
          | comment => exact r2
          | unknown hk => exact hk.elim
    · by_cases hs : k = .string
      · subst hs
        rw [skeleton_string, body_joinText]
        constructor
        · rintro ⟨s', rfl, r⟩; exact .cons .text (ih.1 r)
        · intro r
          cases r with
          | cons r1 r2 =>
            cases r1 with
            | text => exact ⟨_, rfl, ih.2 r2⟩
            | unknown hk => exact hk.elim
      · rw [skeleton_other hc hs]
        constructor
        · intro r
          cases r with
          | cons r1 r2 => exact .cons r1 (ih.1 r2)
        · intro r
          cases r with
          | cons r1 r2 => exact .cons r1 (ih.2 r2)

/-- Scopes that are the same up to comments. -/
theorem renders_clean {job : Job} {h h' : Heap} {s : Str} (r : Renders x lang sc job σ h h' s) :
    ∀ sc', sc.map Doc.clean = sc'.map Doc.clean → Renders x lang sc' job σ h h' s := by
  have ne : ∀ {sc sc' : List Doc} {v : Str}, sc.map Doc.clean = sc'.map Doc.clean → lookup sc v ≠ none → lookup sc' v ≠ none := by
    intro sc sc' v e h1 h2
    have := lookup_same e v
    rw [h2] at this
    cases e1 : lookup sc v with
    | none => exact h1 e1
    | some b => rw [e1] at this; cases this
  have no : ∀ {sc sc' : List Doc} {v : Str}, sc.map Doc.clean = sc'.map Doc.clean → lookup sc v = none → lookup sc' v = none := by
    intro sc sc' v e h1
    have := lookup_same e v
    rw [h1] at this
    cases e1 : lookup sc' v with
    | none => rfl
    | some b => rw [e1] at this; cases this
  induction r with
  | @document sc _ _ _ _ _ ih =>
    intro sc' e
    cases sc with
    | nil =>
      cases sc' with
      | nil => exact .document (ih [] e)
      | cons => cases e
    | cons d up =>
    cases sc' with
    | nil => cases e
    | cons d' up' =>
      have hbody := ih (d' :: up') e
      rw [List.map_cons, List.map_cons, List.cons.injEq] at e
      simp only [innermost] at hbody
      rw [← body_skeleton, ← own_clean, e.1, own_clean, body_skeleton] at hbody
      exact .document hbody
  | nil => intro sc' e; exact .nil
  | cons _ _ ih1 ih2 => intro sc' e; exact .cons (ih1 sc' e) (ih2 sc' e)
  | chosen hn _ ih =>
    intro sc' e
    rename_i names _
    have := findSome_same e names
    rw [hn] at this
    cases e1 : names.findSome? (lookup sc') with
    | none => rw [e1] at this; cases this
    | some b =>
      rw [e1] at this
      simp only [Option.map_some, Option.some.injEq] at this
      exact .chosen e1 (ih b this)
  | noChoice hn =>
    intro sc' e
    rename_i names
    have := findSome_same e names
    rw [hn] at this
    cases e1 : names.findSome? (lookup sc') with
    | none => exact .noChoice e1
    | some b => rw [e1] at this; cases this
  | text => intro sc' e; exact .text
  | comment => intro sc' e; exact .comment
  | language => intro sc' e; exact .language
  | «variable» hv hs => intro sc' e; exact .variable hv hs
  | reference a b c _ ih => intro sc' e; exact .reference a b c (ih sc' e)
  | referenceNone a b => intro sc' e; exact .referenceNone a (no e b)
  | referenceWith a b c d _ ih => intro sc' e; exact .referenceWith a (ne e b) c d (ih sc' e)
  | referenceWithout a b c d _ ih => intro sc' e; exact .referenceWithout a (ne e b) c d (ih sc' e)
  | referenceValue a b c _ ih => intro sc' e; exact .referenceValue a b c (ih sc' e)
  | rangeNothing a b => intro sc' e; exact .rangeNothing a (b.imp (no e) fun e => e)
  | rangeEmpty a b c d _ ih => intro sc' e; exact .rangeEmpty a (ne e b) c d (ih sc' e)
  | range a b c d f _ ih => intro sc' e; exact .range a (ne e b) c d f (ih sc' e)
  | loopEnd => intro sc' e; exact .loopEnd
  | loop a _ _ ih1 ih2 => intro sc' e; exact .loop a (ih1 sc' e) (ih2 sc' e)
  | conditionNone a b c _ ih => intro sc' e; exact .conditionNone a b c (ih sc' e)
  | conditionNothing a b c d f => intro sc' e; exact .conditionNothing a b c d (no e f)
  | conditionValue a b c d f g _ ih => intro sc' e; exact .conditionValue a b c d f (ne e g) (ih sc' e)
  | conditionDataset a b c d _ g ih => intro sc' e; exact .conditionDataset a b c (ne e d) (ih sc' e) g
  | dump a b c d => intro sc' e; exact .dump a b c d
  | dumpEmpty a => intro sc' e; exact .dumpEmpty a
  | dumpNothing a => intro sc' e; exact .dumpNothing a
  | unknown a => intro sc' e; exact .unknown a

end

theorem executes_clean {x : Ext} {d d' : Doc} (e : d.clean = d'.clean) {data : Option Nat} {h h' : Heap} {s : Str} (r : Executes x d data h h' s) :
    Executes x d' data h h' s := by
  cases r with
  | data hl r => exact .data hl (renders_clean r [d'] (by simp [e]))
  | nil r => exact .nil (renders_clean r [d'] (by simp [e]))

/-! ## Inserting a comment -/

theorem sources_append (l m : List (Str × Param)) : sources (l ++ m) = sources l ++ sources m := by simp [sources]

theorem sources_cons (p : Str × Param) (l : List (Str × Param)) : sources (p :: l) = p.1 ++ sources l := by simp [sources]

/-- An element is read wherever its source text stands. -/
theorem meta_of_elem {src : Str} {p : Param} (h : Elem src p) (w : Str) : ∃ e rest, MetaAt (src ++ w) p rest ∧ w = e ++ rest ∧ Taken p.kind e rest := by
  by_cases hs : Swallows p.kind
  · cases w with
    | nil => exact ⟨[], [], ⟨src, [], h, by simp, Or.inl ⟨rfl, fun _ c r e => by cases e⟩⟩, rfl, Or.inl ⟨rfl, fun _ c r e => by cases e⟩⟩
    | cons c w =>
      by_cases hc : IsEol c
      · exact ⟨[c], w, ⟨src, [c], h, by simp, Or.inr ⟨hs, c, hc, rfl⟩⟩, rfl, Or.inr ⟨hs, c, hc, rfl⟩⟩
      · have ht : Taken p.kind [] (c :: w) := Or.inl ⟨rfl, fun _ c' r e => by cases e; exact hc⟩
        exact ⟨[], c :: w, ⟨src, [], h, by simp, ht⟩, rfl, ht⟩
  · have ht : Taken p.kind [] w := Or.inl ⟨rfl, fun hs' => absurd hs' hs⟩
    exact ⟨[], w, ⟨src, [], h, by simp, ht⟩, rfl, ht⟩

theorem reads_pieces {s : Str} {l : List (Str × Param)} (h : Reads s l) : ∀ q ∈ l, q.1 ≠ [] := by
  induction h with
  | nil => intro q hq; cases hq
  | @elem src rest p l hm _ ih =>
    intro q hq
    rcases List.mem_cons.1 hq with rfl | hq
    · obtain ⟨src0, e, he, e1, _⟩ := hm
      rw [List.append_cancel_right e1]
      have := elem_ne_nil he
      simp [this]
    · exact ih q hq
  | text hne _ _ _ ih =>
    intro q hq
    rcases List.mem_cons.1 hq with rfl | hq
    · exact hne
    · exact ih q hq

/-- The pieces up to the cut lie before it. -/
theorem Cut.head {l : List (Str × Param)} {src : Str} {p : Param} {a b : Str} (h : Cut ((src, p) :: l) a b) (ha : a ≠ []) (hp : p.kind ≠ .string) :
    ∃ a', a = src ++ a' ∧ Cut l a' b := by
  rcases h with ⟨l1, l2, e, rfl, rfl⟩ | ⟨l1, l2, t1, t2, e, h1, h2, rfl, rfl⟩
  · cases l1 with
    | nil => exact absurd rfl ha
    | cons q l1 =>
      simp only [List.cons_append, List.cons.injEq] at e
      obtain ⟨rfl, rfl⟩ := e
      exact ⟨sources l1, by rw [sources_cons], Or.inl ⟨l1, l2, rfl, rfl, rfl⟩⟩
  · cases l1 with
    | nil =>
      simp only [List.nil_append, List.cons.injEq, Prod.mk.injEq] at e
      obtain ⟨⟨rfl, rfl⟩, rfl⟩ := e
      exact absurd rfl hp
    | cons q l1 =>
      simp only [List.cons_append, List.cons.injEq] at e
      obtain ⟨rfl, rfl⟩ := e
      exact ⟨sources l1 ++ t1, by rw [sources_cons, List.append_assoc], Or.inr ⟨l1, l2, t1, t2, rfl, h1, h2, rfl, rfl⟩⟩

theorem Cut.text {l : List (Str × Param)} {t : Str} {a b : Str} (h : Cut ((t, ⟨.string, t⟩) :: l) a b) (ha : a ≠ []) :
    (∃ a', a = t ++ a' ∧ Cut l a' b) ∨ ∃ t2, t2 ≠ [] ∧ t = a ++ t2 ∧ b = t2 ++ sources l := by
  rcases h with ⟨l1, l2, e, rfl, rfl⟩ | ⟨l1, l2, t1, t2, e, h1, h2, rfl, rfl⟩
  · cases l1 with
    | nil => exact absurd rfl ha
    | cons q l1 =>
      simp only [List.cons_append, List.cons.injEq] at e
      obtain ⟨rfl, rfl⟩ := e
      exact Or.inl ⟨sources l1, by rw [sources_cons], Or.inl ⟨l1, l2, rfl, rfl, rfl⟩⟩
  · cases l1 with
    | nil =>
      simp only [List.nil_append, List.cons.injEq, Prod.mk.injEq] at e
      obtain ⟨⟨rfl, _⟩, rfl⟩ := e
      exact Or.inr ⟨t2, h2, rfl, rfl⟩
    | cons q l1 =>
      simp only [List.cons_append, List.cons.injEq] at e
      obtain ⟨rfl, rfl⟩ := e
      exact Or.inl ⟨sources l1 ++ t1, by rw [sources_cons, List.append_assoc], Or.inr ⟨l1, l2, t1, t2, rfl, h1, h2, rfl, rfl⟩⟩

/-- If a text goes on with a meta element before the cut, the other text with the same beginning does too. -/
theorem meta_transfer {l : List (Str × Param)} {a b c : Str} (h : Reads (a ++ b) l) (hc : Cut l a b) (ha : a ≠ []) {p : Param} {r : Str}
    (hm : MetaAt (a ++ b) p r) : ∃ p r, MetaAt (a ++ c) p r := by
  generalize e : a ++ b = s at h hm
  cases h with
  | nil => simp at e; exact absurd e.1 ha
  | @elem src rest p' l hm' hr =>
    obtain ⟨src0, x, he, e1, _⟩ := hm'
    have hs := List.append_cancel_right e1
    have hk : p'.kind ≠ .string := by cases he <;> simp
    obtain ⟨a', rfl, _⟩ := hc.head ha hk
    obtain ⟨_, rest', hm2, _, _⟩ := meta_of_elem he (x ++ (a' ++ c))
    exact ⟨p', rest', by rw [hs]; simpa using hm2⟩
  | @text t rest l hne hno _ hr =>
    exact absurd ⟨p, r, hm⟩ (hno [] t rfl hne)

theorem insert_comment {b c d : Str} : ∀ (la : List (Str × Param)) {a : Str} {l lb : List (Str × Param)}, Reads (a ++ b) l → Cut l a b →
    Reads (a ++ (c ++ b)) (la ++ (c, ⟨.comment, d⟩) :: lb) → sources la = a →
    skeleton (l.map Prod.snd) = skeleton ((la ++ (c, ⟨.comment, d⟩) :: lb).map Prod.snd) := by
  intro la
  induction la with
  | nil =>
    intro a l lb h hc h' e
    subst e
    have hb : Reads b lb := by
      generalize e1 : sources [] ++ (c ++ b) = s at h'
      generalize e2 : [] ++ (c, (⟨.comment, d⟩ : Param)) :: lb = m at h'
      cases h' with
      | nil => cases e2
      | @elem src rest p l hm hr =>
        simp at e2
        obtain ⟨⟨rfl, rfl⟩, rfl⟩ := e2
        simp [sources] at e1
        rw [e1]; exact hr
      | text => simp at e2
    have : Reads b l := by simpa [sources] using h
    rw [reads_unique this hb]
    rfl
  | cons q la ih =>
    intro a l lb h hc h' e
    have hcne : c ≠ [] := reads_pieces h' (c, ⟨.comment, d⟩) (by simp)
    generalize e1 : a ++ (c ++ b) = s at h'
    generalize e2 : q :: la ++ (c, (⟨.comment, d⟩ : Param)) :: lb = m at h'
    cases h' with
    | nil => cases e2
    | @elem src rest p m hm hr =>
      simp only [List.cons_append, List.cons.injEq] at e2
      obtain ⟨rfl, rfl⟩ := e2
      rw [sources_cons] at e
      simp only at e
      subst e
      rw [List.append_assoc] at e1
      have e1 := List.append_cancel_left e1
      subst e1
      obtain ⟨src0, x, he, e3, ht⟩ := hm
      have hs : src = src0 ++ x := List.append_cancel_right e3
      have hk : p.kind ≠ .string := by cases he <;> simp
      have hne : src ++ sources la ≠ [] := by rw [hs]; have := elem_ne_nil he; simp [this]
      -- the element is the first one of the text without the comment, too
      have key : ∃ l', l = (src, p) :: l' ∧ Reads (sources la ++ b) l' := by
        obtain ⟨x', rest', hm2, e4, ht2⟩ := meta_of_elem he (x ++ (sources la ++ b))
        have hsrc : src ++ sources la ++ b = (src0 ++ x') ++ rest' := by rw [hs]; simp only [List.append_assoc]; rw [e4]
        obtain ⟨l', hl'⟩ : ∃ l', Reads rest' l' := by obtain ⟨l', h, _⟩ := lex_reads rest'; exact ⟨l', h⟩
        have hm2' : MetaAt ((src0 ++ x') ++ rest') p rest' := ⟨src0, x', he, by simp, ht2⟩
        have hl : l = (src0 ++ x', p) :: l' := by
          rw [hsrc] at h
          exact reads_unique h (.elem hm2' hl')
        subst hl
        obtain ⟨a', e5, _⟩ := hc.head hne hk
        -- x' = x
        have hx : x' = x := by
          rcases ht with ⟨rfl, hno⟩ | ⟨hsw, ch, hch, rfl⟩
          · rcases ht2 with ⟨rfl, _⟩ | ⟨hsw', ch', hch', rfl⟩
            · rfl
            · rw [hs] at e5
              simp only [List.append_nil, List.append_assoc] at e5
              have e5 := List.append_cancel_left e5
              exact absurd hch' (hno hsw' ch' (a' ++ (c ++ b)) (by rw [e5]; simp))
          · rcases ht2 with ⟨rfl, hno⟩ | ⟨_, ch', _, rfl⟩
            · exact absurd hch (hno hsw ch (sources la ++ b) (by simpa using e4.symm))
            · simp at e4; rw [e4.1]
        subst hx
        refine ⟨l', by rw [hs], ?_⟩
        have := List.append_cancel_left e4
        rw [this]; exact hl'
      obtain ⟨l', rfl, hl'⟩ := key
      obtain ⟨a', e5, hc'⟩ := hc.head hne hk
      have := List.append_cancel_left e5
      subst this
      have := ih hl' hc' hr rfl
      simp only [List.map_cons, List.cons_append] at this ⊢
      by_cases hcm : p.kind = .comment
      · obtain ⟨k, dt⟩ := p
        simp only at hcm; subst hcm
        rw [skeleton_comment, skeleton_comment, this]
      · rw [skeleton_other hcm hk, skeleton_other hcm hk, this]
    | @text t rest m hne hno hm hr =>
      simp only [List.cons_append, List.cons.injEq] at e2
      obtain ⟨rfl, rfl⟩ := e2
      rw [sources_cons] at e
      simp only at e
      subst e
      rw [List.append_assoc] at e1
      have e1 := List.append_cancel_left e1
      subst e1
      have hane : t ++ sources la ≠ [] := by simp [hne]
      -- what the text without the comment starts with
      generalize e3 : t ++ sources la ++ b = s at h
      cases h with
      | nil => simp at e3; exact absurd e3.1 hne
      | @elem src rest' p l' hm' hr' =>
        exfalso
        obtain ⟨src0, x, he, e4, _⟩ := hm'
        have hs : src = src0 ++ x := List.append_cancel_right e4
        have hk : p.kind ≠ .string := by cases he <;> simp
        obtain ⟨a', e5, _⟩ := hc.head hane hk
        obtain ⟨_, r, hm2, _⟩ := meta_of_elem he (x ++ (a' ++ (c ++ b)))
        refine hno [] t rfl hne ⟨p, r, ?_⟩
        rw [← List.append_assoc, e5, hs]
        simpa using hm2
      | @text t' rest' l' hne' hno' hm' hr' =>
        rw [List.append_assoc] at e3
        -- t' is at least as long as t
        rcases List.append_eq_append_iff.1 e3 with ⟨u, ht', e4⟩ | ⟨u, ht, e4⟩
        · -- t' = t ++ u
          by_cases hu : u = []
          · subst hu
            simp only [List.append_nil, List.nil_append] at ht' e4
            subst ht'
            have hl' : Reads (sources la ++ b) l' := by rw [e4]; exact hr'
            have hc' : Cut l' (sources la) b := by
              rcases hc.text hane with ⟨a', e5, hc'⟩ | ⟨t2, h2, e5, _⟩
              · have := List.append_cancel_left e5
                rw [this]; exact hc'
              · have := congrArg List.length e5
                have h3 := List.length_pos_iff.2 h2
                simp only [List.length_append] at this
                omega
            have := ih hl' hc' hr rfl
            simp only [List.map_cons, List.cons_append] at this ⊢
            rw [skeleton_string, skeleton_string, this]
          · subst ht'
            by_cases hla : sources la = []
            · have hnil : la = [] := by
                cases la with
                | nil => rfl
                | cons q la =>
                  rw [sources_cons] at hla
                  have hq : q.1 ≠ [] := reads_pieces hr q (by simp)
                  simp at hla
                  exact absurd hla.1 hq
              subst hnil
              simp only [hla, List.nil_append] at *
              subst e4
              -- lb reads u ++ rest'
              have hb : Reads (u ++ rest') lb := by
                generalize e1 : c ++ (u ++ rest') = s at hr
                generalize e2 : (c, (⟨.comment, d⟩ : Param)) :: lb = m at hr
                cases hr with
                | nil => cases e2
                | @elem src rest p l hm hr =>
                  simp at e2
                  obtain ⟨⟨rfl, rfl⟩, rfl⟩ := e2
                  have := List.append_cancel_left e1
                  rw [this]; exact hr
                | text => simp at e2
              have hb' : Reads (u ++ rest') ((u, ⟨.string, u⟩) :: l') :=
                .text hu (fun t1 t2 e h2 => hno' (t ++ t1) t2 (by rw [e, List.append_assoc]) h2) hm' hr'
              rw [reads_unique hb hb']
              simp only [List.map_cons]
              rw [skeleton_string, skeleton_string, skeleton_comment, skeleton_string, joinText_joinText]
            · exfalso
              rcases hm with hm | ⟨p, r, hm⟩
              · simp at hm; exact hla hm.1
              · -- the element after t in the text with the comment
                cases la with
                | nil => exact hla rfl
                | cons q la =>
                  generalize e5 : sources (q :: la) ++ (c ++ b) = s at hr hm
                  generalize e6 : q :: la ++ (c, (⟨.comment, d⟩ : Param)) :: lb = m at hr
                  cases hr with
                  | nil => cases e6
                  | @elem src rest p' m hm2 hr2 =>
                    simp only [List.cons_append, List.cons.injEq] at e6
                    obtain ⟨rfl, _⟩ := e6
                    obtain ⟨src0, x, he, e7, _⟩ := hm2
                    have hs : src = src0 ++ x := List.append_cancel_right e7
                    obtain ⟨_, r', hm3, _⟩ := meta_of_elem he (x ++ (sources la ++ b))
                    refine hno' t u rfl hu ⟨p', r', ?_⟩
                    rw [← e4, sources_cons, hs]
                    simpa using hm3
                  | @text t3 rest3 l3 hne3 hno3 _ _ =>
                    exact hno3 [] t3 rfl hne3 ⟨p, r, hm⟩
        · -- t = t' ++ u
          by_cases hu : u = []
          · subst hu
            simp only [List.append_nil, List.nil_append] at ht e4
            subst ht
            have hl' : Reads (sources la ++ b) l' := by rw [← e4]; exact hr'
            have hc' : Cut l' (sources la) b := by
              rcases hc.text hane with ⟨a', e5, hc'⟩ | ⟨t2, h2, e5, _⟩
              · have := List.append_cancel_left e5
                rw [this]; exact hc'
              · have := congrArg List.length e5
                have h3 := List.length_pos_iff.2 h2
                simp only [List.length_append] at this
                omega
            have := ih hl' hc' hr rfl
            simp only [List.map_cons, List.cons_append] at this ⊢
            rw [skeleton_string, skeleton_string, this]
          · exfalso
            subst ht
            rcases hc.text hane with ⟨a', e5, hc'⟩ | ⟨t2, h2, e5, _⟩
            · rw [List.append_assoc] at e5
              have e5 := List.append_cancel_left e5
              subst e5
              have hrest : rest' = (u ++ sources la) ++ b := by rw [e4, List.append_assoc]
              subst hrest
              rcases hm' with hm' | ⟨p, r, hm'⟩
              · simp at hm'; exact hu hm'.1
              · obtain ⟨p2, r2, hm2⟩ := meta_transfer (c := c ++ b) hr' hc' (by simp [hu]) hm'
                exact hno t' u rfl hu ⟨p2, r2, by simpa using hm2⟩
            · have := congrArg List.length e5
              have h3 := List.length_pos_iff.2 h2
              simp only [List.length_append] at this
              omega

end Xcore.Template
