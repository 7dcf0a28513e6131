import Verif.Spec.V1.TemplateComment
import Verif.Proof.V1.Page
import Verif.Proof.TemplateInsert

/-! # Comments and line ends in version 1 -/

namespace Xcore.V1.Template

open Xcore.Template (Kind Param Doc Balanced Taken Swallows IsEol Word BoxChar sources Cut skeleton joinText sources_cons sources_append
  skeleton_comment skeleton_string skeleton_other joinText_joinText untilClose untilClose_iff own_clean find_clean)
open Xcore.Dataset (Ext Val)
open Xcore.V1.Dataset

/-! ## Rendering -/

theorem after_after (s t : Str) (r : Out) : (r.after t).after s = r.after (s ++ t) := by cases r <;> simp [Out.after]

theorem after_nil (r : Out) : r.after [] = r := by cases r <;> rfl

section

variable {x : Ext} {lang : Option Language.Lang} {h : Heap} {d : Doc} {σ : Option (List (Option Nat))}

theorem body_string {t : Str} {l : List Param} {r : Out} :
    Renders x lang h d (.body (⟨.string, t⟩ :: l)) σ r ↔ ∃ r', r = r'.after t ∧ Renders x lang h d (.body l) σ r' := by
  constructor
  · intro q
    cases q with
    | cons q1 q2 =>
      cases q1 with
      | text => exact ⟨_, rfl, q2⟩
      | unknown hk => exact hk.elim
    | consPanic q1 => cases q1
  · rintro ⟨r', rfl, q⟩
    exact .cons .text q

theorem body_joinText {t : Str} {l : List Param} {r : Out} :
    Renders x lang h d (.body (joinText t l)) σ r ↔ ∃ r', r = r'.after t ∧ Renders x lang h d (.body l) σ r' := by
  cases l with
  | nil => exact body_string
  | cons p l =>
    by_cases hp : p.kind = .string
    · obtain ⟨k, u⟩ := p
      simp only at hp; subst hp
      rw [Xcore.Template.joinText_string, body_string]
      constructor
      · rintro ⟨r', rfl, q⟩
        exact ⟨r'.after u, by rw [after_after], body_string.2 ⟨r', rfl, q⟩⟩
      · rintro ⟨r', rfl, q⟩
        obtain ⟨r2, hr2, q⟩ := body_string.1 q
        exact ⟨r2, by rw [hr2, after_after], q⟩
    · rw [Xcore.Template.joinText_other hp]; exact body_string

/-- Dropping comments and joining texts changes nothing. -/
theorem body_skeleton {l : List Param} : ∀ {r : Out}, Renders x lang h d (.body (skeleton l)) σ r ↔ Renders x lang h d (.body l) σ r := by
  induction l with
  | nil => intro r; exact Iff.rfl
  | cons p l ih =>
    intro r
    obtain ⟨k, t⟩ := p
    by_cases hc : k = .comment
    · subst hc
      rw [skeleton_comment, ih]
      constructor
      · intro q
        have := RendersIn.cons (p := ⟨.comment, t⟩) (s := []) .comment q
        rwa [after_nil] at this
      · intro q
        cases q with
        | cons q1 q2 =>
          cases q1 with
          | comment => rw [after_nil]; exact q2
          | unknown hk => exact hk.elim
        | consPanic q1 => cases q1
    · by_cases hs : k = .string
      · subst hs
        rw [skeleton_string, body_joinText, body_string]
        exact ⟨fun ⟨r', e, q⟩ => ⟨r', e, ih.1 q⟩, fun ⟨r', e, q⟩ => ⟨r', e, ih.2 q⟩⟩
      · rw [skeleton_other hc hs]
        constructor
        · intro q
          cases q with
          | cons q1 q2 => exact .cons q1 (ih.1 q2)
          | consPanic q1 => exact .consPanic q1
        · intro q
          cases q with
          | cons q1 q2 => exact .cons q1 (ih.2 q2)
          | consPanic q1 => exact .consPanic q1

theorem find_same {d d' : Doc} (e : d.clean = d'.clean) (v : Str) : (d.find v).map Doc.clean = (d'.find v).map Doc.clean := by
  rw [← find_clean, ← find_clean, e]

theorem find_none {d d' : Doc} (e : d.clean = d'.clean) {v : Str} (hn : d.find v = none) : d'.find v = none := by
  have := find_same e v
  rw [hn] at this
  cases q : d'.find v with
  | none => rfl
  | some b => rw [q] at this; cases this

theorem find_some {d d' : Doc} (e : d.clean = d'.clean) {v : Str} (hn : d.find v ≠ none) : d'.find v ≠ none :=
  fun q => hn (find_none e.symm q)

theorem findSome_same {d d' : Doc} (e : d.clean = d'.clean) (names : List Str) :
    (names.findSome? d.find).map Doc.clean = (names.findSome? d'.find).map Doc.clean := by
  induction names with
  | nil => rfl
  | cons v names ih =>
    have := find_same e v
    simp only [List.findSome?_cons]
    cases e1 : d.find v with
    | none => rw [find_none e e1]; exact ih
    | some b =>
      rw [e1] at this
      cases e2 : d'.find v with
      | none => rw [e2] at this; cases this
      | some b' => rw [e2] at this; exact this

/-- Documents that are the same up to comments. -/
theorem renders_clean {job : Job} {r : Out} (q : Renders x lang h d job σ r) : ∀ d', d.clean = d'.clean → Renders x lang h d' job σ r := by
  induction q with
  | @document d l σ r e _ ih =>
    intro d' ec
    cases e
    have hb := ih d' ec
    rw [← body_skeleton, ← own_clean, ec, own_clean, body_skeleton] at hb
    exact .document rfl hb
  | nil => intro d' e; exact .nil
  | cons _ _ ih1 ih2 => intro d' e; exact .cons (ih1 d' e) (ih2 d' e)
  | consPanic _ ih => intro d' e; exact .consPanic (ih d' e)
  | chosen hn _ ih =>
    intro d' e
    rename_i names _
    have := findSome_same e names
    rw [hn] at this
    cases e1 : names.findSome? d'.find with
    | none => rw [e1] at this; cases this
    | some b =>
      rw [e1] at this
      simp only [Option.map_some, Option.some.injEq] at this
      exact .chosen e1 (ih b this)
  | noChoice hn =>
    intro d' e
    rename_i names
    have := findSome_same e names
    rw [hn] at this
    cases e1 : names.findSome? d'.find with
    | none => exact .noChoice e1
    | some b => rw [e1] at this; cases this
  | text => intro d' e; exact .text
  | comment => intro d' e; exact .comment
  | language => intro d' e; exact .language
  | variableNoData => intro d' e; exact .variableNoData
  | «variable» a b => intro d' e; exact .variable a b
  | reference a b c _ ih => intro d' e; exact .reference a b c (ih d' e)
  | referenceNone a b => intro d' e; exact .referenceNone a (find_none e b)
  | referenceWith a b c f _ ih => intro d' e; exact .referenceWith a (find_some e b) c f (ih d' e)
  | referenceWithout a b c f g _ ih => intro d' e; exact .referenceWithout a (find_some e b) c f g (ih d' e)
  | referenceBroken a b c => intro d' e; exact .referenceBroken a (find_some e b) c
  | referenceNoData a b => intro d' e; exact .referenceNoData a (find_some e b)
  | referenceValue a b c _ ih => intro d' e; exact .referenceValue a b c (ih d' e)
  | referenceValueBroken a b => intro d' e; exact .referenceValueBroken a b
  | referenceValueNoData a => intro d' e; exact .referenceValueNoData a
  | rangeNothing a b => intro d' e; exact .rangeNothing a (b.imp (find_none e) fun e => e)
  | rangeAbsent a b c _ ih => intro d' e; exact .rangeAbsent a (find_some e b) c (ih d' e)
  | range a b c f _ ih => intro d' e; exact .range a (find_some e b) c f (ih d' e)
  | rangeOther a b c f => intro d' e; exact .rangeOther a (find_some e b) c f
  | rangeBroken a b c => intro d' e; exact .rangeBroken a (find_some e b) c
  | loopEnd => intro d' e; exact .loopEnd
  | loop _ _ ih1 ih2 => intro d' e; exact .loop (ih1 d' e) (ih2 d' e)
  | loopPanic _ ih => intro d' e; exact .loopPanic (ih d' e)
  | conditionNoData => intro d' e; exact .conditionNoData
  | conditionBroken a b => intro d' e; exact .conditionBroken a b
  | conditionNothing a b c f => intro d' e; exact .conditionNothing a b c (find_none e f)
  | conditionAbsent a b => intro d' e; exact .conditionAbsent a b
  | conditionDataset a b c => intro d' e; exact .conditionDataset a b c
  | conditionEmpty a b c f => intro d' e; exact .conditionEmpty a (find_some e b) c f
  | condition a b c f g i _ ih => intro d' e; exact .condition a (find_some e b) c f g i (ih d' e)
  | dump a b c => intro d' e; exact .dump a b c
  | dumpNil a => intro d' e; exact .dumpNil a
  | dumpNothing a => intro d' e; exact .dumpNothing a
  | unknown a => intro d' e; exact .unknown a

end

theorem executes_clean {x : Ext} {d d' : Doc} (e : d.clean = d'.clean) {h : Heap} {data : Option Nat} {r : Out} (q : Executes x d h data r) :
    Executes x d' h data r := by
  cases q with
  | data hl q => exact .data hl (renders_clean q d' e)
  | nil q => exact .nil (renders_clean q d' e)

theorem execute_clean {x : Ext} {th th' : THeap} {t t' : Nat} {d d' : Doc} (hc : Compiled th t d []) (hc' : Compiled th' t' d' []) (e : d.clean = d'.clean)
    {h : Heap} {data : Option Nat} (hp : Proper h data) {n m : Nat} (hn : nesting d < n) (hm : nesting d' < m) :
    execute x th n t h data = execute x th' m t' h data := by
  have q := execute_meets (x := x) hc hp hn
  have q' := execute_meets (x := x) hc' hp hm
  have ec : ∀ r, Executes x d h data r ↔ Executes x d' h data r := fun r => ⟨executes_clean e, executes_clean e.symm⟩
  cases r : execute x th n t h data <;> cases r' : execute x th' m t' h data <;> rw [r] at q <;> rw [r'] at q' <;> dsimp only at q q'
  all_goals first | rfl | skip
  · rename_i s s'
    have := (q' _).1 ((ec _).1 ((q (.text s)).2 rfl))
    cases this; rfl
  · exact absurd ((q' _).1 ((ec _).1 ((q (.text _)).2 rfl))) (by simp)
  · exact absurd ((ec _).1 ((q (.text _)).2 rfl)) (q' _)
  · exact absurd ((q' _).1 ((ec _).1 ((q .panic).2 rfl))) (by simp)
  · exact absurd ((ec _).1 ((q .panic).2 rfl)) (q' _)
  · exact absurd ((ec _).2 ((q' (.text _)).2 rfl)) (q _)
  · exact absurd ((ec _).2 ((q' .panic).2 rfl)) (q _)

/-! ## Inserting a comment -/

/-- An element is read wherever its source text stands. -/
theorem meta_of_elem {src : Str} {p : Param} (h : Elem src p) (w : Str) : ∃ e rest, MetaAt (src ++ w) p rest ∧ w = e ++ rest ∧ Taken p.kind e rest := by
  by_cases hs : Swallows p.kind
  · cases w with
    | nil => exact ⟨[], [], ⟨src, [], h, by simp, Or.inl ⟨rfl, fun _ c r e => by cases e⟩⟩, rfl, Or.inl ⟨rfl, fun _ c r e => by cases e⟩⟩
    | cons c w =>
      by_cases hc : IsEol c
      · exact ⟨[c], w, ⟨src, [c], h, by simp, Or.inr ⟨hs, c, hc, rfl⟩⟩, rfl, Or.inr ⟨hs, c, hc, rfl⟩⟩
      · have ht : Taken p.kind [] (c :: w) := Or.inl ⟨rfl, fun _ c' r e => by cases e; exact hc⟩
        exact ⟨[], c :: w, ⟨src, [], h, by simp, ht⟩, rfl, ht⟩
  · have ht : Taken p.kind [] w := Or.inl ⟨rfl, fun hs' => absurd hs' hs⟩
    exact ⟨[], w, ⟨src, [], h, by simp, ht⟩, rfl, ht⟩

theorem reads_pieces {s : Str} {l : List (Str × Param)} (h : Reads s l) : ∀ q ∈ l, q.1 ≠ [] := by
  induction h with
  | nil => intro q hq; cases hq
  | @elem src rest p l hm _ ih =>
    intro q hq
    rcases List.mem_cons.1 hq with rfl | hq
    · obtain ⟨src0, e, he, e1, _⟩ := hm
      rw [List.append_cancel_right e1]
      have := elem_ne_nil he
      simp [this]
    · exact ih q hq
  | text hne _ _ _ ih =>
    intro q hq
    rcases List.mem_cons.1 hq with rfl | hq
    · exact hne
    · exact ih q hq

/-- If a text goes on with a meta element before the cut, the other text with the same beginning does too. -/
theorem meta_transfer {l : List (Str × Param)} {a b c : Str} (h : Reads (a ++ b) l) (hc : Cut l a b) (ha : a ≠ []) {p : Param} {r : Str}
    (hm : MetaAt (a ++ b) p r) : ∃ p r, MetaAt (a ++ c) p r := by
  generalize e : a ++ b = s at h hm
  cases h with
  | nil => simp at e; exact absurd e.1 ha
  | @elem src rest p' l hm' hr =>
    obtain ⟨src0, x, he, e1, _⟩ := hm'
    have hs := List.append_cancel_right e1
    have hk : p'.kind ≠ .string := by cases he <;> simp
    obtain ⟨a', rfl, _⟩ := hc.head ha hk
    obtain ⟨_, rest', hm2, _, _⟩ := meta_of_elem he (x ++ (a' ++ c))
    exact ⟨p', rest', by rw [hs]; simpa using hm2⟩
  | @text t rest l hne hno _ hr =>
    exact absurd ⟨p, r, hm⟩ (hno [] t rfl hne)

theorem insert_comment {b c d : Str} : ∀ (la : List (Str × Param)) {a : Str} {l lb : List (Str × Param)}, Reads (a ++ b) l → Cut l a b →
    Reads (a ++ (c ++ b)) (la ++ (c, ⟨.comment, d⟩) :: lb) → sources la = a →
    skeleton (l.map Prod.snd) = skeleton ((la ++ (c, ⟨.comment, d⟩) :: lb).map Prod.snd) := by
  intro la
  induction la with
  | nil =>
    intro a l lb h hc h' e
    subst e
    have hb : Reads b lb := by
      generalize e1 : sources [] ++ (c ++ b) = s at h'
      generalize e2 : [] ++ (c, (⟨.comment, d⟩ : Param)) :: lb = m at h'
      cases h' with
      | nil => cases e2
      | @elem src rest p l hm hr =>
        simp at e2
        obtain ⟨⟨rfl, rfl⟩, rfl⟩ := e2
        simp [sources] at e1
        rw [e1]; exact hr
      | text => simp at e2
    have : Reads b l := by simpa [sources] using h
    rw [reads_unique this hb]
    rfl
  | cons q la ih =>
    intro a l lb h hc h' e
    have hcne : c ≠ [] := reads_pieces h' (c, ⟨.comment, d⟩) (by simp)
    generalize e1 : a ++ (c ++ b) = s at h'
    generalize e2 : q :: la ++ (c, (⟨.comment, d⟩ : Param)) :: lb = m at h'
    cases h' with
    | nil => cases e2
    | @elem src rest p m hm hr =>
      simp only [List.cons_append, List.cons.injEq] at e2
      obtain ⟨rfl, rfl⟩ := e2
      rw [sources_cons] at e
      simp only at e
      subst e
      rw [List.append_assoc] at e1
      have e1 := List.append_cancel_left e1
      subst e1
      obtain ⟨src0, x, he, e3, ht⟩ := hm
      have hs : src = src0 ++ x := List.append_cancel_right e3
      have hk : p.kind ≠ .string := by cases he <;> simp
      have hne : src ++ sources la ≠ [] := by rw [hs]; have := elem_ne_nil he; simp [this]
      -- the element is the first one of the text without the comment, too
      have key : ∃ l', l = (src, p) :: l' ∧ Reads (sources la ++ b) l' := by
        obtain ⟨x', rest', hm2, e4, ht2⟩ := meta_of_elem he (x ++ (sources la ++ b))
        have hsrc : src ++ sources la ++ b = (src0 ++ x') ++ rest' := by rw [hs]; simp only [List.append_assoc]; rw [e4]
        obtain ⟨l', hl'⟩ : ∃ l', Reads rest' l' := by obtain ⟨l', h, _⟩ := lex_reads rest'; exact ⟨l', h⟩
        have hm2' : MetaAt ((src0 ++ x') ++ rest') p rest' := ⟨src0, x', he, by simp, ht2⟩
        have hl : l = (src0 ++ x', p) :: l' := by
          rw [hsrc] at h
          exact reads_unique h (.elem hm2' hl')
        subst hl
        obtain ⟨a', e5, _⟩ := hc.head hne hk
        -- x' = x
        have hx : x' = x := by
          rcases ht with ⟨rfl, hno⟩ | ⟨hsw, ch, hch, rfl⟩
          · rcases ht2 with ⟨rfl, _⟩ | ⟨hsw', ch', hch', rfl⟩
            · rfl
            · rw [hs] at e5
              simp only [List.append_nil, List.append_assoc] at e5
              have e5 := List.append_cancel_left e5
              exact absurd hch' (hno hsw' ch' (a' ++ (c ++ b)) (by rw [e5]; simp))
          · rcases ht2 with ⟨rfl, hno⟩ | ⟨_, ch', _, rfl⟩
            · exact absurd hch (hno hsw ch (sources la ++ b) (by simpa using e4.symm))
            · simp at e4; rw [e4.1]
        subst hx
        refine ⟨l', by rw [hs], ?_⟩
        have := List.append_cancel_left e4
        rw [this]; exact hl'
      obtain ⟨l', rfl, hl'⟩ := key
      obtain ⟨a', e5, hc'⟩ := hc.head hne hk
      have := List.append_cancel_left e5
      subst this
      have := ih hl' hc' hr rfl
      simp only [List.map_cons, List.cons_append] at this ⊢
      by_cases hcm : p.kind = .comment
      · obtain ⟨k, dt⟩ := p
        simp only at hcm; subst hcm
        rw [skeleton_comment, skeleton_comment, this]
      · rw [skeleton_other hcm hk, skeleton_other hcm hk, this]
    | @text t rest m hne hno hm hr =>
      simp only [List.cons_append, List.cons.injEq] at e2
      obtain ⟨rfl, rfl⟩ := e2
      rw [sources_cons] at e
      simp only at e
      subst e
      rw [List.append_assoc] at e1
      have e1 := List.append_cancel_left e1
      subst e1
      have hane : t ++ sources la ≠ [] := by simp [hne]
      -- what the text without the comment starts with
      generalize e3 : t ++ sources la ++ b = s at h
      cases h with
      | nil => simp at e3; exact absurd e3.1 hne
      | @elem src rest' p l' hm' hr' =>
        exfalso
        obtain ⟨src0, x, he, e4, _⟩ := hm'
        have hs : src = src0 ++ x := List.append_cancel_right e4
        have hk : p.kind ≠ .string := by cases he <;> simp
        obtain ⟨a', e5, _⟩ := hc.head hane hk
        obtain ⟨_, r, hm2, _⟩ := meta_of_elem he (x ++ (a' ++ (c ++ b)))
        refine hno [] t rfl hne ⟨p, r, ?_⟩
        rw [← List.append_assoc, e5, hs]
        simpa using hm2
      | @text t' rest' l' hne' hno' hm' hr' =>
        rw [List.append_assoc] at e3
        -- t' is at least as long as t
        rcases List.append_eq_append_iff.1 e3 with ⟨u, ht', e4⟩ | ⟨u, ht, e4⟩
        · -- t' = t ++ u
          by_cases hu : u = []
          · subst hu
            simp only [List.append_nil, List.nil_append] at ht' e4
            subst ht'
            have hl' : Reads (sources la ++ b) l' := by rw [e4]; exact hr'
            have hc' : Cut l' (sources la) b := by
              rcases hc.text hane with ⟨a', e5, hc'⟩ | ⟨t2, h2, e5, _⟩
              · have := List.append_cancel_left e5
                rw [this]; exact hc'
              · have := congrArg List.length e5
                have h3 := List.length_pos_iff.2 h2
                simp only [List.length_append] at this
                omega
            have := ih hl' hc' hr rfl
            simp only [List.map_cons, List.cons_append] at this ⊢
            rw [skeleton_string, skeleton_string, this]
          · subst ht'
            by_cases hla : sources la = []
            · have hnil : la = [] := by
                cases la with
                | nil => rfl
                | cons q la =>
                  rw [sources_cons] at hla
                  have hq : q.1 ≠ [] := reads_pieces hr q (by simp)
                  simp at hla
                  exact absurd hla.1 hq
              subst hnil
              simp only [hla, List.nil_append] at *
              subst e4
              -- lb reads u ++ rest'
              have hb : Reads (u ++ rest') lb := by
                generalize e1 : c ++ (u ++ rest') = s at hr
                generalize e2 : (c, (⟨.comment, d⟩ : Param)) :: lb = m at hr
                cases hr with
                | nil => cases e2
                | @elem src rest p l hm hr =>
                  simp at e2
                  obtain ⟨⟨rfl, rfl⟩, rfl⟩ := e2
                  have := List.append_cancel_left e1
                  rw [this]; exact hr
                | text => simp at e2
              have hb' : Reads (u ++ rest') ((u, ⟨.string, u⟩) :: l') :=
                .text hu (fun t1 t2 e h2 => hno' (t ++ t1) t2 (by rw [e, List.append_assoc]) h2) hm' hr'
              rw [reads_unique hb hb']
              simp only [List.map_cons]
              rw [skeleton_string, skeleton_string, skeleton_comment, skeleton_string, joinText_joinText]
            · exfalso
              rcases hm with hm | ⟨p, r, hm⟩
              · simp at hm; exact hla hm.1
              · -- the element after t in the text with the comment
                cases la with
                | nil => exact hla rfl
                | cons q la =>
                  generalize e5 : sources (q :: la) ++ (c ++ b) = s at hr hm
                  generalize e6 : q :: la ++ (c, (⟨.comment, d⟩ : Param)) :: lb = m at hr
                  cases hr with
                  | nil => cases e6
                  | @elem src rest p' m hm2 hr2 =>
                    simp only [List.cons_append, List.cons.injEq] at e6
                    obtain ⟨rfl, _⟩ := e6
                    obtain ⟨src0, x, he, e7, _⟩ := hm2
                    have hs : src = src0 ++ x := List.append_cancel_right e7
                    obtain ⟨_, r', hm3, _⟩ := meta_of_elem he (x ++ (sources la ++ b))
                    refine hno' t u rfl hu ⟨p', r', ?_⟩
                    rw [← e4, sources_cons, hs]
                    simpa using hm3
                  | @text t3 rest3 l3 hne3 hno3 _ _ =>
                    exact hno3 [] t3 rfl hne3 ⟨p, r, hm⟩
        · -- t = t' ++ u
          by_cases hu : u = []
          · subst hu
            simp only [List.append_nil, List.nil_append] at ht e4
            subst ht
            have hl' : Reads (sources la ++ b) l' := by rw [← e4]; exact hr'
            have hc' : Cut l' (sources la) b := by
              rcases hc.text hane with ⟨a', e5, hc'⟩ | ⟨t2, h2, e5, _⟩
              · have := List.append_cancel_left e5
                rw [this]; exact hc'
              · have := congrArg List.length e5
                have h3 := List.length_pos_iff.2 h2
                simp only [List.length_append] at this
                omega
            have := ih hl' hc' hr rfl
            simp only [List.map_cons, List.cons_append] at this ⊢
            rw [skeleton_string, skeleton_string, this]
          · exfalso
            subst ht
            rcases hc.text hane with ⟨a', e5, hc'⟩ | ⟨t2, h2, e5, _⟩
            · rw [List.append_assoc] at e5
              have e5 := List.append_cancel_left e5
              subst e5
              have hrest : rest' = (u ++ sources la) ++ b := by rw [e4, List.append_assoc]
              subst hrest
              rcases hm' with hm' | ⟨p, r, hm'⟩
              · simp at hm'; exact hu hm'.1
              · obtain ⟨p2, r2, hm2⟩ := meta_transfer (c := c ++ b) hr' hc' (by simp [hu]) hm'
                exact hno t' u rfl hu ⟨p2, r2, by simpa using hm2⟩
            · have := congrArg List.length e5
              have h3 := List.length_pos_iff.2 h2
              simp only [List.length_append] at this
              omega


/-! ## Reading -/

/-- Where `--%` comes after `%--`, a comment is read. -/
theorem meta_comment (d r : Str) : ∃ p r', MetaAt (b!"%--" ++ (d ++ (b!"--%" ++ r))) p r' := by
  have : ∃ d', untilClose (d ++ (b!"--%" ++ r)) = some d' := by
    induction d with
    | nil => exact ⟨[], untilClose_iff.2 ⟨r, by simp, by decide⟩⟩
    | cons c d ih =>
      obtain ⟨d', e⟩ := ih
      simp only [List.cons_append, untilClose]
      split
      · exact ⟨_, rfl⟩
      · exact ⟨_, congrArg _ e⟩
  obtain ⟨d', e⟩ := this
  obtain ⟨rest, e, hd⟩ := untilClose_iff.1 e
  obtain ⟨_, r', hm, _⟩ := meta_of_elem (.comment hd) rest
  refine ⟨⟨.comment, d'⟩, r', ?_⟩
  rw [e]
  simpa using hm

/-- The delimiters of elements with a free text. -/
inductive Delims : Str → Str → Kind → UInt8 → Prop where
  | language : Delims b!"##" b!"##" .language 35
  | reference : Delims b!"&&" b!"&&" .reference 38
  | range : Delims b!"@@" b!"@@" .range 64
  | condition : Delims b!"??" b!"??" .condition 63
  | dump : Delims b!"!!" b!"!!" .dump 33
  | variable : Delims b!"{{" b!"}}" .variable 123

theorem Delims.elem {op cl d : Str} {k : Kind} {q : UInt8} (hd : Delims op cl k q) (hc : Closes cl d) : Elem (op ++ d ++ cl) ⟨k, d⟩ := by
  cases hd with
  | language => exact .language hc
  | reference => exact .reference hc
  | range => exact .range hc
  | condition => exact .condition hc
  | dump => exact .dump hc
  | «variable» => exact .variable hc

theorem Delims.op {op cl : Str} {k : Kind} {q : UInt8} (hd : Delims op cl k q) : op = [q, q] := by cases hd <;> rfl

theorem Delims.cl {op cl : Str} {k : Kind} {q : UInt8} (hd : Delims op cl k q) : cl ≠ [] ∧ q ≠ 37 := by cases hd <;> decide

theorem Delims.eol {op cl : Str} {k : Kind} {q c : UInt8} (hd : Delims op cl k q) (hc : IsEol c) : c ∉ cl := by
  rcases hc with rfl | rfl <;> cases hd <;> decide

/-- The elements: with a free text between delimiters, comments and box tags. -/
theorem Elem.forms {src : Str} {p : Param} (h : Elem src p) : (∃ op cl k q d, Delims op cl k q ∧ Closes cl d ∧ src = op ++ d ++ cl) ∨
    (∃ d, ¬ b!"--%" <:+: d ++ b!"--" ∧ src = b!"%--" ++ d ++ b!"--%") ∨ ∃ d, (∀ c ∈ d, BoxChar c) ∧ src = b!"[[" ++ d ++ b!"]]" := by
  cases h with
  | comment hd => exact Or.inr (Or.inl ⟨_, hd, rfl⟩)
  | language hc => exact Or.inl ⟨_, _, _, _, _, .language, hc, rfl⟩
  | reference hc => exact Or.inl ⟨_, _, _, _, _, .reference, hc, rfl⟩
  | range hc => exact Or.inl ⟨_, _, _, _, _, .range, hc, rfl⟩
  | condition hc => exact Or.inl ⟨_, _, _, _, _, .condition, hc, rfl⟩
  | dump hc => exact Or.inl ⟨_, _, _, _, _, .dump, hc, rfl⟩
  | «variable» hc => exact Or.inl ⟨_, _, _, _, _, .variable, hc, rfl⟩
  | stop => exact Or.inr (Or.inr ⟨[], nofun, rfl⟩)
  | start w => exact Or.inr (Or.inr ⟨_, w.2, rfl⟩)

/-- An element that starts with the same character has the same delimiters. -/
theorem Delims.same {op cl src : Str} {k : Kind} {q : UInt8} {p : Param} (hd : Delims op cl k q) (he : Elem src p) (h : ∃ w, src = q :: w) :
    ∃ d, d ≠ [] ∧ src = op ++ d ++ cl := by
  obtain ⟨w, h⟩ := h
  cases he with
  | comment | stop | start => cases hd <;> simp at h
  | language hc | reference hc | range hc | condition hc | dump hc | «variable» hc =>
    cases hd <;> first | (simp at h; done) | exact ⟨_, hc.1, rfl⟩

/-- Where the closing delimiter comes after the opening one, an element is read. -/
theorem meta_delims {op cl : Str} {k : Kind} {q : UInt8} (hd : Delims op cl k q) {d : Str} (hne : d ≠ []) (r : Str) :
    ∃ p r', MetaAt (op ++ (d ++ (cl ++ r))) p r' := by
  have key : ∀ d : Str, ∃ d', untilDelim cl (d ++ (cl ++ r)) = some d' := by
    intro d
    induction d with
    | nil => exact ⟨[], (untilDelim_iff hd.cl.1).2 ⟨r, by simp, fun u v e => by
        have := congrArg List.length e
        simp only [List.nil_append, List.length_append] at this
        exact List.length_eq_zero_iff.1 (by omega)⟩⟩
    | cons c d ih =>
      obtain ⟨d', e⟩ := ih
      simp only [List.cons_append, untilDelim]
      split
      · exact ⟨_, rfl⟩
      · exact ⟨_, congrArg _ e⟩
  cases d with
  | nil => exact absurd rfl hne
  | cons c d =>
    obtain ⟨d', e⟩ := key d
    obtain ⟨rest, e, hn⟩ := (untilDelim_iff hd.cl.1).1 e
    have hc : Closes cl (c :: d') := by
      refine ⟨by simp, fun u v e hu => ?_⟩
      cases u with
      | nil => exact absurd rfl hu
      | cons c2 u => simp at e; exact hn u v (by simpa using e.2)
    obtain ⟨_, r', hm, _⟩ := meta_of_elem (hd.elem hc) rest
    refine ⟨⟨k, c :: d'⟩, r', ?_⟩
    have : op ++ ((c :: d) ++ (cl ++ r)) = op ++ (c :: d') ++ cl ++ rest := by simp [e]
    rw [this]
    exact hm

/-- No meta element starts with `-`. -/
theorem no_dash {src : Str} {p : Param} (h : Elem src p) : ∃ c u, src = c :: u ∧ c ≠ 45 := by
  cases h <;> exact ⟨_, _, rfl, by decide⟩

/-- An element of the text with the comment that starts before it is one of the text without it. -/
theorem no_meta {t a b c : Str} (ht : t ≠ []) (hn : ∀ op ∈ openers, ¬ op <:+: t) (ha : a = [] ∨ ∃ src p w, Elem src p ∧ a = src ++ w) (hc : ∃ u, c = 37 :: u)
    (ho : ¬ ∃ p r, MetaAt (t ++ (a ++ b)) p r) : ¬ ∃ p r, MetaAt (t ++ (a ++ (c ++ b))) p r := by
  rintro ⟨p, r, src, x, he, e, _⟩
  obtain ⟨u, rfl⟩ := hc
  have e : (t ++ a) ++ (37 :: (u ++ b)) = src ++ (x ++ r) := by simpa using e
  rcases List.append_eq_append_iff.1 e with ⟨y, h1, h2⟩ | ⟨y, h1, h2⟩
  · -- src = (t ++ a) ++ y
    cases y with
    | nil =>
      rw [List.append_nil] at h1
      obtain ⟨_, r', hm, _⟩ := meta_of_elem he b
      exact ho ⟨p, r', by rw [h1] at hm; simpa using hm⟩
    | cons z y =>
      simp only [List.cons_append, List.cons.injEq] at h2
      obtain ⟨rfl, _⟩ := h2
      rcases he.forms with ⟨op, cl, k, q, d, hd, hcl, rfl⟩ | ⟨d, _, rfl⟩ | ⟨d, hb, rfl⟩
      · have hop := hd.op
        match t, ht with
        | c1 :: c2 :: t, _ =>
          rw [hop] at h1
          simp only [List.cons_append, List.nil_append, List.cons.injEq] at h1
          obtain ⟨rfl, rfl, _⟩ := h1
          refine hn [q, q] ?_ ⟨[], t, by simp⟩
          cases hd <;> decide
        | [c1], _ =>
          rw [hop] at h1
          simp only [List.cons_append, List.nil_append, List.cons.injEq] at h1
          obtain ⟨rfl, h1⟩ := h1
          rcases ha with rfl | ⟨s0, p0, w, he0, rfl⟩
          · simp only [List.nil_append, List.cons.injEq] at h1
            exact hd.cl.2 h1.1
          · -- the element behind has the same delimiters
            have hq : ∃ w, s0 = q :: w := by
              cases s0 with
              | nil => exact absurd rfl (elem_ne_nil he0)
              | cons c2 s0 =>
                simp only [List.cons_append, List.cons.injEq] at h1
                exact ⟨s0, by rw [h1.1]⟩
            obtain ⟨d0, hd0, rfl⟩ := hd.same he0 hq
            obtain ⟨p', r', hm⟩ := meta_delims hd (d := q :: d0) (by simp) (w ++ b)
            refine ho ⟨p', r', ?_⟩
            rw [hop] at hm ⊢
            simpa using hm
      · match t, ht with
        | [c1], _ =>
          simp only [List.cons_append, List.nil_append, List.cons.injEq] at h1
          obtain ⟨_, h1⟩ := h1
          rcases ha with rfl | ⟨s0, p0, w, he0, rfl⟩
          · simp at h1
          · obtain ⟨c2, u2, rfl, hne⟩ := no_dash he0
            simp at h1
            exact hne h1.1.symm
        | [c1, c2], _ =>
          simp only [List.cons_append, List.nil_append, List.cons.injEq] at h1
          obtain ⟨_, _, h1⟩ := h1
          rcases ha with rfl | ⟨s0, p0, w, he0, rfl⟩
          · simp at h1
          · obtain ⟨c3, u2, rfl, hne⟩ := no_dash he0
            simp at h1
            exact hne h1.1.symm
        | c1 :: c2 :: c3 :: t, _ =>
          simp at h1
          obtain ⟨rfl, rfl, rfl, _⟩ := h1
          exact hn b!"%--" (by decide) ⟨[], t, by simp⟩
      · have : (37 : UInt8) ∈ b!"[[" ++ d ++ b!"]]" := by rw [h1]; simp
        simp only [List.mem_append] at this
        rcases this with (h | h) | h
        · revert h; decide
        · exact absurd (hb _ h) (by unfold BoxChar; decide)
        · revert h; decide
  · -- t ++ a = src ++ y
    obtain ⟨_, r', hm, _⟩ := meta_of_elem he (y ++ b)
    refine ho ⟨p, r', ?_⟩
    rw [← List.append_assoc, h1, List.append_assoc]
    exact hm

/-- A text that starts with an element before the cut. -/
theorem elem_before {l : List (Str × Param)} {a b : Str} (h : Reads (a ++ b) l) (hc : Cut l a b) (hm : a ++ b = [] ∨ ∃ p r, MetaAt (a ++ b) p r) :
    a = [] ∨ ∃ src p w, Elem src p ∧ a = src ++ w := by
  by_cases ha : a = []
  · exact Or.inl ha
  · right
    rcases hm with hm | ⟨p, r, hm⟩
    · simp [ha] at hm
    · generalize e : a ++ b = s at h hm
      cases h with
      | nil => simp at e; exact absurd e.1 ha
      | @elem src rest p' l hm' hr =>
        obtain ⟨src0, x, he, e1, _⟩ := hm'
        have hs := List.append_cancel_right e1
        have hk : p'.kind ≠ .string := by cases he <;> simp
        obtain ⟨a', rfl, _⟩ := hc.head ha hk
        exact ⟨src0, p', x ++ a', he, by rw [hs]; simp⟩
      | @text t rest l hne hno _ hr => exact absurd ⟨p, r, hm⟩ (hno [] t rfl hne)

/-- A comment inserted between two pieces or inside a literal text is read as a comment, if no literal text contains an opening delimiter. -/
theorem comment_read {s : Str} {l : List (Str × Param)} (h : Reads s l) {b d e : Str} (hd : ¬ b!"--%" <:+: d ++ b!"--") (ht : Taken .comment e b) :
    ∀ a, s = a ++ b → Cut l a b → (∀ t, (t, ⟨.string, t⟩) ∈ l → ∀ op ∈ openers, ¬ op <:+: t) →
      ∃ la lb, Reads (a ++ ((b!"%--" ++ d ++ b!"--%" ++ e) ++ b)) (la ++ (b!"%--" ++ d ++ b!"--%" ++ e, ⟨.comment, d⟩) :: lb) ∧ sources la = a := by
  have hm0 : MetaAt ((b!"%--" ++ d ++ b!"--%" ++ e) ++ b) ⟨.comment, d⟩ b := ⟨_, e, .comment hd, rfl, ht⟩
  have hc : ∃ u, b!"%--" ++ d ++ b!"--%" ++ e = 37 :: u := ⟨_, by simp; rfl⟩
  generalize b!"%--" ++ d ++ b!"--%" ++ e = c at hm0 hc
  have start : ∃ lb, Reads (c ++ b) ((c, ⟨.comment, d⟩) :: lb) := by
    obtain ⟨lb, hb, _⟩ := lex_reads b
    exact ⟨lb, .elem hm0 hb⟩
  induction h with
  | nil =>
    intro a e1 hcut _
    obtain ⟨lb, hb⟩ := start
    have : a = [] := by simp at e1; exact e1.1
    subst this
    exact ⟨[], lb, hb, rfl⟩
  | @elem src rest p l hm hr ih =>
    intro a e1 hcut hn
    by_cases ha : a = []
    · subst ha
      obtain ⟨lb, hb⟩ := start
      exact ⟨[], lb, hb, rfl⟩
    · obtain ⟨src0, x, he, e3, htk⟩ := hm
      have hs : src = src0 ++ x := List.append_cancel_right e3
      have hk : p.kind ≠ .string := by cases he <;> simp
      obtain ⟨a', rfl, hcut'⟩ := hcut.head ha hk
      rw [List.append_assoc] at e1
      have e1 := List.append_cancel_left e1
      subst e1
      obtain ⟨la, lb, hl, hsl⟩ := ih a' rfl hcut' fun t h => hn t (by simp [h])
      refine ⟨(src, p) :: la, lb, ?_, by rw [sources_cons, hsl]⟩
      rw [List.append_assoc]
      refine .elem ⟨src0, x, he, by rw [hs], ?_⟩ hl
      rcases htk with ⟨rfl, hno⟩ | htk
      · refine Or.inl ⟨rfl, fun hsw ch r e => ?_⟩
        cases a' with
        | nil =>
          obtain ⟨u, rfl⟩ := hc
          simp at e
          obtain ⟨rfl, _⟩ := e
          rintro (h | h) <;> revert h <;> decide
        | cons y a' =>
          simp at e
          exact hno hsw ch (a' ++ b) (by rw [← e.1]; simp)
      · exact Or.inr htk
  | @text t rest l hne hno hm hr ih =>
    intro a e1 hcut hn
    by_cases ha : a = []
    · subst ha
      obtain ⟨lb, hb⟩ := start
      exact ⟨[], lb, hb, rfl⟩
    · rcases hcut.text ha with ⟨a', rfl, hcut'⟩ | ⟨t2, ht2, rfl, hb⟩
      · rw [List.append_assoc] at e1
        have e1 := List.append_cancel_left e1
        subst e1
        obtain ⟨la, lb, hl, hsl⟩ := ih a' rfl hcut' fun t h => hn t (by simp [h])
        refine ⟨(t, ⟨.string, t⟩) :: la, lb, ?_, by rw [sources_cons, hsl]⟩
        rw [List.append_assoc]
        refine .text hne (fun t₁ t₂ e h2 => ?_) (Or.inr ?_) hl
        · refine no_meta h2 (fun op ho hi => hn t (by simp) op ho ?_) (elem_before hr hcut' hm) hc (hno t₁ t₂ e h2)
          rw [e]; exact hi.trans (List.infix_append_of_infix_right (List.infix_refl _))
        · by_cases ha' : a' = []
          · subst ha'; exact ⟨_, _, hm0⟩
          · rcases hm with hm | ⟨p, r, hm⟩
            · simp [ha'] at hm
            · exact meta_transfer hr hcut' ha' hm
      · obtain ⟨lb, hb'⟩ := start
        refine ⟨[(a, ⟨.string, a⟩)], lb, ?_, by simp [sources]⟩
        refine .text ha (fun t₁ t₂ e h2 => ?_) (Or.inr ⟨_, _, hm0⟩) hb'
        have hrest : rest = sources l := (reads_concat hr).symm
        have := no_meta (t := t₂) (a := []) (b := b) h2 (fun op ho hi => hn (a ++ t2) (by simp) op ho ?_) (Or.inl rfl) hc ?_
        · simpa using this
        · rw [e]
          obtain ⟨u, v, e'⟩ := hi
          exact ⟨t₁ ++ u, v ++ t2, by rw [← e']; simp⟩
        · have := hno t₁ (t₂ ++ t2) (by rw [e]; simp) (by simp [h2])
          rw [hb, ← hrest]
          simpa using this


/-! ## Ends of line -/

/-- An end of line put somewhere behind a text makes no meta element start in it. -/
theorem no_meta_eol {t b : Str} {c : UInt8} (hc : IsEol c) (h3 : 3 ≤ t.length) (ho : ¬ ∃ p r, MetaAt (t ++ b) p r) : ¬ ∃ p r, MetaAt (t ++ (c :: b)) p r := by
  rintro ⟨p, r, src, x, he, e, _⟩
  rw [List.append_assoc] at e
  -- the end of line stands in the text of the element
  have inside : ∀ {d cl t y : Str}, c ∉ cl → d ++ cl = t ++ c :: y → ∃ w, d = t ++ c :: w ∧ y = w ++ cl := by
    intro d cl t y hcl h1
    rcases List.append_eq_append_iff.1 h1 with ⟨w, e1, e2⟩ | ⟨w, e1, e2⟩
    · exact absurd (by rw [e2]; simp) hcl
    · cases w with
      | nil => simp at e2; exact absurd (by rw [← e2]; simp) hcl
      | cons z w =>
        simp only [List.cons_append, List.cons.injEq] at e2
        obtain ⟨rfl, rfl⟩ := e2
        exact ⟨w, e1, rfl⟩
  rcases List.append_eq_append_iff.1 e with ⟨y, h1, h2⟩ | ⟨y, h1, h2⟩
  · -- src = t ++ y
    cases y with
    | nil =>
      rw [List.append_nil] at h1
      obtain ⟨_, r', hm, _⟩ := meta_of_elem he b
      exact ho ⟨p, r', by rw [h1] at hm; exact hm⟩
    | cons z y =>
      simp only [List.cons_append, List.cons.injEq] at h2
      obtain ⟨rfl, rfl⟩ := h2
      match t, h3 with
      | c1 :: c2 :: c3 :: t, _ =>
        rcases he.forms with ⟨op, cl, k, q, d, hd, hcl, rfl⟩ | ⟨d, _, rfl⟩ | ⟨d, hb, rfl⟩
        · have hop := hd.op
          rw [hop] at h1
          simp only [List.cons_append, List.nil_append, List.cons.injEq] at h1
          obtain ⟨rfl, rfl, h1⟩ := h1
          obtain ⟨w, rfl, rfl⟩ := inside (t := c3 :: t) (hd.eol hc) (by simpa using h1)
          obtain ⟨p', r', hm⟩ := meta_delims hd (d := c3 :: (t ++ w)) (by simp) (x ++ r)
          refine ho ⟨p', r', ?_⟩
          rw [hop] at hm
          simpa using hm
        · simp only [List.cons_append, List.nil_append, List.cons.injEq] at h1
          obtain ⟨rfl, rfl, rfl, h1⟩ := h1
          obtain ⟨w, rfl, rfl⟩ := inside (cl := b!"--%") (t := t) (by rcases hc with rfl | rfl <;> decide) (by simpa using h1)
          obtain ⟨p', r', hm⟩ := meta_comment (t ++ w) (x ++ r)
          refine ho ⟨p', r', ?_⟩
          simpa using hm
        · have : c ∈ b!"[[" ++ d ++ b!"]]" := by rw [h1]; simp
          simp only [List.mem_append] at this
          rcases this with (h | h) | h
          · rcases hc with rfl | rfl <;> revert h <;> decide
          · exact absurd (hb _ h) (by unfold BoxChar; rcases hc with rfl | rfl <;> decide)
          · rcases hc with rfl | rfl <;> revert h <;> decide
  · obtain ⟨_, r', hm, _⟩ := meta_of_elem he (y ++ b)
    exact ho ⟨p, r', by rw [h1, List.append_assoc]; exact hm⟩

/-- An end of line behind a tag that swallows it is not seen. -/
theorem eol_read {src b : Str} {p : Param} {c : UInt8} (he : Elem src p) (hs : Swallows p.kind) (hc : IsEol c) (hb : ∀ d r, b = d :: r → ¬ IsEol d)
    {lb : List (Str × Param)} : ∀ la, Reads (sources la ++ (src ++ b)) (la ++ (src, p) :: lb) →
      Reads (sources la ++ (src ++ (c :: b))) (la ++ (src ++ [c], p) :: lb) := by
  have hlen : 4 ≤ src.length := by
    cases he with
    | comment => simp
    | stop => simp
    | start w => simp
    | language | reference | range | condition | dump | «variable» => rcases hs with h | h | h <;> cases h
  intro la
  induction la with
  | nil =>
    intro h
    generalize e1 : sources [] ++ (src ++ b) = s at h
    generalize e2 : [] ++ (src, p) :: lb = l at h
    cases h with
    | nil => cases e2
    | @elem src' rest p' l hm hr =>
      simp at e2
      obtain ⟨⟨rfl, rfl⟩, rfl⟩ := e2
      have e1 : src ++ b = src ++ rest := by simpa [sources] using e1
      have := List.append_cancel_left e1
      subst this
      have := Reads.elem (src := src ++ [c]) (rest := b) (p := p) ⟨src, [c], he, rfl, Or.inr ⟨hs, c, hc, rfl⟩⟩ hr
      simpa [sources] using this
    | text =>
      simp at e2
      obtain ⟨⟨_, rfl⟩, _⟩ := e2
      rcases hs with h | h | h <;> cases h
  | cons q la ih =>
    intro h
    generalize e1 : sources (q :: la) ++ (src ++ b) = s at h
    generalize e2 : q :: la ++ (src, p) :: lb = l at h
    cases h with
    | nil => cases e2
    | @elem src' rest p' l hm hr =>
      simp at e2
      obtain ⟨rfl, rfl⟩ := e2
      rw [sources_cons, List.append_assoc] at e1
      have := List.append_cancel_left e1
      subst this
      obtain ⟨src0, x, he0, e3, htk⟩ := hm
      have e4 : src' = src0 ++ x := List.append_cancel_right e3
      rw [sources_cons, List.append_assoc]
      refine .elem ⟨src0, x, he0, by rw [e4], ?_⟩ (ih hr)
      rcases htk with ⟨rfl, hno⟩ | htk
      · refine Or.inl ⟨rfl, fun hsw ch r e => ?_⟩
        cases hw : sources la ++ src with
        | nil => simp at hw; rw [hw.2] at hlen; simp at hlen
        | cons y w =>
          rw [← List.append_assoc, hw] at e
          simp at e
          exact hno hsw ch (w ++ b) (by rw [← List.append_assoc, hw, e.1]; simp)
      · exact Or.inr htk
    | @text t rest l hne hno hm hr =>
      simp at e2
      obtain ⟨rfl, rfl⟩ := e2
      rw [sources_cons, List.append_assoc] at e1
      have := List.append_cancel_left e1
      subst this
      rw [sources_cons, List.append_assoc]
      refine .text hne (fun t₁ t₂ e h2 => ?_) (Or.inr ?_) (ih hr)
      · have := hno t₁ t₂ e h2
        rw [← List.append_assoc, ← List.append_assoc] at this
        have := no_meta_eol (c := c) hc (by simp only [List.length_append]; omega) this
        simpa using this
      · rcases hm with hm | ⟨p2, r, src2, x, he2, e, _⟩
        · simp at hm; rw [hm.2.1] at hlen; simp at hlen
        · -- the first element is the tag or stands before it
          cases la with
          | nil =>
            obtain ⟨_, r, hm, _⟩ := meta_of_elem he (c :: b)
            exact ⟨_, _, by simpa [sources] using hm⟩
          | cons q la =>
            have := ih hr
            generalize e5 : sources (q :: la) ++ (src ++ c :: b) = s at this
            generalize e6 : q :: la ++ (src ++ [c], p) :: lb = l at this
            cases this with
            | nil => cases e6
            | elem hm => exact ⟨_, _, hm⟩
            | text =>
              exfalso
              have hq : q.2.kind = .string := by simp at e6; rw [e6.1]
              generalize e7 : sources (q :: la) ++ (src ++ b) = s at hr e
              generalize e8 : q :: la ++ (src, p) :: lb = l at hr
              cases hr with
              | nil => cases e8
              | elem hm =>
                obtain ⟨_, _, he3, _⟩ := hm
                simp at e8
                rw [e8.1] at hq
                cases he3 <;> simp at hq
              | @text t' rest' _ hne' hno' =>
                obtain ⟨_, r2, hm2, _⟩ := meta_of_elem he2 (x ++ r)
                exact hno' [] t' rfl hne' ⟨_, _, by rw [e]; simpa using hm2⟩

/-! ## Readings of concrete texts -/

theorem metaAt_of_match {src rest : Str} {p : Param} (h : matchAt (src ++ rest) = some (p, src.length)) : MetaAt (src ++ rest) p rest := by
  obtain ⟨r, hm, hl, _⟩ := matchAt_some h
  have : r = rest := by
    obtain ⟨s0, x, _, e, _⟩ := hm
    have := (List.append_inj' (s₁ := src) (s₂ := s0 ++ x) (t₁ := rest) (t₂ := r) e (by simp only [List.length_append] at hl; omega)).2
    exact this.symm
  rw [← this] at hm ⊢
  exact hm

theorem reads_elem {src rest : Str} {p : Param} {l : List (Str × Param)} (h : matchAt (src ++ rest) = some (p, src.length)) (hr : Reads rest l) :
    Reads (src ++ rest) ((src, p) :: l) := .elem (metaAt_of_match h) hr

theorem reads_text {t rest : Str} {l : List (Str × Param)} (h1 : t ≠ []) (h2 : ∀ i, i < t.length → matchAt (t.drop i ++ rest) = none)
    (h3 : rest = [] ∨ (matchAt rest).isSome = true) (hr : Reads rest l) : Reads (t ++ rest) ((t, ⟨.string, t⟩) :: l) := by
  refine .text h1 (fun t₁ t₂ e hne => ?_) ?_ hr
  · have := h2 t₁.length (by rw [e]; have := List.length_pos_iff.2 hne; simp only [List.length_append]; omega)
    rw [e] at this
    exact matchAt_none (by simpa using this)
  · rcases h3 with h3 | h3
    · exact Or.inl h3
    · obtain ⟨⟨p, n⟩, e⟩ := Option.isSome_iff_exists.1 h3
      obtain ⟨r, hm, _⟩ := matchAt_some e
      exact Or.inr ⟨p, r, hm⟩

/-! ## What is compiled -/

theorem new_balanced {th : THeap} {s : Str} {l : List (Str × Param)} (h : Reads s l) : (∃ t, (newFromString th s).2 = some t) ↔ Balanced (l.map Prod.snd) := by
  rw [← lex_eq h]
  have := compile_error_iff (newTpl th).1 (newTpl th).2 s
  simp only [newFromString, loadString]
  generalize compile (newTpl th).1 (newTpl th).2 s = r at this
  obtain ⟨_, o⟩ := r
  cases o with
  | true => simpa using this
  | false => simpa using this

/-- What `NewXTemplateFromString` gives is the document of the text. -/
theorem new_document {th th' : THeap} {s : Str} {t : Nat} {l : List (Str × Param)} (hr : Reads s l) (e : newFromString th s = (th', some t)) :
    ∃ d : Doc, d.Plain ∧ l.map Prod.snd = d.tokens ∧ Compiled th' t d [] := by
  have hb := (new_balanced (th := th) hr).1 ⟨t, by rw [e]⟩
  rw [← lex_eq hr] at hb
  obtain ⟨d, hp, hd⟩ := (Xcore.Template.balanced_doc (lex_lexed s)).1 hb
  rw [lex_eq hr] at hd
  exact ⟨d, hp, hd, Page.new_compiled ⟨hp, l, hr, hd⟩ e⟩

/-- Two texts with the same elements up to comments. -/
theorem new_skeleton {s s' : Str} {l l' : List (Str × Param)} (hr : Reads s l) (hr' : Reads s' l') (hs : skeleton (l.map Prod.snd) = skeleton (l'.map Prod.snd))
    {th th1 th' th1' : THeap} {t t' : Nat} (e : newFromString th s = (th1, some t)) (e' : newFromString th' s' = (th1', some t')) :
    ∃ N, ∀ (x : Ext) (h : Heap) (data : Option Nat) (n m : Nat), Proper h data → N ≤ n → N ≤ m → execute x th1 n t h data = execute x th1' m t' h data := by
  obtain ⟨d, hd, ht, hi⟩ := new_document hr e
  obtain ⟨d', hd', ht', hi'⟩ := new_document hr' e'
  rw [ht, ht'] at hs
  have hc := Xcore.Template.clean_eq hd hd' hs
  exact ⟨nesting d + nesting d' + 1, fun x h data n m hp hn hm => execute_clean hi hi' hc hp (by omega) (by omega)⟩

end Xcore.V1.Template
