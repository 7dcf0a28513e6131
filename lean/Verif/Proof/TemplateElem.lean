import Verif.Proof.TemplateTotal

/-!
# The elements one by one

What the code gives for an element, in terms of what it gives for the sub-templates the element names.
-/

namespace Xcore.Template

open Xcore.Dataset

variable {th : THeap} {S : Type} {own : S → List Param} {look : S → Str → Option S} {Z : View th own look} {x : Ext} {la : Option Nat}
  {lang : Option Language.Lang} {t : Nat} {sc : S} {σ : Option (List Nat)} {h h' : Heap} {s : Str}

theorem yields_iff (hi : InView Z t sc) (hd : Ready h σ) (hl : LangIs h la lang) :
    Yields x th la t σ h h' s ↔ RendersIn own look x lang sc .document σ h h' s := injector_iff' hi hd hl h' s

theorem elemYields_iff (hi : InView Z t sc) (hd : Ready h σ) (hl : LangIs h la lang) (p : Param) :
    ElemYields x th la t p σ h h' s ↔ RendersIn own look x lang sc (.elem p) σ h h' s := by
  constructor
  · rintro ⟨n, e⟩
    obtain ⟨h'', q1, q2⟩ := sound_item (sound_injector n) hi hd hl e
    cases q1
    exact q2
  · intro r
    obtain ⟨n, e⟩ := complete r hd hl trivial t hi
    exact ⟨n, e n (Nat.le_refl n)⟩

theorem firstYields_iff (hi : InView Z t sc) (hd : Ready h σ) (hl : LangIs h la lang) (names : List Str) :
    FirstYields x th la t names σ h h' s ↔ RendersIn own look x lang sc (.choose names) σ h h' s := by
  induction names with
  | nil =>
    constructor
    · intro r; cases r; exact .noChoice rfl
    · intro r
      cases r with
      | chosen e _ => cases e
      | noChoice => exact .none
  | cons v names ih =>
    have hv := Z.lookup hi v
    constructor
    · intro r
      cases r with
      | found e r =>
        cases el : look sc v with
        | none => rw [el] at hv; simp only at hv; rw [hv] at e; cases e
        | some sc' =>
          rw [el] at hv
          obtain ⟨c, e', i⟩ := hv
          rw [e] at e'; cases e'
          exact .chosen (by rw [List.findSome?_cons, el]) ((yields_iff i hd hl).1 r)
      | next e r =>
        cases el : look sc v with
        | some sc' => rw [el] at hv; obtain ⟨c, e', i⟩ := hv; rw [e] at e'; cases e'
        | none =>
          cases ih.1 r with
          | chosen e' r' => exact .chosen (by rw [List.findSome?_cons, el]; exact e') r'
          | noChoice e' => exact .noChoice (by rw [List.findSome?_cons, el]; exact e')
    · intro r
      cases el : look sc v with
      | none =>
        rw [el] at hv
        refine .next hv (ih.2 ?_)
        cases r with
        | chosen e' r' => rw [List.findSome?_cons, el] at e'; exact .chosen e' r'
        | noChoice e' => rw [List.findSome?_cons, el] at e'; exact .noChoice e'
      | some sc' =>
        rw [el] at hv
        obtain ⟨c, e', i⟩ := hv
        cases r with
        | chosen e'' r' => rw [List.findSome?_cons, el] at e''; cases e''; exact .found e' ((yields_iff i hd hl).2 r')
        | noChoice e'' => rw [List.findSome?_cons, el] at e''; cases e''

theorem get_none (hi : InView Z t sc) (v : Str) : getTemplate th t v = .ok none ↔ look sc v = none := by
  have hv := Z.lookup hi v
  cases el : look sc v with
  | none => rw [el] at hv; simp only at hv; simp [hv]
  | some sc' => rw [el] at hv; obtain ⟨c, e', i⟩ := hv; simp [e']

theorem get_some (hi : InView Z t sc) {v : Str} {c : Nat} (e : getTemplate th t v = .ok (some c)) : look sc v ≠ none := by
  intro hn
  rw [(get_none hi v).2 hn] at e
  cases e

theorem body_iff (hi : InView Z t sc) (hl : LangIs h la lang) : ∀ (l : List Param) {h₁ h₂ : Heap} {s : Str} (i : Nat), Ready h₁ σ → Shape h h₁ →
    (RendersIn own look x lang sc (.body l) σ h₁ h₂ s ↔ InOrder (fun _ p h h' s => ElemYields x th la t p σ h h' s) i l h₁ h₂ s) := by
  intro l
  induction l with
  | nil =>
    intro h1 h2 s i _ _
    constructor
    · intro r; cases r; exact .nil
    · intro r; cases r; exact .nil
  | cons p l ih =>
    intro h1 h2 s i hd sh
    constructor
    · intro r
      cases r with
      | cons r1 r2 =>
        exact .cons ((elemYields_iff hi hd (hl.shape sh) p).2 r1) ((ih (i + 1) (hd.renders r1 trivial) (sh.trans (renders_shape r1))).1 r2)
    · intro r
      cases r with
      | cons r1 r2 =>
        have r1 := (elemYields_iff hi hd (hl.shape sh) p).1 r1
        exact .cons r1 ((ih (i + 1) (hd.renders r1 trivial) (sh.trans (renders_shape r1))).2 r2)

/-- A template is rendered element by element. -/
theorem yields_body (hi : InView Z t sc) (hd : Ready h σ) (hl : LangIs h la lang) :
    Yields x th la t σ h h' s ↔ InOrder (fun _ p h h' s => ElemYields x th la t p σ h h' s) 0 (own sc) h h' s := by
  rw [yields_iff hi hd hl, ← body_iff hi hl (own sc) 0 hd (Shape.refl h)]
  constructor
  · intro r; cases r with | document r => exact r
  · exact .document

theorem valueAt_unique (hd : Ready h σ) {key : Str} {v w : Val} (hv : ValueAt h σ key v) (hw : ValueAt h σ key w) : v = w := by
  obtain ⟨u, _, _, hu⟩ := condGet_value hd key
  rw [hu v hv, hu w hw]

theorem target_unique {d key id key' id' : Str} (h : Target d key id) (h' : Target d key' id') : key' = key ∧ id' = id := by
  have e := target_two h
  rw [target_two h'] at e
  cases e
  exact ⟨rfl, rfl⟩

/-! ## Elements -/

theorem variable_iff (hi : InView Z t sc) (hd : Ready h σ) (hl : LangIs h la lang) (path : Str) :
    ElemYields x th la t ⟨.variable, path⟩ σ h h' s ↔ h' = h ∧ ∃ v, ValueAt h σ path v ∧ Shows x h v s := by
  rw [elemYields_iff hi hd hl]
  constructor
  · intro r
    cases r with
    | «variable» hv hs => exact ⟨rfl, _, hv, hs⟩
    | unknown hk => exact hk.elim
  · rintro ⟨rfl, v, hv, hs⟩
    exact .variable hv hs

theorem language_iff (hi : InView Z t sc) (hd : Ready h σ) (hl : LangIs h la lang) (id : Str) :
    ElemYields x th la t ⟨.language, id⟩ σ h h' s ↔ h' = h ∧ s = langText lang id := by
  rw [elemYields_iff hi hd hl]
  constructor
  · intro r
    cases r with
    | language => exact ⟨rfl, rfl⟩
    | unknown hk => exact hk.elim
  · rintro ⟨rfl, rfl⟩
    exact .language

theorem text_iff (hi : InView Z t sc) (hd : Ready h σ) (hl : LangIs h la lang) (d : Str) :
    ElemYields x th la t ⟨.string, d⟩ σ h h' s ↔ h' = h ∧ s = d := by
  rw [elemYields_iff hi hd hl]
  constructor
  · intro r
    cases r with
    | text => exact ⟨rfl, rfl⟩
    | unknown hk => exact hk.elim
  · rintro ⟨rfl, rfl⟩
    exact .text

theorem comment_iff (hi : InView Z t sc) (hd : Ready h σ) (hl : LangIs h la lang) (d : Str) :
    ElemYields x th la t ⟨.comment, d⟩ σ h h' s ↔ h' = h ∧ s = [] := by
  rw [elemYields_iff hi hd hl]
  constructor
  · intro r
    cases r with
    | comment => exact ⟨rfl, rfl⟩
    | unknown hk => exact hk.elim
  · rintro ⟨rfl, rfl⟩
    exact .comment

theorem reference_iff (hi : InView Z t sc) (hd : Ready h σ) (hl : LangIs h la lang) {d id : Str} {rest : List Str} (hp : parts d = id :: rest)
    (h1 : rest.length ≠ 1) (h2 : rest.length ≠ 2) :
    ElemYields x th la t ⟨.reference, d⟩ σ h h' s ↔ FirstYields x th la t [id] σ h h' s := by
  rw [elemYields_iff hi hd hl, firstYields_iff hi hd hl]
  constructor
  · intro r
    cases r with
    | reference q _ _ r => rw [hp] at q; cases q; exact r
    | referenceNone q => rw [hp] at q; cases q; simp at h1
    | referenceWith q => rw [hp] at q; cases q; simp at h1
    | referenceWithout q => rw [hp] at q; cases q; simp at h1
    | referenceValue q => rw [hp] at q; cases q; simp at h2
    | unknown hk => exact hk.elim
  · exact fun r => .reference hp h1 h2 r

theorem choose_absent {id : Str} (hn : look sc id = none) : RendersIn own look x lang sc (.choose [id]) σ h h' s ↔ h' = h ∧ s = [] := by
  constructor
  · intro r
    cases r with
    | chosen e _ => simp [hn] at e
    | noChoice _ => exact ⟨rfl, rfl⟩
  · rintro ⟨rfl, rfl⟩
    exact .noChoice (by simp [hn])

theorem referenceWith_iff {l : List Nat} (hi : InView Z t sc) (hd : Ready h (some l)) (hl : LangIs h la lang) {d id key : Str} (hp : parts d = [id, key])
    {a : Nat} (hv : ValueAt h (some l) key (.ptr a)) (ha : IsDataset h a) :
    ElemYields x th la t ⟨.reference, d⟩ (some l) h h' s ↔ FirstYields x th la t [id] (some (a :: l)) h h' s := by
  rw [elemYields_iff hi hd hl, firstYields_iff hi (hd.push ha) hl]
  constructor
  · intro r
    cases r with
    | reference q h1 _ r => rw [hp] at q; cases q; simp at h1
    | referenceNone q hn => rw [hp] at q; cases q; exact (choose_absent hn).2 ⟨rfl, rfl⟩
    | referenceWith q _ hv' _ r =>
      rw [hp] at q; cases q
      cases valueAt_unique hd hv hv'
      exact r
    | referenceWithout q _ hv' hno =>
      rw [hp] at q; cases q
      exact absurd ha (hno a (valueAt_unique hd hv' hv))
    | referenceValue q => rw [hp] at q; cases q
    | unknown hk => exact hk.elim
  · intro r
    by_cases hn : look sc id = none
    · obtain ⟨rfl, rfl⟩ := (choose_absent hn).1 r
      exact .referenceNone hp hn
    · exact .referenceWith hp hn hv ha r

theorem referenceWithout_iff {l : List Nat} (hi : InView Z t sc) (hd : Ready h (some l)) (hl : LangIs h la lang) {d id key : Str} (hp : parts d = [id, key])
    {v : Val} (hv : ValueAt h (some l) key v) (ha : ∀ a, v = .ptr a → ¬ IsDataset h a) :
    ElemYields x th la t ⟨.reference, d⟩ (some l) h h' s ↔ FirstYields x th la t [id] (some l) h h' s := by
  rw [elemYields_iff hi hd hl, firstYields_iff hi hd hl]
  constructor
  · intro r
    cases r with
    | reference q h1 _ r => rw [hp] at q; cases q; simp at h1
    | referenceNone q hn => rw [hp] at q; cases q; exact (choose_absent hn).2 ⟨rfl, rfl⟩
    | referenceWith q _ hv' hds r =>
      rw [hp] at q; cases q
      exact absurd hds (ha _ (valueAt_unique hd hv hv'))
    | referenceWithout q _ hv' hno r => rw [hp] at q; cases q; exact r
    | referenceValue q => rw [hp] at q; cases q
    | unknown hk => exact hk.elim
  · intro r
    by_cases hn : look sc id = none
    · obtain ⟨rfl, rfl⟩ := (choose_absent hn).1 r
      exact .referenceNone hp hn
    · exact .referenceWithout hp hn hv ha r

theorem referenceValue_iff {l : List Nat} (hi : InView Z t sc) (hd : Ready h (some l)) (hl : LangIs h la lang) {d any key pre : Str}
    (hp : parts d = [any, key, pre]) {v : Val} {text : Str} (hv : ValueAt h (some l) key v) (hs : Shows x h v text) :
    ElemYields x th la t ⟨.reference, d⟩ (some l) h h' s ↔ FirstYields x th la t [pre ++ text, pre] (some l) h h' s := by
  rw [elemYields_iff hi hd hl, firstYields_iff hi hd hl]
  constructor
  · intro r
    cases r with
    | reference q _ h2 r => rw [hp] at q; cases q; simp at h2
    | referenceNone q hn => rw [hp] at q; cases q
    | referenceWith q => rw [hp] at q; cases q
    | referenceWithout q => rw [hp] at q; cases q
    | referenceValue q hv' hs' r =>
      rw [hp] at q; cases q
      cases valueAt_unique hd hv hv'
      rw [shows_det hs hs']
      exact r
    | unknown hk => exact hk.elim
  · exact fun r => .referenceValue hp hv hs r

theorem rangeAbsent_iff (hi : InView Z t sc) (hd : Ready h σ) (hl : LangIs h la lang) {d key id : Str} (ht : Target d key id)
    (hn : getTemplate th t id = .ok none ∨ σ = none) : ElemYields x th la t ⟨.range, d⟩ σ h h' s ↔ h' = h ∧ s = [] := by
  rw [elemYields_iff hi hd hl]
  have hn : look sc id = none ∨ σ = none := hn.imp (get_none hi id).1 fun e => e
  constructor
  · intro r
    cases r with
    | rangeNothing => exact ⟨rfl, rfl⟩
    | rangeEmpty ht' hs => obtain ⟨rfl, rfl⟩ := target_unique ht ht'; rcases hn with hn | hn <;> first | exact absurd hn hs | cases hn
    | range ht' hs => obtain ⟨rfl, rfl⟩ := target_unique ht ht'; rcases hn with hn | hn <;> first | exact absurd hn hs | cases hn
    | unknown hk => exact hk.elim
  · rintro ⟨rfl, rfl⟩
    exact .rangeNothing ht hn

theorem rangeEmpty_iff {l : List Nat} (hi : InView Z t sc) (hd : Ready h (some l)) (hl : LangIs h la lang) {d key id : Str} (ht : Target d key id)
    {c : Nat} (hc : getTemplate th t id = .ok (some c)) {v : Val} (hv : ValueAt h (some l) key v) (he : ∀ b q, v = .ptr b → IsCollection h b q → q = []) :
    ElemYields x th la t ⟨.range, d⟩ (some l) h h' s ↔ FirstYields x th la t [id ++ b!".none", id] (some l) h h' s := by
  rw [elemYields_iff hi hd hl, firstYields_iff hi hd hl]
  have hn := get_some hi hc
  constructor
  · intro r
    cases r with
    | rangeNothing ht' hs => obtain ⟨rfl, rfl⟩ := target_unique ht ht'; rcases hs with hs | hs <;> first | exact absurd hs hn | cases hs
    | rangeEmpty ht' _ _ _ r => obtain ⟨rfl, rfl⟩ := target_unique ht ht'; exact r
    | range ht' _ hv' hcl hne =>
      obtain ⟨rfl, rfl⟩ := target_unique ht ht'
      exact absurd (he _ _ (valueAt_unique hd hv hv') hcl) hne
    | unknown hk => exact hk.elim
  · exact fun r => .rangeEmpty ht hn hv he r

theorem loop_iff {l : List Nat} (hi : InView Z t sc) (hl : LangIs h la lang) {id : Str} {n cl : Nat} : ∀ (q : List Nat) (pre : List (Option Nat))
    {h₁ h₂ : Heap} {s : Str}, Ready h₁ (some l) → Shape h h₁ → IsCollection h cl (pre ++ q.map some) →
    (RendersIn own look x lang sc (.loop id n pre.length (q.map some)) (some l) h₁ h₂ s ↔ InOrder (Round x th la t id n l) pre.length q h₁ h₂ s) := by
  intro q
  induction q with
  | nil =>
    intro pre h1 h2 s _ _ _
    constructor
    · intro r; cases r; exact .nil
    · intro r; cases r; exact .loopEnd
  | cons a q ih =>
    intro pre h1 h2 s hd sh hcl
    have hlen := hd.short cl _ ((sh.isCollection _ _).2 hcl)
    simp only [List.length_append, List.map_cons, List.length_cons, List.length_map] at hlen
    have step : ∀ {h3 : Heap}, SetCounter h1 a ((pre.length : Int) + 1) h3 → Ready h3 (some (a :: l)) ∧ Ready h3 (some l) ∧ Shape h1 h3 := by
      intro h3 hs
      have sh1 := shape_counter hs
      have hd1 := hd.shape (wf_counter hd.wf ⟨by omega, by omega⟩ hs) sh1
      exact ⟨hd1.push ((sh1.isDataset a).2 (hd.wf.elem _ _ a ((sh.isCollection _ _).2 hcl) (by simp))), hd1, sh1⟩
    have next : IsCollection h cl ((pre ++ [some a]) ++ q.map some) := by simpa using hcl
    constructor
    · intro r
      cases r with
      | loop hs r1 r2 =>
        obtain ⟨hd1, hd2, sh1⟩ := step hs
        have sh2 := renders_shape r1
        refine .cons ⟨_, hs, (firstYields_iff hi hd1 (hl.shape (sh.trans sh1)) _).2 r1⟩ ?_
        have := (ih (pre ++ [some a]) (hd2.renders r1 trivial) (sh.trans (sh1.trans sh2)) next (s := _) (h₂ := h2)).1 (by simpa using r2)
        simpa using this
    · intro r
      cases r with
      | cons r1 r2 =>
        obtain ⟨h3, hs, r1⟩ := r1
        obtain ⟨hd1, hd2, sh1⟩ := step hs
        have r1 := (firstYields_iff hi hd1 (hl.shape (sh.trans sh1)) _).1 r1
        have sh2 := renders_shape r1
        refine .loop hs r1 ?_
        have := (ih (pre ++ [some a]) (hd2.renders r1 trivial) (sh.trans (sh1.trans sh2)) next (s := _) (h₂ := h2)).2 (by simpa using r2)
        simpa using this

theorem range_iff {l : List Nat} (hi : InView Z t sc) (hd : Ready h (some l)) (hl : LangIs h la lang) {d key id : Str} (ht : Target d key id)
    {c : Nat} (hc : getTemplate th t id = .ok (some c)) {b : Nat} {q : List Nat} (hv : ValueAt h (some l) key (.ptr b)) (hcl : IsCollection h b (q.map some))
    (hne : q ≠ []) :
    ElemYields x th la t ⟨.range, d⟩ (some l) h h' s ↔ InOrder (Round x th la t id q.length l) 0 q h h' s := by
  rw [elemYields_iff hi hd hl]
  have hn := get_some hi hc
  have key := loop_iff (x := x) (s := s) (h₂ := h') (n := q.length) (id := id) hi hl q [] hd (Shape.refl h) hcl
  rw [List.length_nil] at key
  rw [← key]
  constructor
  · intro r
    cases r with
    | rangeNothing ht' hs => obtain ⟨rfl, rfl⟩ := target_unique ht ht'; rcases hs with hs | hs <;> first | exact absurd hs hn | cases hs
    | rangeEmpty ht' _ hv' he r =>
      obtain ⟨rfl, rfl⟩ := target_unique ht ht'
      have := he _ _ (valueAt_unique hd hv' hv) hcl
      simp at this
      exact absurd this hne
    | range ht' _ hv' hcl' hne' r =>
      obtain ⟨rfl, rfl⟩ := target_unique ht ht'
      cases valueAt_unique hd hv hv'
      have e : q.map some = _ := (elems_of hcl).symm.trans (elems_of hcl')
      rw [← e, List.length_map] at r
      exact r
    | unknown hk => exact hk.elim
  · intro r
    exact .range ht hn hv hcl (by simpa using hne) (by rw [List.length_map]; exact r)

theorem conditionNone_iff (hi : InView Z t sc) (hd : Ready h σ) (hl : LangIs h la lang) {d key id : Str} (ht : Target d key id) {v : Val}
    (hv : ValueAt h σ key v) (he : Shows x h v []) :
    ElemYields x th la t ⟨.condition, d⟩ σ h h' s ↔ FirstYields x th la t [id ++ b!".none", id] σ h h' s := by
  rw [elemYields_iff hi hd hl, firstYields_iff hi hd hl]
  constructor
  · intro r
    cases r with
    | conditionNone ht' _ _ r => obtain ⟨rfl, rfl⟩ := target_unique ht ht'; exact r
    | conditionNothing ht' hv' hs hne =>
      obtain ⟨rfl, rfl⟩ := target_unique ht ht'
      cases valueAt_unique hd hv hv'
      exact absurd (shows_det hs he) hne
    | conditionValue ht' hv' _ hs hne =>
      obtain ⟨rfl, rfl⟩ := target_unique ht ht'
      cases valueAt_unique hd hv hv'
      exact absurd (shows_det hs he) hne
    | conditionDataset ht' hv' hds =>
      obtain ⟨rfl, rfl⟩ := target_unique ht ht'
      cases valueAt_unique hd hv hv'
      exact absurd rfl (shows_dataset_ne hd.wf hds he)
    | unknown hk => exact hk.elim
  · exact fun r => .conditionNone ht hv he r

theorem conditionAbsent_iff (hi : InView Z t sc) (hd : Ready h σ) (hl : LangIs h la lang) {d key id : Str} (ht : Target d key id) {v : Val} {text : Str}
    (hv : ValueAt h σ key v) (he : Shows x h v text) (hne : text ≠ []) (hc : getTemplate th t id = .ok none) :
    ElemYields x th la t ⟨.condition, d⟩ σ h h' s ↔ h' = h ∧ s = [] := by
  rw [elemYields_iff hi hd hl]
  have hn := (get_none hi id).1 hc
  constructor
  · intro r
    cases r with
    | conditionNone ht' hv' hs r =>
      obtain ⟨rfl, rfl⟩ := target_unique ht ht'
      cases valueAt_unique hd hv hv'
      exact absurd (shows_det he hs) hne
    | conditionNothing => exact ⟨rfl, rfl⟩
    | conditionValue ht' hv' _ hs _ hlk => obtain ⟨rfl, rfl⟩ := target_unique ht ht'; exact absurd hn hlk
    | conditionDataset ht' hv' hds hlk => obtain ⟨rfl, rfl⟩ := target_unique ht ht'; exact absurd hn hlk
    | unknown hk => exact hk.elim
  · rintro ⟨rfl, rfl⟩
    exact .conditionNothing ht hv he hne hn

theorem conditionValue_iff (hi : InView Z t sc) (hd : Ready h σ) (hl : LangIs h la lang) {d key id : Str} (ht : Target d key id) {v : Val} {text : Str}
    (hv : ValueAt h σ key v) (ha : ∀ a, v = .ptr a → ¬ IsDataset h a) (he : Shows x h v text) (hne : text ≠ []) {c : Nat}
    (hc : getTemplate th t id = .ok (some c)) :
    ElemYields x th la t ⟨.condition, d⟩ σ h h' s ↔ FirstYields x th la t [id ++ b!"." ++ text, id] σ h h' s := by
  rw [elemYields_iff hi hd hl, firstYields_iff hi hd hl]
  have hn := get_some hi hc
  constructor
  · intro r
    cases r with
    | conditionNone ht' hv' hs r =>
      obtain ⟨rfl, rfl⟩ := target_unique ht ht'
      cases valueAt_unique hd hv hv'
      exact absurd (shows_det he hs) hne
    | conditionNothing ht' _ _ _ hlk => obtain ⟨rfl, rfl⟩ := target_unique ht ht'; exact absurd hlk hn
    | conditionValue ht' hv' _ hs _ _ r =>
      obtain ⟨rfl, rfl⟩ := target_unique ht ht'
      cases valueAt_unique hd hv hv'
      rw [shows_det he hs]
      exact r
    | conditionDataset ht' hv' hds =>
      obtain ⟨rfl, rfl⟩ := target_unique ht ht'
      exact absurd hds (ha _ (valueAt_unique hd hv hv'))
    | unknown hk => exact hk.elim
  · exact fun r => .conditionValue ht hv ha he hne hn r

theorem conditionDataset_iff {l : List Nat} (hi : InView Z t sc) (hd : Ready h (some l)) (hl : LangIs h la lang) {d key id : Str} (ht : Target d key id)
    {a : Nat} (hv : ValueAt h (some l) key (.ptr a)) (ha : IsDataset h a) {c : Nat} (hc : getTemplate th t id = .ok (some c)) (hac : Acyclic h a) :
    ElemYields x th la t ⟨.condition, d⟩ (some l) h h' s ↔ FirstYields x th la t [id ++ b!".array", id] (some (a :: l)) h h' s := by
  rw [elemYields_iff hi hd hl, firstYields_iff hi (hd.push ha) hl]
  have hn := get_some hi hc
  have hne : ∀ {text : Str}, Shows x h (.ptr a) text → text ≠ [] := fun hs => shows_dataset_ne hd.wf ha hs
  constructor
  · intro r
    cases r with
    | conditionNone ht' hv' hs r =>
      obtain ⟨rfl, rfl⟩ := target_unique ht ht'
      cases valueAt_unique hd hv hv'
      exact absurd rfl (hne hs)
    | conditionNothing ht' _ _ _ hlk => obtain ⟨rfl, rfl⟩ := target_unique ht ht'; exact absurd hlk hn
    | conditionValue ht' hv' hno =>
      obtain ⟨rfl, rfl⟩ := target_unique ht ht'
      exact absurd ha (hno _ (valueAt_unique hd hv' hv))
    | conditionDataset ht' hv' _ _ r _ =>
      obtain ⟨rfl, rfl⟩ := target_unique ht ht'
      cases valueAt_unique hd hv hv'
      exact r
    | unknown hk => exact hk.elim
  · intro r
    have sh := renders_shape r
    have hw := renders_wf r hd.wf hd.short trivial
    have hlt : a < h'.length := by
      rw [sh.len]
      exact valueAt_valid hd.wf hv a rfl
    obtain ⟨text, hs⟩ := shows_ptr x hw hlt (sh.acyclic hac)
    exact .conditionDataset ht hv ha hn r hs

end Xcore.Template
