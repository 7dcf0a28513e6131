import Verif.Proof.TemplateElem
import Verif.Proof.TemplateAgain
import Verif.Proof.TemplateGraph
import Verif.Proof.TemplateBreaks
import Verif.Proof.TemplateEndless
import Verif.Proof.TemplateNil
import Verif.Proof.TemplateMore
import Verif.Proof.TemplatePrune
import Verif.Proof.TemplatePage
import Verif.Proof.TemplateSteady

/-!
# Properties C39, C45–C52, C55, C56, C59, C60: what `Execute` renders

`Means s d`: the text `s` is the document `d` (C40 and C41 say which texts compile and to what). `Proper h data`: what every memory that
Go code can build satisfies, with no wrapper around nothing (see `Verif.Spec`). The number given to `execute` bounds the depth of
nested calls; "`∃ n, execute … n … = .ok r`" means that the call returns `r`. C45 to C50 hold for every template whose fathers end
(`Usable`, Verif/Spec/TemplateGraph.lean), however it was put together; `C45_compiled_templates` says that those made from a text are such.
-/

namespace Xcore.Template

open Xcore.Dataset

/-! ## A page and its data (Verif/Proof/TemplatePage.lean) -/

/-- The page rendered. -/
example : ((newFromString [] pageText).2 = some 0 ∧ (execute pageExt (newFromString [] pageText).1 3 0 page (some 0)).map Prod.snd =
    .ok b!"<h1>{{user}}</h1>Hola\n<1:one><last two>Annend {{user}}") := by decide +kernel

/-! ## C39 -/

/-- **C39** A text in which no meta element starts compiles, and renders as itself, for every data and for nil, and changes nothing. -/
theorem C39_plain_text_renders_itself {s : Str} (hs : ∀ t₁ t₂, s = t₁ ++ t₂ → ¬ ∃ p r, MetaAt t₂ p r) (th : THeap) :
    ∃ th' t, newFromString th s = (th', some t) ∧
      ∀ (x : Ext) (h : Heap) (data : Option Nat) (n : Nat), Proper h data → 0 < n → execute x th' n t h data = .ok (h, s) := by
  have key : ∃ d, Means s d ∧ (d.own = [⟨.string, s⟩] ∨ d.own = [] ∧ s = []) := by
    by_cases he : s = []
    · subst he
      exact ⟨.nil, ⟨trivial, [], .nil, rfl⟩, Or.inr ⟨rfl, rfl⟩⟩
    · refine ⟨.elem ⟨.string, s⟩ .nil, ⟨by simp [Doc.Plain], [(s, ⟨.string, s⟩)], ?_, rfl⟩, Or.inl rfl⟩
      have := Reads.text (t := s) (rest := []) (l := []) he (fun t₁ t₂ e _ => by simpa using hs t₁ t₂ e) (Or.inl rfl) .nil
      simpa using this
  obtain ⟨d, hm, hown⟩ := key
  obtain ⟨hp, l, hr, hd⟩ := id hm
  obtain ⟨th', l2, sb, e1, e2, e3, e4, e5, e6⟩ := compile_doc (th := th ++ [⟨[], none, none, none⟩]) (t := th.length) (o := ⟨[], none, none, none⟩)
    (by simp) hp (by rw [lex_eq hr, hd])
  have enew : newFromString th s = (th', some th.length) := by simp only [newFromString, newTpl, loadString, e1]
  refine ⟨th', th.length, enew, fun x h data n hpr hn => ?_⟩
  obtain ⟨m, rfl⟩ : ∃ m, n = m + 1 := ⟨n - 1, by omega⟩
  have inj : ∀ la st, injector x th' la (m + 1) th.length st = .ok (st, s) := by
    intro la st
    simp only [injector, e4]
    rcases hown with ho | ⟨ho, hs⟩
    · rw [ho]; simp [injectAll, injectItem]
    · rw [ho, hs]; rfl
  cases data with
  | none => simp only [execute, inj]; rfl
  | some a =>
    obtain ⟨l, e, _⟩ := langOf_iff (hpr.data a rfl) hpr.wf hpr.wrapped
    simp only [execute, e, Res.bind_ok, inj]

example : ∀ t₁ t₂, b!"{a}} 100% [x] #" = t₁ ++ t₂ → ¬ ∃ p r, MetaAt t₂ p r := by
  have h : ∀ i : Fin 16, matchAt ((b!"{a}} 100% [x] #").drop i) = none := by decide
  intro t₁ t₂ e
  have hl := congrArg List.length e
  simp only [List.length_append] at hl
  have hlt : t₁.length < 16 := by
    have : (b!"{a}} 100% [x] #").length = 15 := by decide
    omega
  have := h ⟨t₁.length, hlt⟩
  rw [e] at this
  simp only [List.drop_left] at this
  exact matchAt_none this

/-! ## C45 -/

/-- **C45** `Execute` returns exactly what the specification of the template language says (`Executes`, in `Verif.Spec.TemplateRender`): the
text, and the memory it leaves. This covers C45 to C49. -/
theorem C45_execute_meets_specification {x : Ext} {th th' : THeap} {s : Str} {t : Nat} {d : Doc} (hm : Means s d)
    (e : newFromString th s = (th', some t)) {h : Heap} {data : Option Nat} (hp : Proper h data) (h' : Heap) (out : Str) :
    (∃ n, execute x th' n t h data = .ok (h', out)) ↔ Executes x d data h h' out := execute_iff (new_in_scope hm e) hp

/-- The sample page meets the hypotheses, and its rendering is the one the code gives. -/
example : ∃ h', Executes pageExt pageDoc (some 0) page h' b!"<h1>{{user}}</h1>Hola\n<1:one><last two>Annend {{user}}" := by
  have hk : (execute pageExt (newFromString [] pageText).1 3 0 page (some 0)).map Prod.snd =
    .ok b!"<h1>{{user}}</h1>Hola\n<1:one><last two>Annend {{user}}" := by decide +kernel
  have e2 : newFromString [] pageText = ((newFromString [] pageText).1, some 0) := by
    have : (newFromString [] pageText).2 = some 0 := by decide +kernel
    rw [← this]
  generalize e : execute pageExt (newFromString [] pageText).1 3 0 page (some 0) = r at hk
  cases r with
  | ok r =>
    obtain ⟨h', out⟩ := r
    cases hk
    exact ⟨h', (C45_execute_meets_specification page_means e2 page_proper h' _).1 ⟨3, e⟩⟩
  | panic => cases hk
  | diverge => cases hk

/-- **C45** `Execute(data)` renders the template with `data` as the only dataset and the language table found under `#`. -/
theorem C45_execute_starts_with_data {x : Ext} {th : THeap} {t : Nat} (hu : Usable th t) {h : Heap} {a : Nat} (hp : Proper h (some a))
    {la : Option Nat} (hla : LangAt h a la) (h' : Heap) (out : Str) :
    (∃ n, execute x th n t h (some a) = .ok (h', out)) ↔ Yields x th la t (some [a]) h h' out := by
  obtain ⟨t', w⟩ := wraps_exists hp.wf hp.wrapped a (hp.data a rfl)
  obtain ⟨l, e, hl⟩ := langOf_iff (hp.data a rfl) hp.wf hp.wrapped
  have e0 : l = (entries h t').get b!"#" := by
    have hsplit : split 62 b!"#" = [b!"#"] := by decide
    simp only [Dataset.get, hsplit, getSegs, (target_iff hp.wf).2 w] at e
    cases e; rfl
  have hlang : langOf h l = la := by
    have hent : ∀ v, Entry h a b!"#" v ↔ l = some v := fun v => by rw [entry_iff w, e0]
    cases la with
    | none =>
      cases l with
      | none => rfl
      | some v =>
        cases v with
        | ptr b =>
          simp only [langOf]
          split
          · next l' hb => exact absurd ((hla b).2 ⟨(hent _).2 rfl, l', hb⟩) (by simp)
          · rfl
        | _ => rfl
    | some b =>
      obtain ⟨he, l', hb⟩ := (hla b).1 rfl
      rw [(hent _).1 he]
      simp only [langOf, hb]
  obtain ⟨lang, hli⟩ : ∃ lang, LangIs h la lang := by
    cases la with
    | none => exact ⟨none, trivial⟩
    | some b => obtain ⟨_, l', hb⟩ := (hla b).1 rfl; exact ⟨some l', hb⟩
  constructor
  · rintro ⟨n, q⟩
    simp only [execute, e, Res.bind_ok, hlang] at q
    rw [Res.bind_eq_ok] at q
    obtain ⟨r, q1, q2⟩ := q
    obtain ⟨h'', q3, _⟩ := sound_injector n t t (some [a]) h r hu.view hp.ready hli q1
    obtain ⟨st, o⟩ := r
    simp only at q3
    subst q3
    cases q2
    exact ⟨n, q1⟩
  · rintro ⟨n, q⟩
    refine ⟨n, ?_⟩
    have q : injector x th la n t ⟨h, some [some a]⟩ = .ok (⟨h', stackOf (some [a])⟩, out) := q
    simp only [execute, e, Res.bind_ok, hlang, q]

/-- **C45** `Execute(nil)` renders it without data and language. -/
theorem C45_execute_nil {x : Ext} {th : THeap} {t : Nat} (hu : Usable th t) {h : Heap} (hp : Proper h none) (h' : Heap) (out : Str) :
    (∃ n, execute x th n t h none = .ok (h', out)) ↔ Yields x th none t none h h' out := by
  constructor
  · rintro ⟨n, q⟩
    simp only [execute] at q
    rw [Res.bind_eq_ok] at q
    obtain ⟨r, q1, q2⟩ := q
    obtain ⟨h'', q3, _⟩ := sound_injector n t t none h r hu.view hp.ready_nil (la := none) (lang := none) trivial q1
    obtain ⟨st, o⟩ := r
    simp only at q3
    subst q3
    cases q2
    exact ⟨n, q1⟩
  · rintro ⟨n, q⟩
    refine ⟨n, ?_⟩
    have q : injector x th none n t ⟨h, none⟩ = .ok (⟨h', stackOf none⟩, out) := q
    simp only [execute, q, Res.bind_ok]

section Elements

variable {x : Ext} {th : THeap} {la : Option Nat} {lang : Option Language.Lang} {t : Nat} {σ : Option (List Nat)} {h h' : Heap} {s : Str}

/-- **C45** A compiled template and each of its boxes is usable; its elements are those of its text that stand in no box. -/
theorem C45_compiled_templates {d : Doc} {up : List Doc} (hi : InScope th t (d :: up)) : Usable th t ∧ elements th t = d.own := ⟨hi.usable, hi.elements⟩

/-- **C45** A template, and each of its boxes, is rendered element by element in source order; the texts are put together. Boxes are not
rendered in place. -/
theorem C45_template_is_rendered_in_order (hu : Usable th t) (hd : Ready h σ) (hl : LangIs h la lang) :
    Yields x th la t σ h h' s ↔ InOrder (fun _ p h h' s => ElemYields x th la t p σ h h' s) 0 (elements th t) h h' s := yields_body hu.view hd hl

/-- **C45** Literal text is rendered as it is; a comment is rendered as nothing. -/
theorem C45_literals_and_comments (hu : Usable th t) (hd : Ready h σ) (hl : LangIs h la lang) (d : Str) :
    (ElemYields x th la t ⟨.string, d⟩ σ h h' s ↔ h' = h ∧ s = d) ∧ (ElemYields x th la t ⟨.comment, d⟩ σ h h' s ↔ h' = h ∧ s = []) :=
  ⟨text_iff hu.view hd hl d, comment_iff hu.view hd hl d⟩

/-- **C45** `{{path}}` is replaced by the text of the value at the path: that of the innermost dataset that has one (`ValueAt`), as package fmt
prints it, the empty text if there is none (`Shows`). -/
theorem C45_field_is_injected (hu : Usable th t) (hd : Ready h σ) (hl : LangIs h la lang) (path : Str) :
    ElemYields x th la t ⟨.variable, path⟩ σ h h' s ↔ h' = h ∧ ∃ v, ValueAt h σ path v ∧ Shows x h v s := variable_iff hu.view hd hl path

/-- **C45** There is exactly one value at a path. -/
theorem C45_value_is_unique (hd : Ready h σ) (path : Str) : ∃ v, ValueAt h σ path v ∧ ∀ w, ValueAt h σ path w → w = v := by
  obtain ⟨v, _, hv, hu⟩ := condGet_value hd path
  exact ⟨v, hv, hu⟩

/-- **C45** Injected text is not read again: a string at the path is injected as it is, whatever it contains. -/
theorem C45_injected_text_is_verbatim (hu : Usable th t) (hd : Ready h σ) (hl : LangIs h la lang) {path v : Str}
    (hv : ValueAt h σ path (.str v)) : ElemYields x th la t ⟨.variable, path⟩ σ h h' s ↔ h' = h ∧ s = v := by
  have hs : Shows x h (.str v) v := Or.inr ⟨by simp, 1, by simp [Prints, fmtScalar]⟩
  rw [variable_iff hu.view hd hl]
  constructor
  · rintro ⟨rfl, w, hw, hsw⟩
    cases valueAt_unique hd hv hw
    exact ⟨rfl, shows_det hsw hs⟩
  · rintro ⟨rfl, rfl⟩
    exact ⟨rfl, _, hv, hs⟩

/-! ## C46 -/

/-- **C46** `##id##` is replaced by the entry `id` of the language table; by nothing if there is no such entry or no table. Which table:
`C45_execute_starts_with_data`. -/
theorem C46_language_entry_is_injected (hu : Usable th t) (hd : Ready h σ) (hl : LangIs h la lang) (id : Str) :
    ElemYields x th la t ⟨.language, id⟩ σ h h' s ↔
      h' = h ∧ ((∃ l, lang = some l ∧ l.entries.get id = some s) ∨ ((∀ l, lang = some l → l.entries.get id = none) ∧ s = [])) := by
  rw [language_iff hu.view hd hl]
  refine and_congr_right fun _ => ?_
  unfold langText
  cases lang with
  | none => simp
  | some l =>
    cases e : l.entries.get id with
    | none => simp [e]
    | some v => simp [e, eq_comm]

/-! ## C47 -/

/-- **C47** `&&id&&` renders the visible sub-template `id` with the same data, nothing if there is none. -/
theorem C47_reference (hu : Usable th t) (hd : Ready h σ) (hl : LangIs h la lang) {d : Str} (hp : parts d = [d]) :
    ElemYields x th la t ⟨.reference, d⟩ σ h h' s ↔ FirstYields x th la t [d] σ h h' s := reference_iff hu.view hd hl hp (by simp) (by simp)

/-- **C47** `&&id:key&&` where the value at `key` is a dataset: the sub-template is rendered with that dataset as the innermost one. -/
theorem C47_reference_with_dataset {l : List Nat} (hu : Usable th t) (hd : Ready h (some l)) (hl : LangIs h la lang) {d id key : Str}
    (hp : parts d = [id, key]) {a : Nat} (hv : ValueAt h (some l) key (.ptr a)) (ha : IsDataset h a) :
    ElemYields x th la t ⟨.reference, d⟩ (some l) h h' s ↔ FirstYields x th la t [id] (some (a :: l)) h h' s := referenceWith_iff hu.view hd hl hp hv ha

/-- **C47** `&&id:key&&` where it is not: with the same data. -/
theorem C47_reference_without_dataset {l : List Nat} (hu : Usable th t) (hd : Ready h (some l)) (hl : LangIs h la lang) {d id key : Str}
    (hp : parts d = [id, key]) {v : Val} (hv : ValueAt h (some l) key v) (ha : ∀ a, v = .ptr a → ¬ IsDataset h a) :
    ElemYields x th la t ⟨.reference, d⟩ (some l) h h' s ↔ FirstYields x th la t [id] (some l) h h' s := referenceWithout_iff hu.view hd hl hp hv ha

/-- **C47** `&&:key:prefix&&` renders `prefix` followed by the text of the value at `key`, or `prefix` if there is no such sub-template. -/
theorem C47_reference_by_value {l : List Nat} (hu : Usable th t) (hd : Ready h (some l)) (hl : LangIs h la lang) {d any key pre : Str}
    (hp : parts d = [any, key, pre]) {v : Val} {text : Str} (hv : ValueAt h (some l) key v) (hs : Shows x h v text) :
    ElemYields x th la t ⟨.reference, d⟩ (some l) h h' s ↔ FirstYields x th la t [pre ++ text, pre] (some l) h h' s :=
  referenceValue_iff hu.view hd hl hp hv hs

/-- **C47** References of four or more parts are like references of one part. -/
theorem C47_reference_of_many_parts (hu : Usable th t) (hd : Ready h σ) (hl : LangIs h la lang) {d id : Str} {rest : List Str}
    (hp : parts d = id :: rest) (h3 : 3 ≤ rest.length) :
    ElemYields x th la t ⟨.reference, d⟩ σ h h' s ↔ FirstYields x th la t [id] σ h h' s := reference_iff hu.view hd hl hp (by omega) (by omega)

/-! ## C48 -/

/-- **C48** `@@key:id@@` with a nonempty collection at `key`: one round per element, in order. Round `i` (`Round`) gives the element the
counter `i + 1` and renders, with the element as the innermost dataset, the first visible of `id.key.i`, `id.first` (for the first
element), `id.last` (for the last), `id.even` (for even `i`) and `id` (`rangeNames`). -/
theorem C48_loop_renders_every_element {l : List Nat} (hu : Usable th t) (hd : Ready h (some l)) (hl : LangIs h la lang) {d key id : Str}
    (ht : Target d key id) {c : Nat} (hc : getTemplate th t id = .ok (some c)) {b : Nat} {q : List Nat} (hv : ValueAt h (some l) key (.ptr b))
    (hcl : IsCollection h b (q.map some)) (hne : q ≠ []) :
    ElemYields x th la t ⟨.range, d⟩ (some l) h h' s ↔ InOrder (Round x th la t id q.length l) 0 q h h' s := range_iff hu.view hd hl ht hc hv hcl hne

/-- **C48** The names tried, best first. -/
theorem C48_names_by_priority (id : Str) (i n : Nat) :
    rangeNames id i n = (id ++ b!".key." ++ itoa i) :: ((if i = 0 then [id ++ b!".first"] else []) ++ (if i + 1 = n then [id ++ b!".last"] else []) ++
      (if i % 2 = 0 then [id ++ b!".even"] else []) ++ [id]) := by
  simp [rangeNames]

/-- **C48** With an empty collection, no value or another value at `key`: `id.none`, or `id` once if that is not visible. -/
theorem C48_loop_over_nothing {l : List Nat} (hu : Usable th t) (hd : Ready h (some l)) (hl : LangIs h la lang) {d key id : Str}
    (ht : Target d key id) {c : Nat} (hc : getTemplate th t id = .ok (some c)) {v : Val} (hv : ValueAt h (some l) key v)
    (he : ∀ b q, v = .ptr b → IsCollection h b q → q = []) :
    ElemYields x th la t ⟨.range, d⟩ (some l) h h' s ↔ FirstYields x th la t [id ++ b!".none", id] (some l) h h' s :=
  rangeEmpty_iff hu.view hd hl ht hc hv he

/-- **C48** Without data, or if `id` is not visible, nothing is rendered (even if `id.none` or `id.first` are visible). -/
theorem C48_loop_without_template (hu : Usable th t) (hd : Ready h σ) (hl : LangIs h la lang) {d key id : Str} (ht : Target d key id)
    (hn : getTemplate th t id = .ok none ∨ σ = none) : ElemYields x th la t ⟨.range, d⟩ σ h h' s ↔ h' = h ∧ s = [] := rangeAbsent_iff hu.view hd hl ht hn

/-! ## C49 -/

/-- **C49** `??key:id??` with a value that is not a dataset and whose text is not empty: `id.<text>`, or `id` if that is not visible. -/
theorem C49_condition_met {d key id : Str} (hu : Usable th t) (hd : Ready h σ) (hl : LangIs h la lang) (ht : Target d key id) {v : Val} {text : Str}
    (hv : ValueAt h σ key v) (ha : ∀ a, v = .ptr a → ¬ IsDataset h a) (he : Shows x h v text) (hne : text ≠ []) {c : Nat}
    (hc : getTemplate th t id = .ok (some c)) :
    ElemYields x th la t ⟨.condition, d⟩ σ h h' s ↔ FirstYields x th la t [id ++ b!"." ++ text, id] σ h h' s :=
  conditionValue_iff hu.view hd hl ht hv ha he hne hc

/-- **C49** With a dataset at `key`: `id.array`, or `id` if that is not visible, with the dataset as the innermost one. -/
theorem C49_condition_met_by_dataset {l : List Nat} (hu : Usable th t) (hd : Ready h (some l)) (hl : LangIs h la lang) {d key id : Str}
    (ht : Target d key id) {a : Nat} (hv : ValueAt h (some l) key (.ptr a)) (ha : IsDataset h a) (hac : Acyclic h a) {c : Nat}
    (hc : getTemplate th t id = .ok (some c)) :
    ElemYields x th la t ⟨.condition, d⟩ (some l) h h' s ↔ FirstYields x th la t [id ++ b!".array", id] (some (a :: l)) h h' s :=
  conditionDataset_iff hu.view hd hl ht hv ha hc hac

/-- **C49** A condition that is not met (no value, nil, or a value with an empty text) renders `id.none` if that is visible — and otherwise
`id`, see `C49_unmet_condition_renders_positive_branch`. -/
theorem C49_condition_not_met (hu : Usable th t) (hd : Ready h σ) (hl : LangIs h la lang) {d key id : Str} (ht : Target d key id) {v : Val}
    (hv : ValueAt h σ key v) (he : Shows x h v []) :
    ElemYields x th la t ⟨.condition, d⟩ σ h h' s ↔ FirstYields x th la t [id ++ b!".none", id] σ h h' s := conditionNone_iff hu.view hd hl ht hv he

/-- **C49**, what holds of the last sentence: if `id.none` is visible, a condition that is not met renders it and never the positive branch.
Missing: if it is not visible, the positive branch is rendered. -/
theorem C49_unmet_condition_renders_none_partial (hu : Usable th t) (hd : Ready h σ) (hl : LangIs h la lang) {d key id : Str} (ht : Target d key id)
    {v : Val} (hv : ValueAt h σ key v) (he : Shows x h v []) {c : Nat} (hc : getTemplate th t (id ++ b!".none") = .ok (some c)) :
    ElemYields x th la t ⟨.condition, d⟩ σ h h' s ↔ Yields x th la c σ h h' s := by
  rw [conditionNone_iff hu.view hd hl ht hv he]
  constructor
  · intro r
    cases r with
    | found e r => rw [hc] at e; cases e; exact r
    | next e => rw [hc] at e; cases e
  · exact .found hc

/-- **C49** A condition that is met renders nothing if `id` is not visible. -/
theorem C49_condition_without_template (hu : Usable th t) (hd : Ready h σ) (hl : LangIs h la lang) {d key id : Str} (ht : Target d key id) {v : Val}
    {text : Str} (hv : ValueAt h σ key v) (he : Shows x h v text) (hne : text ≠ []) (hc : getTemplate th t id = .ok none) :
    ElemYields x th la t ⟨.condition, d⟩ σ h h' s ↔ h' = h ∧ s = [] := conditionAbsent_iff hu.view hd hl ht hv he hne hc

end Elements

/-- The hypotheses of the theorems of C45 to C49 hold for the page: template, data, language, values at paths. -/
example : Usable (newFromString [] pageText).1 0 ∧ Ready page (some [0]) ∧ LangAt page 0 (some 4) ∧
    LangIs page (some 4) (some ⟨[], [], [(b!"hi", b!"Hola")], []⟩) ∧ ValueAt page (some [0]) b!"user" (.ptr 3) ∧ IsDataset page 3 ∧
    Target b!"rows:row" b!"rows" b!"row" ∧ ValueAt page (some [0]) b!"rows" (.ptr 1) ∧ IsCollection page 1 ([2, 5].map some) ∧
    ValueAt page (some [5, 0]) b!"title" (.str b!"{{user}}") ∧ ValueAt page (some [0]) b!"other" .nil ∧ parts b!"a:b:c" = [b!"a", b!"b", b!"c"] ∧
    getTemplate (newFromString [] pageText).1 0 b!"row.none" = .ok none ∧ getTemplate (newFromString [] pageText).1 0 b!"row" = .ok (some 1) := by
  have e2 : newFromString [] pageText = ((newFromString [] pageText).1, some 0) := by
    have : (newFromString [] pageText).2 = some 0 := by decide +kernel
    rw [← this]
  have hr := page_proper.ready
  have hr5 := hr.push (a := 5) (Or.inl ⟨_, rfl⟩)
  have get : ∀ {a : Nat} {k : Str} {v : Val}, Dataset.get page a k = .ok (some v) → Has page a k v := fun e => (has_iff page_proper.wf).2 e
  have no : ∀ {a : Nat} {k : Str}, Dataset.get page a k = .ok none → ∀ w, ¬ Has page a k w := fun e w hw => by
    rw [has_iff page_proper.wf, e] at hw; cases hw
  refine ⟨(new_in_scope page_means e2).usable, hr, ?_, rfl, .here (get (by decide)), Or.inl ⟨_, rfl⟩, Or.inr ⟨[], by decide⟩, .here (get (by decide)), Or.inl rfl,
    .outer (no (by decide)) (.here (get (by decide))), .outer (no (by decide)) .missing, by decide, by decide +kernel, by decide +kernel⟩
  intro b
  have he : ∀ v, Entry page 0 b!"#" v ↔ (entries page 0).get b!"#" = some v := fun v => entry_iff (.plain rfl)
  rw [he]
  constructor
  · rintro ⟨⟩; exact ⟨by decide, _, rfl⟩
  · rintro ⟨e, _⟩
    have : (entries page 0).get b!"#" = some (.ptr 4) := by decide
    rw [this] at e
    cases e
    rfl

/-- **C49 is false** in its last sentence: the value at `x` is absent, and the positive branch `a` is rendered. -/
theorem C49_unmet_condition_renders_positive_branch : ∃ th t, newFromString [] b!"??x:a??[[a]]yes[[]]" = (th, some t) ∧
    Proper [.ds []] (some 0) ∧ Dataset.get [.ds []] 0 b!"x" = .ok none ∧ execute pageExt th 2 t [.ds []] (some 0) = .ok ([.ds []], b!"yes") := by
  refine ⟨_, 0, rfl, ⟨?_, ?_, ?_, ?_⟩, by decide, by decide⟩
  · rw [wf_iff]
    intro a o ho
    have hlt : a < 1 := lt_of_getElem? ho
    obtain rfl : a = 0 := by omega
    cases ho
    exact ⟨by decide, by simp⟩
  · intro a ha
    have hlt : a < 1 := lt_of_getElem? ha
    obtain rfl : a = 0 := by omega
    cases ha
  · intro a l hl
    have hlt : a < 1 := by rcases hl with hl | hl <;> exact lt_of_getElem? hl
    obtain rfl : a = 0 := by omega
    rcases hl with hl | hl <;> cases hl
  · intro a e
    cases e
    exact Or.inl ⟨_, rfl⟩

/-! ## C50 -/

/-- **C50** `Execute` changes nothing in memory except that datasets in collections may get an int under `.counter` (`OnlyCounters`). -/
theorem C50_only_counters_change {x : Ext} {th : THeap} {t : Nat} (hu : Usable th t) {h h' : Heap} {data : Option Nat} (hp : Proper h data)
    {n : Nat} {out : Str} (e : execute x th n t h data = .ok (h', out)) : OnlyCounters h h' := by
  cases (execute_iff' hu.view hp).1 ⟨n, e⟩ with
  | data _ r => exact renders_counters r (by simp)
  | nil r => exact renders_counters r (by simp)

/-- **C50** Rendering any template or box restores the scope stack exactly. -/
theorem C50_scope_stack_is_restored {x : Ext} {th : THeap} {la : Option Nat} {lang : Option Language.Lang} {t : Nat} (hu : Usable th t)
    {σ : Option (List Nat)} {h : Heap} (hd : Ready h σ) (hl : LangIs h la lang) {n : Nat} {st : St} {out : Str}
    (e : injector x th la n t ⟨h, stackOf σ⟩ = .ok (st, out)) : st.stack = stackOf σ := by
  obtain ⟨h', e, _⟩ := sound_injector n t t σ h _ hu.view hd hl e
  simp only at e
  rw [e]

/-- **C50** Without loops nothing changes at all. -/
theorem C50_without_loops_nothing_changes {x : Ext} {th : THeap} {t : Nat} {d : Doc} (hi : InScope th t [d]) (hl : d.All fun p => p.kind ≠ .range)
    {h h' : Heap} {data : Option Nat} (hp : Proper h data) {n : Nat} {out : Str} (e : execute x th n t h data = .ok (h', out)) : h' = h := by
  cases (execute_iff hi hp).1 ⟨n, e⟩ with
  | data _ r => exact renders_same r (by simpa using hl) (by simp) (by simp) (by simp)
  | nil r => exact renders_same r (by simpa using hl) (by simp) (by simp) (by simp)

/-- The memory the page leaves. -/
example : (execute pageExt (newFromString [] pageText).1 3 0 page (some 0)).map Prod.fst =
    .ok [.ds [(b!"title", .str b!"{{user}}"), (b!"rows", .ptr 1), (b!"user", .ptr 3), (b!"#", .ptr 4)], .col [some 2, some 5],
      .ds [(b!"n", .str b!"one"), (b!".counter", .int .int 1)], .ds [(b!"name", .str b!"Ann")], .lang ⟨[], [], [(b!"hi", b!"Hola")], []⟩,
      .ds [(b!"n", .str b!"two"), (b!".counter", .int .int 2)]] := by decide +kernel

/-! ## C51, C60 -/

/-- **C51 is false**: a reference with data panics without data. -/
theorem C51_nil_data_panics : ∃ th t, newFromString [] b!"&&a:k&&[[a]]x[[]]" = (th, some t) ∧ ∀ x h n, 0 < n → execute x th n t h none = .panic := by
  refine ⟨_, 0, rfl, fun x h n hn => ?_⟩
  obtain ⟨m, rfl⟩ : ∃ m, n = m + 1 := ⟨n - 1, by omega⟩
  rfl

/-- **C51** `Execute(nil)` does not panic on templates without references of two or three parts. Missing: with such references it may panic
(`C51_nil_data_panics`). -/
theorem C51_nil_data_does_not_panic_partial {x : Ext} {th th' : THeap} {s : Str} {t : Nat} {d : Doc} (hm : Means s d)
    (e : newFromString th s = (th', some t)) (hn : d.All NeedsNoData) {h : Heap} (hp : Proper h none) (n : Nat) : execute x th' n t h none ≠ .panic :=
  execute_safe (new_in_scope hm e) hp (fun e => absurd rfl e) (fun _ => hn) n

example : pageDoc.All NeedsNoData := by
  simp only [pageDoc, Doc.All, NeedsNoData, and_true]
  simp
  decide

/-- **C51** When `Execute(nil)` panics, rendering has come to an element that uses data (`MeetsDataUse`: a reference of three parts, or one of two
parts whose sub-template is visible, in the document itself or in a sub-template rendered without data). -/
theorem C51_panic_needs_use_of_data {x : Ext} {th th' : THeap} {s : Str} {t : Nat} {d : Doc} (hm : Means s d) (e : newFromString th s = (th', some t))
    {h : Heap} {n : Nat} (q : execute x th' n t h none = .panic) : MeetsDataUse d := by
  apply Classical.byContradiction
  intro hd
  exact Safe.bind (nil_safe hd n t [d] h (new_in_scope hm e) .root).1 (fun _ _ => Safe.ok _) q

/-- **C51** If there is such an element, `Execute(nil)` never returns a text: it panics, or runs for ever before it comes to the element. -/
theorem C51_use_of_data_never_returns {x : Ext} {th th' : THeap} {s : Str} {t : Nat} {d : Doc} (hm : Means s d) (e : newFromString th s = (th', some t))
    (hd : MeetsDataUse d) {h : Heap} (n : Nat) (r : Heap × Str) : execute x th' n t h none ≠ .ok r := by
  intro q
  simp only [execute] at q
  rw [Res.bind_eq_ok] at q
  obtain ⟨r', q, _⟩ := q
  exact nil_never_returns (new_in_scope hm e) hd n r' q

/-- **C51** If no chain of sub-templates that name each other goes on for ever, `Execute(nil)` panics exactly if rendering comes to an element that
uses data, and otherwise returns. -/
theorem C51_nil_data_panics_exactly {x : Ext} {th th' : THeap} {s : Str} {t : Nat} {d : Doc} (hm : Means s d) (e : newFromString th s = (th', some t))
    (hacc : Acc (fun a b => Calls b a) [d]) (h : Heap) :
    ((∃ n, execute x th' n t h none = .panic) ↔ MeetsDataUse d) ∧ ((∃ n r, execute x th' n t h none = .ok r) ↔ ¬ MeetsDataUse d) := by
  have hi := new_in_scope hm e
  obtain ⟨n, hn⟩ := nil_ends (x := x) hacc h hi
  have hcase : (∃ r, execute x th' n t h none = .ok r) ∨ execute x th' n t h none = .panic := by
    simp only [execute]
    generalize injector x th' none n t ⟨h, none⟩ = r at hn
    cases r with
    | ok r => exact Or.inl ⟨_, rfl⟩
    | panic => exact Or.inr rfl
    | diverge => exact absurd rfl hn
  refine ⟨⟨fun ⟨_, q⟩ => C51_panic_needs_use_of_data hm e q, fun hd => ⟨n, ?_⟩⟩,
    ⟨fun ⟨m, r, q⟩ hd => C51_use_of_data_never_returns hm e hd m r q, fun hd => ⟨n, ?_⟩⟩⟩
  · rcases hcase with ⟨r, q⟩ | q
    · exact absurd q (C51_use_of_data_never_returns hm e hd n r)
    · exact q
  · rcases hcase with q | q
    · exact q
    · exact absurd (C51_panic_needs_use_of_data hm e q) hd

/-- A reference of two parts in a box that is reached, and one in a box that is not. -/
example : MeetsDataUse (.elem ⟨.condition, b!"a"⟩ (.box b!"a" (.elem ⟨.reference, b!"b:k"⟩ .nil) (.box b!"b" (.elem ⟨.string, b!"x"⟩ .nil) .nil))) ∧
    ¬ MeetsDataUse (.elem ⟨.range, b!"a"⟩ (.box b!"a" (.elem ⟨.reference, b!"b:k"⟩ .nil) (.box b!"b" (.elem ⟨.string, b!"x"⟩ .nil) .nil))) := by
  refine ⟨⟨_, _, ⟨.reference, b!"b:k"⟩, .call .root (List.mem_cons_self) (.condition (key := b!"a") (id := b!"a") (Or.inl ⟨by decide, rfl⟩)) rfl, by decide,
    rfl, Or.inr ⟨b!"b", b!"k", by decide, by decide⟩⟩, ?_⟩
  rintro ⟨e, up, p, hr, hp, hu⟩
  have : e :: up = [.elem ⟨.range, b!"a"⟩ (.box b!"a" (.elem ⟨.reference, b!"b:k"⟩ .nil) (.box b!"b" (.elem ⟨.string, b!"x"⟩ .nil) .nil))] := by
    generalize e :: up = sc at hr
    clear hp hu
    induction hr with
    | root => rfl
    | call hr hp hn hl ih =>
      cases ih
      simp only [Doc.own, List.mem_cons, List.not_mem_nil, or_false] at hp
      subst hp
      cases hn
  cases this
  simp only [Doc.own, List.mem_cons, List.not_mem_nil, or_false] at hp
  subst hp
  cases hu.1

/-- **C60** `Execute` on data without nil elements in collections never panics. -/
theorem C60_execute_does_not_panic {x : Ext} {th th' : THeap} {s : Str} {t : Nat} {d : Doc} (hm : Means s d)
    (e : newFromString th s = (th', some t)) {h : Heap} {a : Nat} (hp : Proper h (some a)) (nn : NoNilElement h) (n : Nat) :
    execute x th' n t h (some a) ≠ .panic :=
  execute_safe (new_in_scope hm e) hp (fun _ => nn) (fun e => by cases e) n

/-! ## C52 -/

/-- **C52 is false**: a box that refers to itself is rendered without end. -/
theorem C52_recursive_box_diverges : ∃ th t, newFromString [] b!"&&a&&[[a]]&&a&&[[]]" = (th, some t) ∧ ∀ x h n, execute x th n t h none = .diverge := by
  refine ⟨_, 0, rfl, fun x h n => ?_⟩
  have box : ∀ n st, injector x (newFromString [] b!"&&a&&[[a]]&&a&&[[]]").1 none n 1 st = .diverge := by
    intro n
    induction n with
    | zero => intro st; rfl
    | succ n ih =>
      intro st
      have e : injector x (newFromString [] b!"&&a&&[[a]]&&a&&[[]]").1 none (n + 1) 1 st =
        (injector x (newFromString [] b!"&&a&&[[a]]&&a&&[[]]").1 none n 1 st >>= fun r => .ok (r.1, r.2 ++ [])) := rfl
      rw [e, ih]; rfl
  cases n with
  | zero => rfl
  | succ n =>
    have e : execute x (newFromString [] b!"&&a&&[[a]]&&a&&[[]]").1 (n + 1) 0 h none =
      ((injector x (newFromString [] b!"&&a&&[[a]]&&a&&[[]]").1 none n 1 ⟨h, none⟩ >>= fun r => .ok (r.1, r.2 ++ [])) >>= fun r => .ok (r.1.heap, r.2)) := rfl
    exact e.trans (by rw [box]; rfl)

/-- **C52** `Execute` never ends exactly where the specification says (`ExecuteEndless`): when rendering comes to a value that has no text because it
contains itself, or when every sub-template that is rendered has a further one rendered inside. For all templates and data. -/
theorem C52_never_ends_exactly {x : Ext} {th th' : THeap} {s : Str} {t : Nat} {d : Doc} (hm : Means s d) (e : newFromString th s = (th', some t))
    {h : Heap} {data : Option Nat} (hp : Proper h data) : (∀ n, execute x th' n t h data = .diverge) ↔ ExecuteEndless x d data h :=
  execute_diverges_iff (new_in_scope hm e) hp

/-- **C52 is false** for trees too: a box for a node that renders the node's children with itself does not end on a finite tree without cycles. A leaf that
has no children of its own is given those of its father; a leaf that has an empty list of children is rendered again for it. -/
theorem C52_tree_never_ends : ∃ th t, newFromString [] menuText = (th, some t) ∧
    (Proper (treeOf []) (some 0) ∧ Acyclic (treeOf []) 0 ∧ ∀ x n, execute x th n t (treeOf []) (some 0) = .diverge) ∧
    (Proper (treeClosed []) (some 0) ∧ Acyclic (treeClosed []) 0 ∧ ∀ x n, execute x th n t (treeClosed []) (some 0) = .diverge) :=
  ⟨_, 0, rfl, ⟨tree_proper, tree_acyclic, fun x => (C52_never_ends_exactly menu_means rfl tree_proper).2 (tree_endless x)⟩,
    ⟨closed_proper, closed_acyclic, fun x => (C52_never_ends_exactly menu_means rfl closed_proper).2 (closed_endless x)⟩⟩

/-- It ends if the leaf has an empty list and there is a box for that case. -/
example : (execute pageExt (newFromString [] (menuText ++ b!"[[node.none]].[[]]")).1 3 0 (treeClosed []) (some 0)).map Prod.snd =
    .ok b!"<li>.</li>" := by decide +kernel

/-- **C52** If no chain of sub-templates that name each other goes on for ever, and the data has no cycles, `Execute` ends: it returns a text, or it
panics (C51 and C80 say when). Missing: recursive templates need not end, even on data without cycles (`C52_recursive_box_diverges`). -/
theorem C52_execute_ends_partial {x : Ext} {th th' : THeap} {s : Str} {t : Nat} {d : Doc} (hm : Means s d) (e : newFromString th s = (th', some t))
    (hacc : Acc (fun a b => Calls b a) [d]) {h : Heap} {data : Option Nat} (hp : Proper h data) (hac : ∀ a, data = some a → Acyclic h a) :
    (∃ n h' out, execute x th' n t h data = .ok (h', out)) ∨ ∃ n, execute x th' n t h data = .panic := by
  have hi := new_in_scope hm e
  rcases execute_ends (x := x) hp hacc hac with ⟨h', out, r⟩ | b
  · obtain ⟨n, q⟩ := (execute_iff hi hp).2 r
    exact Or.inl ⟨n, h', out, q⟩
  · exact Or.inr ((execute_panic_iff hi hp).2 b)

/-- **C52** With data it returns a text if no collection has a nil element. -/
theorem C52_execute_terminates_partial {x : Ext} {th th' : THeap} {s : Str} {t : Nat} {d : Doc} (hm : Means s d) (e : newFromString th s = (th', some t))
    (hacc : Acc (fun a b => Calls b a) [d]) {h : Heap} {a : Nat} (hp : Proper h (some a)) (nn : NoNilElement h) (hac : Acyclic h a) :
    ∃ n h' out, execute x th' n t h (some a) = .ok (h', out) := by
  rcases C52_execute_ends_partial (x := x) hm e hacc hp (fun b eb => by cases eb; exact hac) with q | ⟨n, q⟩
  · exact q
  · exact absurd q (execute_safe (new_in_scope hm e) hp (fun _ => nn) nofun n)

/-- **C52** The same without data, for templates without references of two or three parts (with these it may panic, C51). -/
theorem C52_execute_nil_terminates_partial {x : Ext} {th th' : THeap} {s : Str} {t : Nat} {d : Doc} (hm : Means s d) (e : newFromString th s = (th', some t))
    (hacc : Acc (fun a b => Calls b a) [d]) (hn : d.All NeedsNoData) {h : Heap} (hp : Proper h none) :
    ∃ n out, execute x th' n t h none = .ok (h, out) := by
  rcases C52_execute_ends_partial (x := x) hm e hacc hp nofun with ⟨n, h', out, q⟩ | ⟨n, q⟩
  · have r := (execute_iff (new_in_scope hm e) hp).1 ⟨n, q⟩
    cases r with | nil r => ?_
    have : h' = h := renders_nil r rfl
    exact ⟨n, out, by rw [q, this]⟩
  · exact absurd q (execute_safe (new_in_scope hm e) hp (fun e => absurd rfl e) (fun _ => hn) n)

/-- **C52** Elements that name only boxes of the document they stand in directly: such a template ends on all data without cycles. -/
theorem C52_inward_calls_terminate_partial {x : Ext} {th th' : THeap} {s : Str} {t : Nat} {d : Doc} (hm : Means s d) (e : newFromString th s = (th', some t))
    (hin : Inward d) {h : Heap} {a : Nat} (hp : Proper h (some a)) (nn : NoNilElement h) (hac : Acyclic h a) :
    ∃ n h' out, execute x th' n t h (some a) = .ok (h', out) :=
  C52_execute_terminates_partial hm e (inward_acc hin) hp nn hac

example : Inward pageDoc := by
  have flat : ∀ sc, Inside pageDoc sc → sc = [pageDoc] ∨ ∃ e up, sc = e :: up ∧ (∀ p ∈ e.own, p.kind = .string ∨ p.kind = .variable) ∧ ∀ v, e.find v = none := by
    intro sc hi
    induction hi with
    | root => exact Or.inl rfl
    | @box e b up v hi ef ih =>
      refine Or.inr ⟨b, e :: up, rfl, ?_⟩
      rcases ih with h | ⟨e', up', h, _, hf⟩
      · cases h
        simp only [pageDoc, Doc.find, Option.none_or] at ef
        have pick' : ∀ (q : Prop) [Decidable q] (b' : Doc) (o : Option Doc), o.or (if q then some b' else none) = some b → o = some b ∨ b' = b := by
          intro q _ b' o e
          cases o with
          | some o => exact Or.inl e
          | none => by_cases hq : q <;> simp [hq] at e; exact Or.inr e
        rcases pick' _ _ _ ef with ef | rfl
        · rcases pick' _ _ _ ef with ef | rfl
          · rcases pick' _ _ _ ef with ef | rfl
            · split at ef
              · cases ef; simp [Doc.own, Doc.find]
              · cases ef
            · simp [Doc.own, Doc.find]
          · simp [Doc.own, Doc.find]
        · simp [Doc.own, Doc.find]
      · cases h
        rw [hf] at ef
        cases ef
  intro e up hi p hp v hv ef
  rcases flat _ hi with h | ⟨e', up', h, hk, _⟩
  · cases h; rfl
  · cases h
    have := hk p hp
    cases hv <;> simp at this

/-! ## C55 -/

/-- **C55** The outcome does not depend on the bound for the depth: a larger one gives the same, unless the smaller one was exceeded. -/
theorem C55_bound_is_irrelevant {x : Ext} {th : THeap} {t : Nat} {h : Heap} {data : Option Nat} {n m : Nat} (hn : n ≤ m) :
    execute x th n t h data = .diverge ∨ execute x th m t h data = execute x th n t h data := by
  cases data with
  | none =>
    rcases injector_mono x th none hn t ⟨h, none⟩ with e | e
    · exact Or.inl (by simp only [execute, e]; rfl)
    · exact Or.inr (by simp only [execute, e])
  | some a =>
    simp only [execute]
    cases Dataset.get h a b!"#" with
    | ok l =>
      rcases injector_mono x th (langOf h l) hn t ⟨h, some [some a]⟩ with e | e
      · exact Or.inl (by simp only [Res.bind_ok, e]; rfl)
      · exact Or.inr (by simp only [Res.bind_ok, e])
    | panic => exact Or.inr rfl
    | diverge => exact Or.inl rfl

/-- **C55** Two executions of the same template on the same data give the same text and memory. -/
theorem C55_execute_is_deterministic {x : Ext} {th : THeap} {t : Nat} {h : Heap} {data : Option Nat} {n m : Nat} {r r' : Heap × Str}
    (e : execute x th n t h data = .ok r) (e' : execute x th m t h data = .ok r') : r = r' := by
  rcases Nat.le_total n m with hn | hn
  · rcases C55_bound_is_irrelevant (x := x) (th := th) (t := t) (h := h) (data := data) hn with q | q
    · rw [e] at q; cases q
    · rw [e, e'] at q; cases q; rfl
  · rcases C55_bound_is_irrelevant (x := x) (th := th) (t := t) (h := h) (data := data) hn with q | q
    · rw [e'] at q; cases q
    · rw [e, e'] at q; cases q; rfl

/-! ## C56 -/

/-- **C56** Two templates that differ only in boxes (at any depth) whose names no element uses render the same. `used` is any set of names
that has all the names the remaining elements use (`Names` says which these are); `prune` drops the boxes with no name in the set, so
one of the templates may have such boxes and the other not, or others with any text. -/
theorem C56_unused_boxes_do_not_matter {used : Str → Bool} {d d' : Doc} (hs : d.prune used = d'.prune used) (hn : (d.prune used).All (NamesOnly used))
    {s s' : Str} (hm : Means s d) (hm' : Means s' d') {th th1 th' th1' : THeap} {t t' : Nat} (e : newFromString th s = (th1, some t))
    (e' : newFromString th' s' = (th1', some t')) {x : Ext} {h h' : Heap} {data : Option Nat} (hp : Proper h data) {out : Str} :
    (∃ n, execute x th1 n t h data = .ok (h', out)) ↔ ∃ n, execute x th1' n t' h data = .ok (h', out) := by
  rw [execute_iff (new_in_scope hm e) hp, execute_iff (new_in_scope hm' e') hp]
  exact ⟨executes_prune hs hn, executes_prune hs.symm (hs ▸ hn)⟩

/-- The page with a box more that is not used: the used names are all that start with one of the four names of the page's elements. -/
example : ∃ (used : Str → Bool) (s' : Str) (d' : Doc), Means s' d' ∧ d' ≠ pageDoc ∧ pageDoc.prune used = d'.prune used ∧ (pageDoc.prune used).All (NamesOnly used) := by
  let used : Str → Bool := fun v => b!"row".isPrefixOf v || b!"who".isPrefixOf v || b!"foot".isPrefixOf v
  have hkeep : pageDoc.prune used = pageDoc := by decide +kernel
  refine ⟨used, pageText ++ b!"[[zzz]]{{title}}[[]]", ?_⟩
  obtain ⟨l, h, e⟩ := lex_reads (pageText ++ b!"[[zzz]]{{title}}[[]]")
  have he : l.map Prod.snd = pageDoc.tokens ++ [⟨.start, b!"zzz"⟩, ⟨.variable, b!"title"⟩, ⟨.stop, []⟩] := by rw [← e]; decide +kernel
  refine ⟨.elem ⟨.string, b!"<h1>"⟩ <| .elem ⟨.variable, b!"title"⟩ <| .elem ⟨.string, b!"</h1>"⟩ <| .elem ⟨.language, b!"hi"⟩ <| .elem ⟨.string, b!"\n"⟩ <|
    .elem ⟨.range, b!"rows:row"⟩ <| .elem ⟨.condition, b!"user:who"⟩ <| .elem ⟨.reference, b!"foot"⟩ <|
    .box b!"row" (.elem ⟨.string, b!"<"⟩ <| .elem ⟨.variable, b!".counter"⟩ <| .elem ⟨.string, b!":"⟩ <| .elem ⟨.variable, b!"n"⟩ <| .elem ⟨.string, b!">"⟩ .nil) <|
    .box b!"row.last" (.elem ⟨.string, b!"<last "⟩ <| .elem ⟨.variable, b!"n"⟩ <| .elem ⟨.string, b!">"⟩ .nil) <|
    .box b!"who" (.elem ⟨.variable, b!"name"⟩ .nil) <|
    .box b!"foot" (.elem ⟨.string, b!"end "⟩ <| .elem ⟨.variable, b!"title"⟩ .nil) <| .box b!"zzz" (.elem ⟨.variable, b!"title"⟩ .nil) .nil,
    ⟨by simp [Doc.Plain], l, h, by rw [he]; decide +kernel⟩, by decide +kernel, by decide +kernel, ?_⟩
  rw [hkeep]
  have none : ∀ k d, k ≠ Kind.reference → k ≠ .range → k ≠ .condition → NamesOnly used ⟨k, d⟩ := by
    intro k d h1 h2 h3 v hv
    cases hv <;> simp at h1 h2 h3
  have hrow : ∀ v, b!"row" <+: v → used v = true := fun v hv => by simp [used, List.isPrefixOf_iff_prefix.2 hv]
  have hwho : ∀ v, b!"who" <+: v → used v = true := fun v hv => by simp [used, List.isPrefixOf_iff_prefix.2 hv]
  have tgt : ∀ d key id key' id', Target d key id → Target d key' id' → id' = id := by
    intro d key id key' id' h h'
    exact (target_unique h h').2 ▸ rfl
  have t1 : Target b!"rows:row" b!"rows" b!"row" := Or.inr ⟨[], by decide⟩
  have t2 : Target b!"user:who" b!"user" b!"who" := Or.inr ⟨[], by decide⟩
  have p1 : parts b!"foot" = [b!"foot"] := by decide
  have range : NamesOnly used ⟨.range, b!"rows:row"⟩ := by
    intro v hv
    cases hv with
    | range h => rw [tgt _ _ _ _ _ t1 h]; exact hrow _ (List.prefix_refl _)
    | rangeNone h => rw [tgt _ _ _ _ _ t1 h]; exact hrow _ (List.prefix_append _ _)
    | rangeItem h hm =>
      rw [tgt _ _ _ _ _ t1 h] at hm
      refine hrow _ ?_
      simp only [rangeNames, List.mem_append, List.mem_cons, List.not_mem_nil, or_false] at hm
      rcases hm with (((hm | hm) | hm) | hm) | hm
      · rw [hm, List.append_assoc]; exact List.prefix_append _ _
      all_goals
        first
        | (split at hm <;> simp at hm; rw [hm]; exact ⟨_, rfl⟩)
        | (rw [hm]; exact List.prefix_refl _)
  have condition : NamesOnly used ⟨.condition, b!"user:who"⟩ := by
    intro v hv
    cases hv with
    | condition h => rw [tgt _ _ _ _ _ t2 h]; exact hwho _ (List.prefix_refl _)
    | conditionValue h _ => rw [tgt _ _ _ _ _ t2 h, List.append_assoc]; exact hwho _ (List.prefix_append _ _)
  have reference : NamesOnly used ⟨.reference, b!"foot"⟩ := by
    intro v hv
    cases hv with
    | reference h _ => rw [p1] at h; cases h; decide
    | referenceValue h => rw [p1] at h; cases h
  simp only [pageDoc, Doc.All, and_true]
  refine ⟨none _ _ (by simp) (by simp) (by simp), none _ _ (by simp) (by simp) (by simp), none _ _ (by simp) (by simp) (by simp), none _ _ (by simp) (by simp) (by simp),
    none _ _ (by simp) (by simp) (by simp), range, condition, reference, ?_⟩
  repeat' apply And.intro
  all_goals exact none _ _ (by simp) (by simp) (by simp)

/-! ## C59 -/

/-- **C59 is false**: the counters of the first rendering are data for the second. -/
theorem C59_second_rendering_differs : ∃ h h', (newFromString [] b!"{{rows>0>.counter}}@@rows:r@@[[r]][[]]").2 = some 0 ∧
    execute pageExt (newFromString [] b!"{{rows>0>.counter}}@@rows:r@@[[r]][[]]").1 2 0 h (some 0) = .ok (h', []) ∧
    execute pageExt (newFromString [] b!"{{rows>0>.counter}}@@rows:r@@[[r]][[]]").1 2 0 h' (some 0) = .ok (h', b!"1") :=
  ⟨[.ds [(b!"rows", .ptr 1)], .col [some 2], .ds []], [.ds [(b!"rows", .ptr 1)], .col [some 2], .ds [(b!".counter", .int .int 1)]],
    by decide +kernel, by decide +kernel, by decide +kernel⟩

/-- **C59** A template without loops gives the same text again. Missing: templates with loops may not, because of the counters. -/
theorem C59_rendering_again_partial {x : Ext} {th : THeap} {t : Nat} {d : Doc} (hi : InScope th t [d]) (hl : d.All fun p => p.kind ≠ .range)
    {h h' : Heap} {data : Option Nat} (hp : Proper h data) {n : Nat} {out : Str} (e : execute x th n t h data = .ok (h', out)) :
    execute x th n t h' data = .ok (h', out) := by
  have := C50_without_loops_nothing_changes hi hl hp e
  subst this
  exact e

/-- **C59** Executing with nil again gives the same text again. -/
theorem C59_rendering_nil_again {x : Ext} {th : THeap} {t : Nat} {d : Doc} (hi : InScope th t [d]) {h h' : Heap} (hp : Proper h none) {n : Nat} {out : Str}
    (e : execute x th n t h none = .ok (h', out)) : execute x th n t h' none = .ok (h', out) := by
  have q := (execute_iff hi hp).1 ⟨n, e⟩
  cases q with
  | nil r =>
    have := renders_nil r rfl
    subst this
    exact e

/-- **C59** A template with loops gives the same text as often as it is executed if no element it comes to reads counters that earlier loops have
left (`Steady`: no dumps, no `.counter` but `{{.counter}}` directly in a row, no printed dataset or collection). Missing: other templates
(false, see above). -/
theorem C59_rendering_with_loops_again_partial {x : Ext} {th : THeap} {t : Nat} {d : Doc} (hi : InScope th t [d]) {h h' h'' : Heap} {a : Nat}
    (hp : Proper h (some a)) (hst : Steady x d h a) {n : Nat} {out : Str} (e : execute x th n t h (some a) = .ok (h', out)) {outs : List Str}
    (r : Repeats x th t a h' outs h'') : (∀ o ∈ outs, o = out) ∧ ∃ m k, execute x th m t h'' (some a) = .ok (k, out) := by
  have q := (execute_iff hi hp).1 ⟨n, e⟩
  obtain ⟨s, p'⟩ := executes_proper hp q
  clear e
  replace q : ∃ g, Executes x d (some a) h g out := ⟨h', q⟩
  obtain ⟨g, q⟩ := q
  induction r with
  | stop =>
    obtain ⟨k', q1, _, _⟩ := executes_again hp hst s p' q
    obtain ⟨m, e⟩ := (execute_iff hi p').2 q1
    exact ⟨by simp, m, k', e⟩
  | @again h1 h2 h3 o os e r ih =>
    obtain ⟨k', q1, q2, q3⟩ := executes_again hp hst s p' q
    obtain ⟨m, e1⟩ := (execute_iff hi p').2 q1
    obtain ⟨m', e2⟩ := e
    have := C55_execute_is_deterministic e1 e2
    cases this
    obtain ⟨i1, i2⟩ := ih (s.trans q2) q3
    refine ⟨fun o' ho => ?_, i2⟩
    rcases List.mem_cons.1 ho with rfl | ho
    · rfl
    · exact i1 o' ho

/-- **C59** What the counters are before the rendering does not matter: memory that differs in nothing else gives the same text. -/
theorem C59_old_counters_do_not_matter_partial {x : Ext} {th : THeap} {t : Nat} {d : Doc} (hi : InScope th t [d]) {h h' k : Heap} {a : Nat}
    (hp : Proper h (some a)) (hst : Steady x d h a) (hs : SameButCounters h k) (hk : Proper k (some a)) {n : Nat} {out : Str}
    (e : execute x th n t h (some a) = .ok (h', out)) : ∃ m k', execute x th m t k (some a) = .ok (k', out) := by
  obtain ⟨k', q1, _, _⟩ := executes_again hp hst hs hk ((execute_iff hi hp).1 ⟨n, e⟩)
  obtain ⟨m, e⟩ := (execute_iff hi hk).2 q1
  exact ⟨m, k', e⟩

/-- The page of the examples, which has a loop with `{{.counter}}` in its rows, meets the hypotheses. -/
example : Steady pageExt pageDoc page 0 ∧ ∃ h', (execute pageExt (newFromString [] pageText).1 3 0 page (some 0)) =
    .ok (h', b!"<h1>{{user}}</h1>Hola\n<1:one><last two>Annend {{user}}") ∧ h' ≠ page ∧
    Repeats pageExt (newFromString [] pageText).1 0 0 h' [b!"<h1>{{user}}</h1>Hola\n<1:one><last two>Annend {{user}}"] h' := by
  refine ⟨page_steady, page.set 2 (.ds [(b!"n", .str b!"one"), (b!".counter", .int .int 1)]) |>.set 5 (.ds [(b!"n", .str b!"two"), (b!".counter", .int .int 2)]),
    by decide +kernel, by decide +kernel, .again ⟨3, by decide +kernel⟩ .stop⟩

end Xcore.Template
