import Verif.Proof.TemplateBreaks
import Verif.Proof.TemplateElem
import Verif.Proof.TemplateGraph
import Verif.Proof.TemplatePage
import Verif.Proof.TemplateUnloaded

/-!
# Properties C79, C80: templates without compiled text, data with nil elements
-/

namespace Xcore.Template

open Xcore.Dataset

/-! ## C79 -/

/-- **C79** A template that was never loaded, or whose loads all failed, renders the text "Error, no template.Root compiled", with all data and with nil,
and changes nothing; whatever sub-templates it has, whatever is done with other templates, and the same holds of its clones. -/
theorem C79_unloaded_template_says_so {x : Ext} {th : THeap} {t : Nat} (u : Unloaded th t) {h : Heap} {data : Option Nat} (hp : Proper h data)
    {n : Nat} (hn : 0 < n) : execute x th n t h data = .ok (h, b!"Error, no template.Root compiled") := by
  obtain ⟨o, ho, hr⟩ := unloaded_root u
  obtain ⟨m, rfl⟩ : ∃ m, n = m + 1 := ⟨n - 1, by omega⟩
  have hinj : ∀ la st, injector x th la (m + 1) t st = .ok (st, b!"Error, no template.Root compiled") := fun la st => by simp only [injector, ho, hr]
  cases data with
  | none => simp only [execute, hinj, Res.bind_ok]
  | some a =>
    obtain ⟨l, el, _⟩ := langOf_iff (hp.data a rfl) hp.wf hp.wrapped
    simp only [execute, el, hinj, Res.bind_ok]

/-- A template whose load failed after a box was added, cloned, and executed with the sample page. -/
example : ∃ th c, Unloaded th c ∧ Proper page (some 0) ∧ (th[c]?.bind Tpl.subs).isSome = true := by
  have h0 : Unloaded (newTpl []).1 0 := .new rfl
  have h1 : Unloaded (loadString (newTpl []).1 0 b!"[[a]]x[[]][[b]]").1 0 := .failed h0 (s := b!"[[a]]x[[]][[b]]") (Prod.ext rfl (by decide +kernel))
  have h2 := Unloaded.added (u := 0) (v := 1) (name := b!"z") h1
  cases e : clone 4 (addTemplate (loadString (newTpl []).1 0 b!"[[a]]x[[]][[b]]").1 0 b!"z" 1) 0 with
  | ok r =>
    refine ⟨r.1, r.2, .cloned h2 e, page_proper, ?_⟩
    have : (clone 4 (addTemplate (loadString (newTpl []).1 0 b!"[[a]]x[[]][[b]]").1 0 b!"z" 1) 0).map (fun r => (r.1[r.2]?.bind Tpl.subs).isSome) = .ok true := by
      decide +kernel
    rw [e] at this
    cases hq : (r.1[r.2]?.bind Tpl.subs).isSome with
    | true => rfl
    | false => simp [Res.map, hq] at this
  | panic =>
    have : (clone 4 (addTemplate (loadString (newTpl []).1 0 b!"[[a]]x[[]][[b]]").1 0 b!"z" 1) 0).map (fun _ => ()) = .ok () := by decide +kernel
    rw [e] at this; cases this
  | diverge =>
    have : (clone 4 (addTemplate (loadString (newTpl []).1 0 b!"[[a]]x[[]][[b]]").1 0 b!"z" 1) 0).map (fun _ => ()) = .ok () := by decide +kernel
    rw [e] at this; cases this

/-- **C79** After a load that succeeds it is rendered: the error text is gone. -/
example : ∃ th, (loadString (newTpl []).1 0 b!"hello") = (th, false) ∧ ∀ x h, execute x th 1 0 h none = .ok (h, b!"hello") := ⟨_, rfl, fun _ _ => rfl⟩

/-! ## C80 -/

/-- **C80** `Execute` panics exactly where the specification says (`ExecuteBreaks`): when a loop comes to a nil element of its collection, or, if it is
called with nil, when a reference needs data. -/
theorem C80_panics_exactly {x : Ext} {th th' : THeap} {s : Str} {t : Nat} {d : Doc} (hm : Means s d) (e : newFromString th s = (th', some t))
    {h : Heap} {data : Option Nat} (hp : Proper h data) : (∃ n, execute x th' n t h data = .panic) ↔ ExecuteBreaks x d data h :=
  execute_panic_iff (new_in_scope hm e) hp

/-- **C80** The outcome does not depend on the bound: a rendering does not both return a text and panic. -/
theorem C80_text_or_panic {x : Ext} {th th' : THeap} {s : Str} {t : Nat} {d : Doc} (hm : Means s d) (e : newFromString th s = (th', some t))
    {h : Heap} {data : Option Nat} (hp : Proper h data) : ¬ ((∃ n r, execute x th' n t h data = .ok r) ∧ ∃ n, execute x th' n t h data = .panic) := by
  have hi := new_in_scope hm e
  rintro ⟨⟨n, r, q⟩, q'⟩
  exact execute_not_both hi hp ((execute_iff hi hp).1 ⟨n, q⟩) ((execute_panic_iff hi hp).1 q')

/-- **C80** With data, only a nil element in some collection can make `Execute` panic. -/
theorem C80_panic_needs_nil_element {x : Ext} {th th' : THeap} {s : Str} {t : Nat} {d : Doc} (hm : Means s d) (e : newFromString th s = (th', some t))
    {h : Heap} {a : Nat} (hp : Proper h (some a)) {n : Nat} (q : execute x th' n t h (some a) = .panic) : ∃ c l, IsCollection h c l ∧ none ∈ l := by
  apply Classical.byContradiction
  intro hno
  exact execute_safe (new_in_scope hm e) hp (fun _ c l hc hn => hno ⟨c, l, hc, hn⟩) (fun e => by cases e) n q

/-- **C80** A loop with a visible sub-template over a collection with a nil element gives no text, wherever the nil element is. -/
theorem C80_loop_over_nil_element_gives_no_text {x : Ext} {th : THeap} {t : Nat} {la : Option Nat} {lang : Option Language.Lang} {l : List Nat}
    {h : Heap} (hu : Usable th t) (hd : Ready h (some l)) (hl : LangIs h la lang) {d key id : Str} (ht : Target d key id) {c : Nat}
    (hc : getTemplate th t id = .ok (some c)) {b : Nat} {q : List (Option Nat)} (hv : ValueAt h (some l) key (.ptr b)) (hq : IsCollection h b q)
    (hn : none ∈ q) (h' : Heap) (s : Str) : ¬ ElemYields x th la t ⟨.range, d⟩ (some l) h h' s := by
  rw [elemYields_iff hu.view hd hl]
  have hvis : seen th t id ≠ none := get_some hu.view hc
  intro r
  cases r with
  | rangeNothing ht' hno =>
    obtain ⟨rfl, rfl⟩ := target_unique ht ht'
    rcases hno with hno | hno
    · exact hvis hno
    · cases hno
  | rangeEmpty ht' _ hv' he =>
    obtain ⟨rfl, rfl⟩ := target_unique ht ht'
    rw [he _ _ (valueAt_unique hd hv' hv) hq] at hn
    cases hn
  | range ht' _ hv' hc' _ r =>
    obtain ⟨rfl, rfl⟩ := target_unique ht ht'
    cases valueAt_unique hd hv hv'
    have : q = _ := isCollection_elems hq hc'
    subst this
    exact renders_loop_elements r _ _ _ _ rfl hn
  | unknown hf => exact hf.elim

/-- **C80** A path that goes to or through a nil element has no value; it does not panic. -/
theorem C80_path_through_nil_element {h : Heap} (wf : WF h) (wr : Wrapped h) {a c : Addr} {k i : Str} {rest : List Str} {l : List (Option Addr)} {j : Nat}
    (hk : Entry h a k (.ptr c)) (hc : IsCollection h c l) (hi : atoi i = some (j : Int)) (hl : l[j]? = some none) {key : Str}
    (hs : split 62 key = k :: i :: rest) : Dataset.get h a key = .ok none := by
  obtain ⟨t, m, w, hm, hg⟩ := hk
  obtain ⟨r, hr⟩ := getSegs_no_panic wf wr (wraps_isDataset w) (split 62 key)
  cases r with
  | none => exact hr
  | some v =>
    have hu : ∀ v', Entry h a k v' → v' = .ptr c := by
      intro v' he
      have h1 := (entry_iff w).1 he
      have h2 := (entry_iff (k := k) (v := .ptr c) w).1 ⟨t, m, w, hm, hg⟩
      rw [h1] at h2; cases h2; rfl
    have q := getSegs_leads hr
    rw [hs] at q
    cases q with
    | dataset he hd => cases hu _ he; exact absurd hc (isDataset_not_collection hd)
    | element he hc' hi' hl' =>
      cases hu _ he
      rw [hi] at hi'; cases hi'
      rw [isCollection_elems hc' hc, hl] at hl'; cases hl'
    | through he hc' hi' hl' =>
      cases hu _ he
      rw [hi] at hi'; cases hi'
      rw [isCollection_elems hc' hc, hl] at hl'; cases hl'
    | literal he hp => cases hu _ he; exact absurd hc ((hp _ rfl).2 _)

/-- Data with a nil element: paths to it and through it have no value, and a template that does not loop over it is rendered; -/
example : Proper gap (some 0) ∧ Dataset.get gap 0 b!"rows>1" = .ok none ∧ Dataset.get gap 0 b!"rows>1>k" = .ok none ∧
    execute pageExt (newFromString [] b!"a{{rows>0>k}}b{{rows>1>k}}c").1 1 0 gap (some 0) = .ok (gap, b!"avbc") :=
  ⟨gap_proper, by decide +kernel, by decide +kernel, by decide +kernel⟩

/-- one that loops over it panics. -/
theorem C80_loop_panics : Proper gap (some 0) ∧ (newFromString [] b!"@@rows:r@@[[r]]{{k}}[[]]").2 = some 0 ∧
    execute pageExt (newFromString [] b!"@@rows:r@@[[r]]{{k}}[[]]").1 2 0 gap (some 0) = .panic :=
  ⟨gap_proper, by decide +kernel, by decide +kernel⟩

end Xcore.Template
