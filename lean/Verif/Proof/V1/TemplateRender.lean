import Verif.Proof.V1.TemplateBuild
import Verif.Spec.V1.TemplateGraph
import Verif.Proof.V1.Dataset
import Verif.Proof.TemplateExec
import Verif.Proof.DatasetBound

/-!
# Rendering of version 1 meets its specification

`Meets`: one result of the renderer against all that the specification allows. It is proved once for every element, with an abstract
renderer of the boxes, and then for documents by induction on the bound.
-/

namespace Xcore.V1.Template

open Xcore.Template (Kind Param Doc parts Target rangeNames Foreign twoNames twoNames_target)
open Xcore.Dataset (Ext Val ofFuel Prints GoPrints)
open Xcore.V1.Dataset

/-- The result `res` on the stack `s` is the only one the specification `R` allows. -/
def Meets (s : Stack) (res : Res (Stack × Str)) (R : Out → Prop) : Prop :=
  match res with
  | .ok (s', t) => s' = s ∧ ∀ r, R r ↔ r = .text t
  | .panic => ∀ r, R r ↔ r = .panic
  | .diverge => ∀ r, ¬ R r

theorem Meets.congr {s : Stack} {res : Res (Stack × Str)} {R R' : Out → Prop} (m : Meets s res R) (h : ∀ r, R' r ↔ R r) : Meets s res R' := by
  cases res with
  | ok p => obtain ⟨s', t⟩ := p; exact ⟨m.1, fun r => (h r).trans (m.2 r)⟩
  | panic => exact fun r => (h r).trans (m r)
  | diverge => exact fun r hr => m r ((h r).1 hr)

theorem meets_text {s : Stack} {t : Str} {R : Out → Prop} (h : ∀ r, R r ↔ r = .text t) : Meets s (.ok (s, t)) R := ⟨rfl, h⟩

/-! ## Data -/

/-- The datasets on the stack. -/
def Sound (h : Heap) (σ : Option (List (Option Nat))) : Prop := ∀ l, σ = some l → ∀ a, some a ∈ l → IsDataset h a

/-- The stack of `injector` for datasets innermost first. -/
def stackOf (σ : Option (List (Option Nat))) : Stack := σ.map List.reverse

theorem get_leads {h : Heap} (wf : WF h) {a : Nat} (hd : IsDataset h a) (key : Str) (v : Val) :
    Dataset.get h a key = some v ↔ Leads h a (split 62 key) v := by
  have g := get_up wf hd key
  rw [← leads_up]
  constructor
  · intro e; rw [e] at g; exact Xcore.Dataset.getSegs_leads g
  · intro l
    have := Xcore.Dataset.leads_getSegs (wf_up.2 wf) l
    have g' : Xcore.Dataset.getSegs (up h) a (split 62 key) = .ok (Dataset.get h a key) := g
    rw [g'] at this
    simpa using this

/-- A lookup has one result. -/
theorem found_unique {h : Heap} (wf : WF h) {σ : List (Option Nat)} (hs : ∀ a, some a ∈ σ → IsDataset h a) (key : Str) :
    match getDataL h key σ with
    | .ok none => ∀ f, FoundAt h σ key f ↔ f = .absent
    | .ok (some v) => ∀ f, FoundAt h σ key f ↔ f = .value v
    | .panic => ∀ f, FoundAt h σ key f ↔ f = .broken
    | .diverge => False := by
  induction σ with
  | nil =>
    simp only [getDataL]
    exact fun f => ⟨fun q => by cases q; rfl, fun e => by rw [e]; exact .missing⟩
  | cons d σ ih =>
    cases d with
    | none =>
      simp only [getDataL]
      exact fun f => ⟨fun q => by cases q; rfl, fun e => by rw [e]; exact .nil⟩
    | some a =>
      have ih := ih fun b hb => hs b (by simp [hb])
      simp only [getDataL]
      cases e : Dataset.get h a key with
      | some v =>
        simp only
        intro f
        constructor
        · intro q
          cases q with
          | here hl => rw [← get_leads wf (hs a (by simp)), e] at hl; cases hl; rfl
          | outer hn _ => exact absurd ((get_leads wf (hs a (by simp)) key v).1 e) (hn v)
        · rintro rfl
          exact .here ((get_leads wf (hs a (by simp)) key v).1 e)
      | none =>
        have hn : ∀ w, ¬ Leads h a (split 62 key) w := fun w hw => by
          rw [← get_leads wf (hs a (by simp)), e] at hw; cases hw
        have step : ∀ f, FoundAt h (some a :: σ) key f ↔ FoundAt h σ key f := fun f =>
          ⟨fun q => by
            cases q with
            | here hl => exact absurd hl (hn _)
            | outer _ q => exact q, .outer hn⟩
        simp only [step]
        exact ih

theorem stack_found {h : Heap} (wf : WF h) {σ : List (Option Nat)} (hs : Sound h (some σ)) (key : Str) :
    match stackGet h σ.reverse key with
    | .ok none => ∀ f, FoundAt h σ key f ↔ f = .absent
    | .ok (some v) => ∀ f, FoundAt h σ key f ↔ f = .value v
    | .panic => ∀ f, FoundAt h σ key f ↔ f = .broken
    | .diverge => False := by
  simp only [stackGet, List.reverse_reverse]
  exact found_unique wf (hs σ rfl) key

/-- Printing within the bound. -/
theorem shows_iff {x : Ext} {h : Heap} (wf : WF h) {v : Val} (hv : v ≠ .nil) {s : Str} : Shows x h v s ↔ sprint x (printBound h) h v = some s := by
  have hw := wf_up.2 wf
  rw [← sprint_up]
  constructor
  · rintro (⟨e, _⟩ | ⟨_, n, hp⟩)
    · exact absurd e hv
    · have := Xcore.Dataset.sprint_bound hw ((Xcore.Dataset.prints_iff ..).1 hp)
      rw [up_length] at this
      exact this
  · intro e
    exact Or.inr ⟨hv, _, (Xcore.Dataset.prints_iff ..).2 e⟩

theorem shows_nil {x : Ext} {h : Heap} {s : Str} : Shows x h .nil s ↔ s = [] := by simp [Shows]

theorem goPrints_bound {x : Ext} {h : Heap} (wf : WF h) {v : Val} {s : Str} : (∃ n, GoPrints x n (up h) v s) ↔ goSprint x (printBound h) h v = some s := by
  have hw := wf_up.2 wf
  rw [← goSprint_up]
  constructor
  · rintro ⟨n, hp⟩
    have := Xcore.Dataset.goSprint_bound hw ((Xcore.Dataset.goPrints_iff ..).1 hp)
    rw [up_length] at this
    exact this
  · intro e
    exact ⟨_, (Xcore.Dataset.goPrints_iff ..).2 e⟩

/-- The text of a lookup. -/
theorem stack_text {x : Ext} {h : Heap} (wf : WF h) {σ : List (Option Nat)} (hs : Sound h (some σ)) (key : Str) :
    match stackString x h σ.reverse key with
    | .ok s => ∃ f, (∀ f', FoundAt h σ key f' ↔ f' = f) ∧ f ≠ .broken ∧ ∀ r, TextOf x h f r ↔ r = .text s
    | .panic => ∀ f, FoundAt h σ key f ↔ f = .broken
    | .diverge => ∃ f, (∀ f', FoundAt h σ key f' ↔ f' = f) ∧ f ≠ .broken ∧ ∀ r, ¬ TextOf x h f r := by
  have hf := stack_found wf hs key
  unfold stackString
  generalize stackGet h σ.reverse key = res at hf ⊢
  cases res with
  | panic => exact hf
  | diverge => exact hf.elim
  | ok o =>
    simp only [Res.bind_ok]
    cases o with
    | none => exact ⟨_, hf, by simp, fun r => ⟨fun t => by cases t; rfl, fun e => by rw [e]; exact .absent⟩⟩
    | some v =>
      by_cases hv : v = .nil
      · subst hv
        refine ⟨_, hf, by simp, fun r => ⟨fun t => ?_, fun e => by rw [e]; exact .value (shows_nil.2 rfl)⟩⟩
        cases t with
        | value t => rw [shows_nil.1 t]
      · have main : match ofFuel (sprint x (printBound h) h v) with
            | .ok s => ∃ f, (∀ f', FoundAt h σ key f' ↔ f' = f) ∧ f ≠ .broken ∧ ∀ r, TextOf x h f r ↔ r = .text s
            | .panic => ∀ f, FoundAt h σ key f ↔ f = .broken
            | .diverge => ∃ f, (∀ f', FoundAt h σ key f' ↔ f' = f) ∧ f ≠ .broken ∧ ∀ r, ¬ TextOf x h f r := by
          cases ep : sprint x (printBound h) h v with
          | some s =>
            refine ⟨_, hf, by simp, fun r => ⟨fun t => ?_, fun e => by rw [e]; exact .value ((shows_iff wf hv).2 ep)⟩⟩
            cases t with
            | value t => rw [shows_iff wf hv, ep] at t; cases t; rfl
          | none =>
            refine ⟨_, hf, by simp, fun r t => ?_⟩
            cases t with
            | value t => rw [shows_iff wf hv, ep] at t; cases t
        cases v <;> first | exact absurd rfl hv | exact main

theorem asDataset_val {h : Heap} {v : Val} : (∃ a, asDataset h v = some a) ↔ ValIsDataset h v := by
  constructor
  · rintro ⟨a, e⟩
    exact ⟨a, asDataset_isDataset e⟩
  · rintro ⟨a, rfl, m, e⟩
    exact ⟨a, by simp [asDataset, e]⟩

theorem asDataset_none {h : Heap} {v : Val} (e : asDataset h v = none) : ¬ ValIsDataset h v := fun hd => by
  obtain ⟨a, ha⟩ := asDataset_val.2 hd
  rw [e] at ha; cases ha

theorem asCollection_none {h : Heap} {v : Val} (e : asCollection h v = none) : ¬ ValIsCollection h v := by
  rintro ⟨c, l, rfl, hc⟩
  have := asCollection_iff.2 ⟨rfl, l, hc⟩
  rw [e] at this; cases this

theorem target_unique {d key id key' id' : Str} (h : Target d key id) (h' : Target d key' id') : key' = key ∧ id' = id := by
  unfold Target at h h'
  rcases h with ⟨e, rfl⟩ | ⟨r, e⟩ <;> rcases h' with ⟨e', rfl⟩ | ⟨r', e'⟩ <;> rw [e] at e' <;> simp at e' <;> simp [e']

/-! ## Boxes -/

set_option linter.unusedSectionVars false

section
variable {x : Ext} {th : THeap} {h : Heap} {lang : Option Language.Lang} {rec : Render} {t : Nat} {D : Type} {own : D → Option (List Param)}
  {look : D → Str → Option D} {d : D}

/-- The renderer handles every box of the document, on all stacks. -/
def Good (own : D → Option (List Param)) (look : D → Str → Option D) (x : Ext) (th : THeap) (h : Heap) (lang : Option Language.Lang) (rec : Render) (t : Nat) (d : D) : Prop :=
  ∀ v b, (look d) v = some b → ∃ c, getTemplate th t v = some c ∧
    ∀ σ, Sound h σ → Meets (stackOf σ) (rec c (stackOf σ)) (RendersIn own look x lang h b .document σ)

variable (hn : ∀ v, (look d) v = none → getTemplate th t v = none) (hg : Good own look x th h lang rec t d)
include hn hg

theorem template_some {v : Str} {c : Nat} (e : getTemplate th t v = some c) : ∃ b, (look d) v = some b := by
  cases hf : (look d) v with
  | none => rw [hn v hf] at e; cases e
  | some b => exact ⟨b, rfl⟩

theorem template_ne {v : Str} {c : Nat} (e : getTemplate th t v = some c) : (look d) v ≠ none := by
  obtain ⟨b, e⟩ := template_some hn hg e
  rw [e]; simp

theorem template_none {v : Str} (e : getTemplate th t v = none) : (look d) v = none := by
  cases hf : (look d) v with
  | none => rfl
  | some b => obtain ⟨c, q, _⟩ := hg v b hf; rw [e] at q; cases q

/-- The first of the names. -/
theorem choose_meets {σ : Option (List (Option Nat))} (hs : Sound h σ) (names : List Str) :
    Meets (stackOf σ) (renderOpt rec (names.findSome? (getTemplate th t)) (stackOf σ)) (RendersIn own look x lang h d (.choose names) σ) := by
  cases e : names.findSome? (look d) with
  | none =>
    have : names.findSome? (getTemplate th t) = none := by
      rw [List.findSome?_eq_none_iff] at e ⊢
      exact fun v hv => hn v (e v hv)
    rw [this]
    refine meets_text fun r => ⟨fun q => ?_, fun q => by rw [q]; exact .noChoice e⟩
    cases q with
    | chosen e' _ => rw [e] at e'; cases e'
    | noChoice _ => rfl
  | some b =>
    have : ∃ c, names.findSome? (getTemplate th t) = some c ∧
        Meets (stackOf σ) (rec c (stackOf σ)) (RendersIn own look x lang h b .document σ) := by
      induction names with
      | nil => cases e
      | cons v names ih =>
        simp only [List.findSome?_cons] at e ⊢
        cases hf : (look d) v with
        | some b' =>
          rw [hf] at e
          cases e
          obtain ⟨c, q1, q2⟩ := hg v b hf
          exact ⟨c, by rw [q1], q2 σ hs⟩
        | none =>
          rw [hf] at e
          rw [hn v hf]
          exact ih e
    obtain ⟨c, q1, q2⟩ := this
    rw [q1]
    refine q2.congr fun r => ⟨fun q => ?_, fun q => .chosen e q⟩
    cases q with
    | chosen e' q => rw [e] at e'; cases e'; exact q
    | noChoice e' => rw [e] at e'; cases e'

/-- Push, render, pop. -/
theorem with_meets {σ : List (Option Nat)} (hs : Sound h (some σ)) {a : Option Nat} (ha : ∀ b, a = some b → IsDataset h b) (names : List Str) {c : Nat}
    (hc : names.findSome? (getTemplate th t) = some c) :
    Meets (stackOf (some σ)) (renderWith rec c a (stackOf (some σ))) (RendersIn own look x lang h d (.choose names) (some (a :: σ))) := by
  have hs' : Sound h (some (a :: σ)) := by
    intro l e b hb
    cases e
    rcases List.mem_cons.1 hb with hb | hb
    · exact ha b hb.symm
    · exact hs σ rfl b hb
  have m := choose_meets hn hg hs' names
  rw [hc] at m
  simp only [renderOpt] at m
  unfold renderWith
  simp only [stackOf, Option.map_some, pushSt, Res.bind_ok, List.reverse_cons] at m ⊢
  generalize rec c (some (σ.reverse ++ [a])) = res at m
  cases res with
  | panic => exact m
  | diverge => exact m
  | ok p =>
    obtain ⟨s', t'⟩ := p
    obtain ⟨rfl, m⟩ := m
    simp only [Res.bind_ok, popSt]
    simp
    exact ⟨rfl, m⟩

/-! ## Elements -/

theorem reference_meets (wf : WF h) {σ : Option (List (Option Nat))} (hs : Sound h σ) (s : Str) :
    Meets (stackOf σ) (doReference x th h rec t s (stackOf σ)) (RendersIn own look x lang h d (.elem ⟨.reference, s⟩) σ) := by
  have hne := split_ne_nil 58 s
  unfold doReference
  -- any other number of parts
  have plain : ∀ id rest, split 58 s = id :: rest → rest.length ≠ 1 → rest.length ≠ 2 →
      Meets (stackOf σ) (match getTemplate th t id with | none => .ok (stackOf σ, []) | some c => rec c (stackOf σ))
        (RendersIn own look x lang h d (.elem ⟨.reference, s⟩) σ) := by
    intro id rest e h1 h2
    have m := choose_meets hn hg hs [id]
    simp only [List.findSome?_cons, List.findSome?_nil] at m
    have e' : parts s = id :: rest := e
    have m2 : Meets (stackOf σ) (match getTemplate th t id with | none => .ok (stackOf σ, []) | some c => rec c (stackOf σ))
        (RendersIn own look x lang h d (.choose [id]) σ) := by
      cases hg' : getTemplate th t id with
      | none => rw [hg'] at m; exact m
      | some c => rw [hg'] at m; exact m
    refine m2.congr fun r => ⟨fun q => ?_, fun q => .reference e' h1 h2 q⟩
    cases q with
    | reference p _ _ q => rw [e'] at p; cases p; exact q
    | referenceNone p _ => rw [e'] at p; cases p; exact absurd rfl h1
    | referenceWith p _ _ _ _ => rw [e'] at p; cases p; exact absurd rfl h1
    | referenceWithout p _ _ _ _ _ => rw [e'] at p; cases p; exact absurd rfl h1
    | referenceBroken p _ _ => rw [e'] at p; cases p; exact absurd rfl h1
    | referenceNoData p _ => rw [e'] at p; cases p; exact absurd rfl h1
    | referenceValue p _ _ _ => rw [e'] at p; cases p; exact absurd rfl h2
    | referenceValueBroken p _ => rw [e'] at p; cases p; exact absurd rfl h2
    | referenceValueNoData p => rw [e'] at p; cases p; exact absurd rfl h2
    | unknown f => exact f.elim
  match e : split 58 s with
  | [] => exact absurd e hne
  | [id] => 
    have := plain id [] e (by simp) (by simp)
    cases hg' : getTemplate th t id with
    | none => rw [hg'] at this; simp only [List.headD_cons, hg']; exact this
    | some c => rw [hg'] at this; simp only [List.headD_cons, hg']; exact this
  | [id, key] =>
    have e' : parts s = [id, key] := e
    simp only [List.headD_cons]
    cases hf : getTemplate th t id with
    | none =>
      have hf' := template_none hn hg hf
      refine meets_text fun r => ⟨fun q => ?_, fun q => by rw [q]; exact .referenceNone e' hf'⟩
      cases q with
      | reference p h1 _ q => rw [e'] at p; cases p; exact absurd rfl h1
      | referenceNone p _ => rfl
      | referenceWith p n _ _ _ => rw [e'] at p; cases p; exact absurd hf' n
      | referenceWithout p n _ _ _ _ => rw [e'] at p; cases p; exact absurd hf' n
      | referenceBroken p n _ => rw [e'] at p; cases p; exact absurd hf' n
      | referenceNoData p n => rw [e'] at p; cases p; exact absurd hf' n
      | referenceValue p _ _ _ => rw [e'] at p; cases p
      | referenceValueBroken p _ => rw [e'] at p; cases p
      | referenceValueNoData p => rw [e'] at p; cases p
      | unknown f => exact f.elim
    | some c =>
      have hf' := template_ne hn hg hf
      have hc : [id].findSome? (getTemplate th t) = some c := by simp [hf]
      cases σ with
      | none =>
        simp only [stackOf, Option.map_none]
        refine fun r => ⟨fun q => ?_, fun q => by rw [q]; exact .referenceNoData e' hf'⟩
        cases q with
        | reference p h1 _ q => rw [e'] at p; cases p; exact absurd rfl h1
        | referenceNone p n => rw [e'] at p; cases p; exact absurd n hf'
        | referenceNoData p n => rfl
        | referenceValueNoData p => rfl
        | unknown f => exact f.elim
      | some σ =>
        simp only [stackOf, Option.map_some]
        have hk := stack_found wf hs key
        generalize stackGet h σ.reverse key = res at hk
        -- what a reference with a path can do
        have inv : ∀ r, RendersIn own look x lang h d (.elem ⟨.reference, s⟩) (some σ) r →
            (∃ a, FoundAt h σ key (.value (.ptr a)) ∧ IsDataset h a ∧ RendersIn own look x lang h d (.choose [id]) (some (some a :: σ)) r) ∨
            (∃ f, FoundAt h σ key f ∧ f ≠ .broken ∧ (∀ v, f = .value v → ¬ ValIsDataset h v) ∧ RendersIn own look x lang h d (.choose [id]) (some σ) r) ∨
            (FoundAt h σ key .broken ∧ r = .panic) := by
          intro r q
          cases q with
          | reference p h1 _ q => rw [e'] at p; cases p; exact absurd rfl h1
          | referenceNone p n => rw [e'] at p; cases p; exact absurd n hf'
          | referenceWith p _ q1 q2 q3 => rw [e'] at p; cases p; exact Or.inl ⟨_, q1, q2, q3⟩
          | referenceWithout p _ q1 q2 q3 q4 => rw [e'] at p; cases p; exact Or.inr (Or.inl ⟨_, q1, q2, q3, q4⟩)
          | referenceBroken p _ q => rw [e'] at p; cases p; exact Or.inr (Or.inr ⟨q, rfl⟩)
          | referenceValue p _ _ _ => rw [e'] at p; cases p
          | referenceValueBroken p _ => rw [e'] at p; cases p
          | unknown f => exact f.elim
        cases res with
        | diverge => exact hk.elim
        | panic =>
          refine fun r => ⟨fun q => ?_, fun q => by rw [q]; exact .referenceBroken e' hf' ((hk _).2 rfl)⟩
          rcases inv r q with ⟨a, f, _⟩ | ⟨f, f', nb, _⟩ | ⟨_, e⟩
          · have := (hk _).1 f; cases this
          · exact absurd ((hk _).1 f') nb
          · exact e
        | ok o =>
          simp only [Res.bind_ok]
          have hd : ∀ v, o = some v → ∀ f, FoundAt h σ key f ↔ f = .value v := by
            intro v hv; subst hv; exact hk
          cases hb : o.bind (asDataset h) with
          | some ds =>
            obtain ⟨v, hv, ha⟩ := Option.bind_eq_some_iff.1 hb
            have hk := hd v hv
            obtain ⟨rfl, hds⟩ := asDataset_isDataset ha
            refine (with_meets hn hg hs (a := some ds) (by rintro b ⟨rfl⟩; exact hds) [id] hc).congr fun r => ⟨fun q => ?_, fun q => ?_⟩
            · rcases inv r q with ⟨a, f, _, q⟩ | ⟨f, f', _, nd, _⟩ | ⟨f, _⟩
              · have := (hk _).1 f; cases this; exact q
              · have := (hk _).1 f'; exact absurd ⟨ds, rfl, hds⟩ (nd _ this)
              · have := (hk _).1 f; cases this
            · exact .referenceWith e' hf' ((hk _).2 rfl) hds q
          | none =>
            have hno : ∃ f, (∀ f', FoundAt h σ key f' ↔ f' = f) ∧ f ≠ .broken ∧ ∀ v, f = .value v → ¬ ValIsDataset h v := by
              cases o with
              | none => exact ⟨_, hk, by simp, by simp⟩
              | some v => exact ⟨_, hk, by simp, fun w hw => by cases hw; exact asDataset_none hb⟩
            obtain ⟨f, hk, nb, nd⟩ := hno
            have m := choose_meets hn hg hs [id]
            rw [hc] at m
            refine m.congr fun r => ⟨fun q => ?_, fun q => .referenceWithout e' hf' ((hk _).2 rfl) nb nd q⟩
            rcases inv r q with ⟨a, f', hds, _⟩ | ⟨f', _, _, _, q⟩ | ⟨f', _⟩
            · exact absurd ⟨a, rfl, hds⟩ (nd _ ((hk _).1 f').symm)
            · exact q
            · exact absurd ((hk _).1 f').symm nb
  | [any, key, pre] =>
    have e' : parts s = [any, key, pre] := e
    simp only
    cases σ with
    | none =>
      simp only [stackOf, Option.map_none]
      refine fun r => ⟨fun q => ?_, fun q => by rw [q]; exact .referenceValueNoData e'⟩
      cases q with
      | reference p _ h2 q => rw [e'] at p; cases p; exact absurd rfl h2
      | referenceNone p n => rw [e'] at p; cases p
      | referenceNoData p n => rfl
      | referenceValueNoData p => rfl
      | unknown f => exact f.elim
    | some σ =>
      simp only [stackOf, Option.map_some]
      have hk := stack_text (x := x) wf hs key
      generalize stackString x h σ.reverse key = res at hk
      have inv : ∀ r, RendersIn own look x lang h d (.elem ⟨.reference, s⟩) (some σ) r →
          (∃ f text, FoundAt h σ key f ∧ TextOf x h f (.text text) ∧ RendersIn own look x lang h d (.choose [pre ++ text, pre]) (some σ) r) ∨
          (FoundAt h σ key .broken ∧ r = .panic) := by
        intro r q
        cases q with
        | reference p _ h2 q => rw [e'] at p; cases p; exact absurd rfl h2
        | referenceNone p n => rw [e'] at p; cases p
        | referenceWith p _ q1 q2 q3 => rw [e'] at p; cases p
        | referenceWithout p _ q1 q2 q3 q4 => rw [e'] at p; cases p
        | referenceBroken p _ q => rw [e'] at p; cases p
        | referenceValue p q1 q2 q3 => rw [e'] at p; cases p; exact Or.inl ⟨_, _, q1, q2, q3⟩
        | referenceValueBroken p q => rw [e'] at p; cases p; exact Or.inr ⟨q, rfl⟩
        | unknown f => exact f.elim
      cases res with
      | panic =>
        refine fun r => ⟨fun q => ?_, fun q => by rw [q]; exact .referenceValueBroken e' ((hk _).2 rfl)⟩
        rcases inv r q with ⟨f, text, q1, q2, _⟩ | ⟨_, e⟩
        · rw [(hk _).1 q1] at q2; cases q2
        · exact e
      | diverge =>
        obtain ⟨f, q1, q2, q3⟩ := hk
        intro r q
        rcases inv r q with ⟨f', text, f1, f2, _⟩ | ⟨f1, _⟩
        · rw [(q1 _).1 f1] at f2; exact q3 _ f2
        · exact q2 ((q1 _).1 f1).symm
      | ok value =>
        obtain ⟨f, q1, q2, q3⟩ := hk
        simp only [Res.bind_ok]
        have m := choose_meets hn hg hs [pre ++ value, pre]
        have m2 : Meets (stackOf (some σ)) (match getTemplate th t (pre ++ value) with
              | some c => rec c (stackOf (some σ))
              | none => renderOpt rec (getTemplate th t pre) (stackOf (some σ))) (RendersIn own look x lang h d (.choose [pre ++ value, pre]) (some σ)) := by
          simp only [List.findSome?_cons, List.findSome?_nil] at m
          cases h1 : getTemplate th t (pre ++ value) with
          | some c => rw [h1] at m; exact m
          | none =>
            rw [h1] at m
            simp only at m ⊢
            cases h2 : getTemplate th t pre with
            | some c => rw [h2] at m; exact m
            | none => rw [h2] at m; exact m
        refine m2.congr fun r => ⟨fun q => ?_, fun q => .referenceValue e' ((q1 _).2 rfl) ((q3 _).2 rfl) q⟩
        rcases inv r q with ⟨f', text, f1, f2, q⟩ | ⟨f1, _⟩
        · rw [(q1 _).1 f1] at f2; have := (q3 _).1 f2; cases this; exact q
        · exact absurd ((q1 _).1 f1).symm q2
  | id :: a :: b :: c :: rest =>
    have := plain id (a :: b :: c :: rest) e (by simp) (by simp)
    cases hg' : getTemplate th t id with
    | none => rw [hg'] at this; simp only [List.headD_cons, hg']; exact this
    | some c => rw [hg'] at this; simp only [List.headD_cons, hg']; exact this

omit hn hg in
theorem pick_or (p q r : Prop) [Decidable p] [Decidable q] [Decidable r] (o1 o2 o3 o4 : Option Nat) (c : Nat) :
    ((((o1.or (if p then o2 else none)).or (if q then o3 else none)).or (if r then o4 else none)).or (some c)) =
      some ((let tmp := if o1 = none ∧ p then o2 else o1
        let tmp := if tmp = none ∧ q then o3 else tmp
        let tmp := if tmp = none ∧ r then o4 else tmp
        tmp).getD c) := by
  by_cases h0 : p <;> by_cases h1 : q <;> by_cases h2 : r <;> cases o1 <;> cases o2 <;> cases o3 <;> cases o4 <;> simp [h0, h1, h2]

theorem pickRange_eq {id : Str} {c : Nat} (hc : getTemplate th t id = some c) (i n : Nat) :
    (rangeNames id i n).findSome? (getTemplate th t) = some (pickRange th t id c i n) := by
  unfold rangeNames pickRange
  simp only [List.findSome?_append, List.findSome?_cons, List.findSome?_nil, hc]
  generalize getTemplate th t (id ++ b!".key." ++ itoa i) = o1
  have e1 : ∀ (p : Prop) [Decidable p] (v : Str), List.findSome? (getTemplate th t) (if p then [v] else []) = if p then getTemplate th t v else none := by
    intro p _ v
    by_cases hp : p
    · simp only [if_pos hp, List.findSome?_cons, List.findSome?_nil]
      cases getTemplate th t v <;> rfl
    · simp only [if_neg hp, List.findSome?_nil]
  simp only [e1]
  generalize getTemplate th t (id ++ b!".first") = o2
  generalize getTemplate th t (id ++ b!".last") = o3
  generalize getTemplate th t (id ++ b!".even") = o4
  have := pick_or (i = 0) (i + 1 = n) (i % 2 = 0) o1 o2 o3 o4 c
  cases o1 <;> exact this

theorem loop_meets (wf : WF h) {σ : List (Option Nat)} (hs : Sound h (some σ)) {id : Str} {c : Nat} (hc : getTemplate th t id = some c) {cl : Nat}
    {all : List (Option Nat)} (hcl : IsCollection h cl all) : ∀ (l : List (Option Nat)) (i : Nat), all.drop i = l →
    Meets (stackOf (some σ)) (rangeLoop th h rec t id c cl all.length l.length i (stackOf (some σ))) (RendersIn own look x lang h d (.loop id all.length i l) (some σ)) := by
  intro l
  induction l with
  | nil =>
    intro i _
    refine meets_text fun r => ⟨fun q => by cases q; rfl, fun q => by rw [q]; exact .loopEnd⟩
  | cons e l ih =>
    intro i hd
    have hi : all[i]? = some e := by
      have := congrArg (fun l => l[0]?) hd
      simpa [List.getElem?_drop] using this
    have hlt : i < all.length := (List.getElem?_eq_some_iff.1 hi).1
    have hcg : colGetAt h cl (i : Int) = some e := by
      have hcl' : h[cl]? = some (.col all) := hcl
      simp only [colGetAt, colGet, elems, hcl']
      rw [if_neg (by omega)]
      simpa using hi
    have he : ∀ b, e = some b → IsDataset h b := by
      rintro b rfl
      exact wf.elem cl all b hcl (List.mem_of_getElem? hi)
    have m := with_meets hn hg hs he _ (pickRange_eq hn hg hc i all.length)
    have m2 := ih (i + 1) (by rw [← List.drop_drop, hd]; rfl)
    simp only [List.length_cons, rangeLoop, hcg, Option.getD_some]
    generalize renderWith rec (pickRange th t id c i all.length) e (stackOf (some σ)) = res at m
    cases res with
    | panic =>
      refine fun r => ⟨fun q => ?_, fun q => by rw [q]; exact .loopPanic ((m _).2 rfl)⟩
      cases q with
      | loop q1 _ => have := (m _).1 q1; cases this
      | loopPanic _ => rfl
    | diverge =>
      intro r q
      cases q with
      | loop q1 _ => exact m _ q1
      | loopPanic q1 => exact m _ q1
    | ok p =>
      obtain ⟨s', s1⟩ := p
      obtain ⟨rfl, m⟩ := m
      simp only [Res.bind_ok]
      generalize rangeLoop th h rec t id c cl all.length l.length (i + 1) (stackOf (some σ)) = res2 at m2
      have inv : ∀ r, RendersIn own look x lang h d (.loop id all.length i (e :: l)) (some σ) r ↔
          ∃ r', RendersIn own look x lang h d (.loop id all.length (i + 1) l) (some σ) r' ∧ r = r'.after s1 := by
        intro r
        constructor
        · intro q
          cases q with
          | loop q1 q2 => have := (m _).1 q1; cases this; exact ⟨_, q2, rfl⟩
          | loopPanic q1 => have := (m _).1 q1; cases this
        · rintro ⟨r', q, rfl⟩
          exact .loop ((m _).2 rfl) q
      cases res2 with
      | panic =>
        refine fun r => (inv r).trans ⟨fun ⟨r', q, e⟩ => ?_, fun e => ⟨_, (m2 _).2 rfl, by rw [e]; rfl⟩⟩
        rw [e, (m2 _).1 q]; rfl
      | diverge => exact fun r q => by obtain ⟨r', q, _⟩ := (inv r).1 q; exact m2 _ q
      | ok p =>
        obtain ⟨s', s2⟩ := p
        obtain ⟨rfl, m2⟩ := m2
        refine meets_text fun r => (inv r).trans ⟨fun ⟨r', q, e⟩ => ?_, fun e => ⟨_, (m2 _).2 rfl, by rw [e]; rfl⟩⟩
        rw [e, (m2 _).1 q]; rfl

theorem range_meets (wf : WF h) {σ : Option (List (Option Nat))} (hs : Sound h σ) (s : Str) :
    Meets (stackOf σ) (doRange th h rec t s (stackOf σ)) (RendersIn own look x lang h d (.elem ⟨.range, s⟩) σ) := by
  have ht := twoNames_target s
  unfold doRange
  dsimp only
  generalize (twoNames s).1 = key at ht ⊢
  generalize (twoNames s).2 = id at ht ⊢
  cases hf : getTemplate th t id with
  | none =>
    have hf' := template_none hn hg hf
    refine meets_text fun r => ⟨fun q => ?_, fun q => by rw [q]; exact .rangeNothing ht (Or.inl hf')⟩
    cases q with
    | rangeNothing _ _ => rfl
    | rangeAbsent p n _ _ => obtain ⟨rfl, rfl⟩ := target_unique ht p; exact absurd hf' n
    | range p n _ _ _ => obtain ⟨rfl, rfl⟩ := target_unique ht p; exact absurd hf' n
    | rangeOther p n _ _ => obtain ⟨rfl, rfl⟩ := target_unique ht p; exact absurd hf' n
    | rangeBroken p n _ => obtain ⟨rfl, rfl⟩ := target_unique ht p; exact absurd hf' n
    | unknown f => exact f.elim
  | some c =>
    have hf' := template_ne hn hg hf
    cases σ with
    | none =>
      simp only [stackOf, Option.map_none]
      refine meets_text fun r => ⟨fun q => ?_, fun q => by rw [q]; exact .rangeNothing ht (Or.inr rfl)⟩
      cases q with
      | rangeNothing _ _ => rfl
      | unknown f => exact f.elim
    | some σ =>
      have hk := stack_found wf hs key
      have inv : ∀ r, RendersIn own look x lang h d (.elem ⟨.range, s⟩) (some σ) r →
          (FoundAt h σ key .absent ∧ RendersIn own look x lang h d (.choose [id ++ b!".none", id]) (some σ) r) ∨
          (∃ c l, FoundAt h σ key (.value (.ptr c)) ∧ IsCollection h c l ∧ RendersIn own look x lang h d (.loop id l.length 0 l) (some σ) r) ∨
          ((∃ v, FoundAt h σ key (.value v) ∧ ¬ ValIsCollection h v) ∧ r = .panic) ∨ (FoundAt h σ key .broken ∧ r = .panic) := by
        intro r q
        cases q with
        | rangeNothing p q =>
          obtain ⟨rfl, rfl⟩ := target_unique ht p
          rcases q with q | q
          · exact absurd q hf'
          · cases q
        | rangeAbsent p n q1 q2 => obtain ⟨rfl, rfl⟩ := target_unique ht p; exact Or.inl ⟨q1, q2⟩
        | range p n q1 q2 q3 => obtain ⟨rfl, rfl⟩ := target_unique ht p; exact Or.inr (Or.inl ⟨_, _, q1, q2, q3⟩)
        | rangeOther p n q1 q2 => obtain ⟨rfl, rfl⟩ := target_unique ht p; exact Or.inr (Or.inr (Or.inl ⟨⟨_, q1, q2⟩, rfl⟩))
        | rangeBroken p n q => obtain ⟨rfl, rfl⟩ := target_unique ht p; exact Or.inr (Or.inr (Or.inr ⟨q, rfl⟩))
        | unknown f => exact f.elim
      simp only [stackOf, Option.map_some]
      unfold stackCollection
      generalize stackGet h σ.reverse key = res at hk
      cases res with
      | diverge => exact hk.elim
      | panic =>
        refine fun r => ⟨fun q => ?_, fun q => by rw [q]; exact .rangeBroken ht hf' ((hk _).2 rfl)⟩
        rcases inv r q with ⟨f, _⟩ | ⟨_, _, f, _⟩ | ⟨_, e⟩ | ⟨_, e⟩
        · have := (hk _).1 f; cases this
        · have := (hk _).1 f; cases this
        · exact e
        · exact e
      | ok o =>
        cases o with
        | none =>
          simp only [Res.bind_ok]
          have m := choose_meets hn hg hs [id ++ b!".none", id]
          have m2 : Meets (stackOf (some σ)) (rec ((getTemplate th t (id ++ b!".none")).getD c) (stackOf (some σ)))
              (RendersIn own look x lang h d (.choose [id ++ b!".none", id]) (some σ)) := by
            simp only [List.findSome?_cons, hf] at m
            cases h1 : getTemplate th t (id ++ b!".none") with
            | some c => rw [h1] at m; exact m
            | none => rw [h1] at m; exact m
          refine m2.congr fun r => ⟨fun q => ?_, fun q => .rangeAbsent ht hf' ((hk _).2 rfl) q⟩
          rcases inv r q with ⟨_, q⟩ | ⟨_, _, f, _⟩ | ⟨⟨_, f, _⟩, e⟩ | ⟨f, e⟩
          · exact q
          · have := (hk _).1 f; cases this
          · have := (hk _).1 f; cases this
          · have := (hk _).1 f; cases this
        | some v =>
          simp only [Res.bind_ok]
          cases hv : asCollection h v with
          | none =>
            have hv' := asCollection_none hv
            refine fun r => ⟨fun q => ?_, fun q => by rw [q]; exact .rangeOther ht hf' ((hk _).2 rfl) hv'⟩
            rcases inv r q with ⟨f, _⟩ | ⟨_, _, f, hc, _⟩ | ⟨_, e⟩ | ⟨_, e⟩
            · have := (hk _).1 f; cases this
            · have := (hk _).1 f; cases this; exact absurd ⟨_, _, rfl, hc⟩ hv'
            · exact e
            · exact e
          | some cl =>
            obtain ⟨rfl, all, hcl⟩ := asCollection_iff.1 hv
            have hcount : count h cl = all.length := by
              have hcl' : h[cl]? = some (.col all) := hcl
              simp [count, elems, hcl']
            simp only [Res.bind_ok, hcount]
            refine (loop_meets hn hg wf hs hf hcl all 0 (by simp)).congr fun r => ⟨fun q => ?_, fun q => .range ht hf' ((hk _).2 rfl) hcl q⟩
            rcases inv r q with ⟨f, _⟩ | ⟨_, all', f, hc, q⟩ | ⟨⟨_, f, nc⟩, _⟩ | ⟨f, _⟩
            · have := (hk _).1 f; cases this
            · have := (hk _).1 f; cases this
              have : all = all' := by
                have h1 : h[cl]? = some (.col all) := hcl
                have h2 : h[cl]? = some (.col all') := hc
                rw [h1] at h2; cases h2; rfl
              subst this; exact q
            · have := (hk _).1 f; cases this; exact absurd ⟨_, _, rfl, hcl⟩ nc
            · have := (hk _).1 f; cases this

theorem condition_meets (wf : WF h) {σ : Option (List (Option Nat))} (hs : Sound h σ) (s : Str) :
    Meets (stackOf σ) (doCondition x th h rec t s (stackOf σ)) (RendersIn own look x lang h d (.elem ⟨.condition, s⟩) σ) := by
  have ht := twoNames_target s
  unfold doCondition
  dsimp only
  generalize (twoNames s).1 = key at ht ⊢
  generalize (twoNames s).2 = id at ht ⊢
  cases σ with
  | none =>
    simp only [stackOf, Option.map_none, Res.bind_ok, if_true]
    have : ∀ r, RendersIn own look x lang h d (.elem ⟨.condition, s⟩) none r ↔ r = .text [] := fun r =>
      ⟨fun q => by
        cases q with
        | conditionNoData => rfl
        | unknown f => exact f.elim, fun q => by rw [q]; exact .conditionNoData⟩
    cases getTemplate th t id with
    | none => exact meets_text this
    | some c => exact meets_text this
  | some σ =>
    have hk := stack_found wf hs key
    have inv : ∀ r, RendersIn own look x lang h d (.elem ⟨.condition, s⟩) (some σ) r →
        (FoundAt h σ key .broken ∧ r = .panic) ∨
        ((∃ f, FoundAt h σ key f ∧ f ≠ .broken) ∧ (look d) id = none ∧ r = .text []) ∨
        (FoundAt h σ key .absent ∧ r = .text []) ∨
        ((∃ v, FoundAt h σ key (.value v) ∧ ValIsDataset h v) ∧ r = .text []) ∨
        ((look d) id ≠ none ∧ (∃ v, FoundAt h σ key (.value v) ∧ Shows x h v []) ∧ r = .text []) ∨
        ((look d) id ≠ none ∧ ∃ v text, FoundAt h σ key (.value v) ∧ ¬ ValIsDataset h v ∧ Shows x h v text ∧ text ≠ [] ∧
          RendersIn own look x lang h d (.choose [id ++ b!"." ++ text, id]) (some σ) r) := by
      intro r q
      cases q with
      | conditionBroken p q => obtain ⟨rfl, rfl⟩ := target_unique ht p; exact Or.inl ⟨q, rfl⟩
      | conditionNothing p q1 q2 q3 => obtain ⟨rfl, rfl⟩ := target_unique ht p; exact Or.inr (Or.inl ⟨⟨_, q1, q2⟩, q3, rfl⟩)
      | conditionAbsent p q => obtain ⟨rfl, rfl⟩ := target_unique ht p; exact Or.inr (Or.inr (Or.inl ⟨q, rfl⟩))
      | conditionDataset p q1 q2 => obtain ⟨rfl, rfl⟩ := target_unique ht p; exact Or.inr (Or.inr (Or.inr (Or.inl ⟨⟨_, q1, q2⟩, rfl⟩)))
      | conditionEmpty p q1 q2 q3 =>
        obtain ⟨rfl, rfl⟩ := target_unique ht p; exact Or.inr (Or.inr (Or.inr (Or.inr (Or.inl ⟨q1, ⟨_, q2, q3⟩, rfl⟩))))
      | condition p q1 q2 q3 q4 q5 q6 =>
        obtain ⟨rfl, rfl⟩ := target_unique ht p; exact Or.inr (Or.inr (Or.inr (Or.inr (Or.inr ⟨q1, _, _, q2, q3, q4, q5, q6⟩))))
      | unknown f => exact f.elim
    have hst : stackOf (some σ) = some σ.reverse := rfl
    rw [hst]
    simp only
    generalize stackGet h σ.reverse key = res at hk
    cases res with
    | diverge => exact hk.elim
    | panic =>
      refine fun r => ⟨fun q => ?_, fun q => by rw [q]; exact .conditionBroken ht ((hk _).2 rfl)⟩
      rcases inv r q with ⟨_, e⟩ | ⟨⟨f, f1, f2⟩, _⟩ | ⟨f1, _⟩ | ⟨⟨v, f1, _⟩, _⟩ | ⟨_, ⟨v, f1, _⟩, _⟩ | ⟨_, v, text, f1, _⟩
      · exact e
      · exact absurd ((hk _).1 f1) f2
      · have := (hk _).1 f1; cases this
      · have := (hk _).1 f1; cases this
      · have := (hk _).1 f1; cases this
      · have := (hk _).1 f1; cases this
    | ok o =>
      simp only [Res.map, Res.bind_ok]
      have hk' : ∃ f, f ≠ .broken ∧ ∀ f', FoundAt h σ key f' ↔ f' = f := by
        cases o with
        | none => exact ⟨_, by simp, hk⟩
        | some v => exact ⟨_, by simp, hk⟩
      cases hf : getTemplate th t id with
      | none =>
        have hf' := template_none hn hg hf
        obtain ⟨f, nb, hk'⟩ := hk'
        refine meets_text fun r => ⟨fun q => ?_, fun q => by rw [q]; exact .conditionNothing ht ((hk' _).2 rfl) nb hf'⟩
        rcases inv r q with ⟨f1, e⟩ | ⟨_, _, e⟩ | ⟨_, e⟩ | ⟨_, e⟩ | ⟨n, _⟩ | ⟨n, _⟩
        · exact absurd ((hk' _).1 f1).symm nb
        · exact e
        · exact e
        · exact e
        · exact absurd hf' n
        · exact absurd hf' n
      | some c =>
        have hf' := template_ne hn hg hf
        simp only
        cases o with
        | none =>
          simp only [Option.getD_none, if_true]
          refine meets_text fun r => ⟨fun q => ?_, fun q => by rw [q]; exact .conditionAbsent ht ((hk _).2 rfl)⟩
          rcases inv r q with ⟨f1, _⟩ | ⟨_, _, e⟩ | ⟨_, e⟩ | ⟨_, e⟩ | ⟨_, _, e⟩ | ⟨_, v, text, f1, _⟩
          · have := (hk _).1 f1; cases this
          · exact e
          · exact e
          · exact e
          · exact e
          · have := (hk _).1 f1; cases this
        | some v =>
          simp only [Option.getD_some]
          -- the value decides
          have only : ∀ r, RendersIn own look x lang h d (.elem ⟨.condition, s⟩) (some σ) r →
              (ValIsDataset h v ∧ r = .text []) ∨ (Shows x h v [] ∧ r = .text []) ∨
              (∃ text, ¬ ValIsDataset h v ∧ Shows x h v text ∧ text ≠ [] ∧ RendersIn own look x lang h d (.choose [id ++ b!"." ++ text, id]) (some σ) r) := by
            intro r q
            rcases inv r q with ⟨f1, _⟩ | ⟨_, n, _⟩ | ⟨f1, _⟩ | ⟨⟨w, f1, q⟩, e⟩ | ⟨_, ⟨w, f1, q⟩, e⟩ | ⟨_, w, text, f1, q⟩
            · have := (hk _).1 f1; cases this
            · exact absurd n hf'
            · have := (hk _).1 f1; cases this
            · have := (hk _).1 f1; cases this; exact Or.inl ⟨q, e⟩
            · have := (hk _).1 f1; cases this; exact Or.inr (Or.inl ⟨q, e⟩)
            · have := (hk _).1 f1; cases this; exact Or.inr (Or.inr ⟨text, q⟩)
          by_cases hv : v = .nil
          · rw [if_pos hv]
            subst hv
            refine meets_text fun r => ⟨fun q => ?_, fun q => by rw [q]; exact .conditionEmpty ht hf' ((hk _).2 rfl) (shows_nil.2 rfl)⟩
            rcases only r q with ⟨_, e⟩ | ⟨_, e⟩ | ⟨text, _, q, n, _⟩
            · exact e
            · exact e
            · exact absurd (shows_nil.1 q) n
          · rw [if_neg hv]
            cases hd : asDataset h v with
            | some ds =>
              have hds := asDataset_val.1 ⟨ds, hd⟩
              simp only [pushSt, Res.bind_ok, popSt]
              simp
              refine meets_text fun r => ⟨fun q => ?_, fun q => by rw [q]; exact .conditionDataset ht ((hk _).2 rfl) hds⟩
              rcases only r q with ⟨_, e⟩ | ⟨_, e⟩ | ⟨text, n, _⟩
              · exact e
              · exact e
              · exact absurd hds n
            | none =>
              have hds := asDataset_none hd
              simp only
              cases hp : sprint x (printBound h) h v with
              | none =>
                intro r q
                rcases only r q with ⟨n, _⟩ | ⟨q, _⟩ | ⟨text, _, q, _⟩
                · exact hds n
                · rw [shows_iff wf hv, hp] at q; cases q
                · rw [shows_iff wf hv, hp] at q; cases q
              | some sv =>
                simp only [ofFuel, Res.bind_ok]
                have hsv : ∀ u, Shows x h v u ↔ u = sv := fun u => by
                  rw [shows_iff wf hv, hp]; simp [eq_comm]
                by_cases hsn : sv = []
                · rw [if_neg (by simp [hsn])]
                  refine meets_text fun r => ⟨fun q => ?_, fun q => by rw [q]; exact .conditionEmpty ht hf' ((hk _).2 rfl) ((hsv _).2 hsn.symm)⟩
                  rcases only r q with ⟨n, _⟩ | ⟨_, e⟩ | ⟨text, _, q, n, _⟩
                  · exact absurd n hds
                  · exact e
                  · exact absurd (((hsv _).1 q).trans hsn) n
                · rw [if_pos hsn]
                  have m := choose_meets hn hg hs [id ++ b!"." ++ sv, id]
                  have m2 : Meets (stackOf (some σ)) (rec ((getTemplate th t (id ++ b!"." ++ sv)).getD c) (stackOf (some σ)))
                      (RendersIn own look x lang h d (.choose [id ++ b!"." ++ sv, id]) (some σ)) := by
                    simp only [List.findSome?_cons, hf] at m
                    cases h1 : getTemplate th t (id ++ b!"." ++ sv) with
                    | some c => rw [h1] at m; exact m
                    | none => rw [h1] at m; exact m
                  refine m2.congr fun r => ⟨fun q => ?_, fun q => .condition ht hf' ((hk _).2 rfl) hds ((hsv _).2 rfl) hsn q⟩
                  rcases only r q with ⟨n, _⟩ | ⟨q, _⟩ | ⟨text, _, q, _, q'⟩
                  · exact absurd n hds
                  · exact absurd ((hsv _).1 q).symm hsn
                  · rw [(hsv _).1 q] at q'; exact q'

omit hn hg in
theorem dump_meets (wf : WF h) (σ : Option (List (Option Nat))) (s : Str) :
    Meets (stackOf σ) (doDump x h s (stackOf σ)) (RendersIn own look x lang h d (.elem ⟨.dump, s⟩) σ) := by
  unfold doDump
  cases σ with
  | none =>
    refine meets_text fun r => ⟨fun q => ?_, fun q => by rw [q]; exact .dumpNothing (Or.inr rfl)⟩
    cases q with
    | dumpNothing _ => rfl
    | unknown f => exact f.elim
  | some σ =>
    simp only [stackOf, Option.map_some]
    by_cases hs : s = b!"dump" ∨ s = b!"list"
    · rw [if_pos hs]
      have hlast : colGet σ.reverse 0 = σ.getLast? := by
        unfold colGet
        by_cases h0 : σ = []
        · simp [h0]
        · rw [if_neg (by have := List.length_pos_iff.2 h0; simp; omega)]
          simp [List.head?_reverse, ← List.head?_eq_getElem?]
      rw [hlast]
      have inv : ∀ r, RendersIn own look x lang h d (.elem ⟨.dump, s⟩) (some σ) r →
          (∃ a n t, σ.getLast? = some (some a) ∧ GoPrints x n (up h) (.ptr a) t ∧ r = .text t) ∨ (σ.getLast?.join = none ∧ r = .text []) := by
        intro r q
        cases q with
        | dump _ q1 q2 => exact Or.inl ⟨_, _, _, q1, q2, rfl⟩
        | dumpNil q => exact Or.inr ⟨q, rfl⟩
        | dumpNothing q =>
          rcases q with ⟨q1, q2⟩ | q
          · rcases hs with hs | hs
            · exact absurd hs q1
            · exact absurd hs q2
          · cases q
        | unknown f => exact f.elim
      have empty : σ.getLast?.join = none → ∀ r, RendersIn own look x lang h d (.elem ⟨.dump, s⟩) (some σ) r ↔ r = .text [] := by
        intro hj r
        refine ⟨fun q => ?_, fun q => by rw [q]; exact .dumpNil hj⟩
        rcases inv r q with ⟨a, n, t, e, _⟩ | ⟨_, e⟩
        · rw [e] at hj; cases hj
        · exact e
      cases hl : σ.getLast? with
      | none => exact meets_text (empty (by rw [hl]; rfl))
      | some e =>
        cases e with
        | none => exact meets_text (empty (by rw [hl]; rfl))
        | some a =>
          simp only
          cases hp : goSprint x (printBound h) h (.ptr a) with
          | some t =>
            refine meets_text fun r => ⟨fun q => ?_, fun q => ?_⟩
            · rcases inv r q with ⟨b, n, t', e, q, er⟩ | ⟨e, _⟩
              · rw [hl] at e; cases e
                have := (goPrints_bound wf).1 ⟨n, q⟩
                rw [hp] at this; cases this; exact er
              · rw [hl] at e; cases e
            · rw [q]
              obtain ⟨n, q⟩ := (goPrints_bound wf).2 hp
              exact .dump hs hl q
          | none =>
            intro r q
            rcases inv r q with ⟨b, n, t', e, q, er⟩ | ⟨e, _⟩
            · rw [hl] at e; cases e
              have := (goPrints_bound wf).1 ⟨n, q⟩
              rw [hp] at this; cases this
            · rw [hl] at e; cases e
    · rw [if_neg hs]
      refine meets_text fun r => ⟨fun q => ?_, fun q => by rw [q]; exact .dumpNothing (Or.inl (not_or.1 hs))⟩
      cases q with
      | dump p _ _ => exact absurd p hs
      | dumpNil _ => rfl
      | dumpNothing _ => rfl
      | unknown f => exact f.elim

theorem item_meets (wf : WF h) {σ : Option (List (Option Nat))} (hs : Sound h σ) (p : Param) :
    Meets (stackOf σ) (injectItem x th h lang rec t p (stackOf σ)) (RendersIn own look x lang h d (.elem p) σ) := by
  obtain ⟨k, s⟩ := p
  have foreign : Foreign k → Meets (stackOf σ) (.ok (stackOf σ, b!"THE METALANGUAGE FROM OUTERSPACE IS NOT SUPPORTED: " ++ itoa k.num))
      (RendersIn own look x lang h d (.elem ⟨k, s⟩) σ) := by
    intro hk
    refine meets_text fun r => ⟨fun q => ?_, fun q => by rw [q]; exact .unknown hk⟩
    cases q with
    | unknown _ => rfl
    | _ => exact hk.elim
  unfold injectItem
  cases k with
  | string =>
    refine meets_text fun r => ⟨fun q => ?_, fun q => by rw [q]; exact .text⟩
    cases q with
    | text => rfl
    | unknown f => exact f.elim
  | comment =>
    refine meets_text fun r => ⟨fun q => ?_, fun q => by rw [q]; exact .comment⟩
    cases q with
    | comment => rfl
    | unknown f => exact f.elim
  | language =>
    have key : ∀ r, RendersIn own look x lang h d (.elem ⟨.language, s⟩) σ r ↔ r = .text (langText lang s) := fun r =>
      ⟨fun q => by
        cases q with
        | language => rfl
        | unknown f => exact f.elim, fun q => by rw [q]; exact .language⟩
    cases lang with
    | none => exact meets_text key
    | some l =>
      have : langText (some l) s = Language.get l s := by
        simp only [langText, Language.get]
        cases (l.entries.getD []).get s <;> rfl
      rw [this] at key
      exact meets_text key
  | reference => exact reference_meets hn hg wf hs s
  | «variable» =>
    cases σ with
    | none =>
      refine meets_text fun r => ⟨fun q => ?_, fun q => by rw [q]; exact .variableNoData⟩
      cases q with
      | variableNoData => rfl
      | unknown f => exact f.elim
    | some σ =>
      have hk := stack_text (x := x) wf hs s
      have inv : ∀ r, RendersIn own look x lang h d (.elem ⟨.variable, s⟩) (some σ) r ↔ ∃ f, FoundAt h σ s f ∧ TextOf x h f r := fun r =>
        ⟨fun q => by
          cases q with
          | «variable» q1 q2 => exact ⟨_, q1, q2⟩
          | unknown f => exact f.elim, fun ⟨f, q1, q2⟩ => .variable q1 q2⟩
      simp only [stackOf, Option.map_some]
      generalize stackString x h σ.reverse s = res at hk
      cases res with
      | panic =>
        refine fun r => (inv r).trans ⟨fun ⟨f, q1, q2⟩ => ?_, fun e => ⟨_, (hk _).2 rfl, by rw [e]; exact .broken⟩⟩
        rw [(hk _).1 q1] at q2; cases q2; rfl
      | diverge =>
        obtain ⟨f, q1, q2, q3⟩ := hk
        intro r q
        obtain ⟨f', f1, f2⟩ := (inv r).1 q
        rw [(q1 _).1 f1] at f2
        exact q3 r f2
      | ok v =>
        obtain ⟨f, q1, q2, q3⟩ := hk
        refine meets_text fun r => (inv r).trans ⟨fun ⟨f', f1, f2⟩ => ?_, fun e => ⟨_, (q1 _).2 rfl, by rw [e]; exact (q3 _).2 rfl⟩⟩
        rw [(q1 _).1 f1] at f2
        exact (q3 r).1 f2
  | range => exact range_meets hn hg wf hs s
  | condition => exact condition_meets hn hg wf hs s
  | dump => exact dump_meets wf σ s
  | start => exact foreign trivial
  | stop => exact foreign trivial
  | unused => exact foreign trivial
  | other n => exact foreign trivial

theorem all_meets (wf : WF h) {σ : Option (List (Option Nat))} (hs : Sound h σ) (l : List Param) :
    Meets (stackOf σ) (injectAll (injectItem x th h lang rec t) l (stackOf σ)) (RendersIn own look x lang h d (.body l) σ) := by
  induction l with
  | nil => exact meets_text fun r => ⟨fun q => by cases q; rfl, fun q => by rw [q]; exact .nil⟩
  | cons p l ih =>
    have m := item_meets hn hg wf hs p
    simp only [injectAll]
    generalize injectItem x th h lang rec t p (stackOf σ) = res at m
    cases res with
    | panic =>
      refine fun r => ⟨fun q => ?_, fun q => by rw [q]; exact .consPanic ((m _).2 rfl)⟩
      cases q with
      | cons q1 _ => have := (m _).1 q1; cases this
      | consPanic _ => rfl
    | diverge =>
      intro r q
      cases q with
      | cons q1 _ => exact m _ q1
      | consPanic q1 => exact m _ q1
    | ok o =>
      obtain ⟨s', s1⟩ := o
      obtain ⟨rfl, m⟩ := m
      simp only [Res.bind_ok]
      generalize injectAll (injectItem x th h lang rec t) l (stackOf σ) = res2 at ih
      have inv : ∀ r, RendersIn own look x lang h d (.body (p :: l)) σ r ↔ ∃ r', RendersIn own look x lang h d (.body l) σ r' ∧ r = r'.after s1 := by
        intro r
        constructor
        · intro q
          cases q with
          | cons q1 q2 => have := (m _).1 q1; cases this; exact ⟨_, q2, rfl⟩
          | consPanic q1 => have := (m _).1 q1; cases this
        · rintro ⟨r', q, rfl⟩
          exact .cons ((m _).2 rfl) q
      cases res2 with
      | panic =>
        refine fun r => (inv r).trans ⟨fun ⟨r', q, e⟩ => ?_, fun e => ⟨_, (ih _).2 rfl, by rw [e]; rfl⟩⟩
        rw [e, (ih _).1 q]; rfl
      | diverge => exact fun r q => by obtain ⟨r', q, _⟩ := (inv r).1 q; exact ih _ q
      | ok p =>
        obtain ⟨s', s2⟩ := p
        obtain ⟨rfl, ih⟩ := ih
        refine meets_text fun r => (inv r).trans ⟨fun ⟨r', q, e⟩ => ?_, fun e => ⟨_, (ih _).2 rfl, by rw [e]; rfl⟩⟩
        rw [e, (ih _).1 q]; rfl

end

/-- Rendering of a compiled document, with a bound larger than the nesting of its boxes. -/
theorem injector_meets {x : Ext} {th : THeap} {h : Heap} {lang : Option Language.Lang} (wf : WF h) : ∀ (n : Nat) (t : Nat) (d : Doc), Compiled th t d [] →
    nesting d < n → ∀ σ, Sound h σ → Meets (stackOf σ) (injector x th h lang n t (stackOf σ)) (Renders x lang h d .document σ) := by
  intro n
  induction n with
  | zero => intro t d _ hn; omega
  | succ n ih =>
    intro t d hc hn σ hs
    have hc' := hc
    obtain ⟨o, l, e, hr, _⟩ := hc'
    simp only [injector, e, hr]
    have hnone : ∀ v, d.find v = none → getTemplate th t v = none := by
      intro v hv
      have := hc.get v
      rw [hv] at this
      simpa using this
    have hgood : Good (fun d => some d.own) Doc.find x th h lang (injector x th h lang n) t d := by
      intro v b hv
      have := hc.get v
      rw [hv] at this
      obtain ⟨c, q1, q2⟩ := this
      exact ⟨c, q1, fun σ hs => ih c b q2 (by have := find_nesting hv; omega) σ hs⟩
    refine (all_meets hnone hgood wf hs d.own).congr fun r => ⟨fun q => ?_, fun q => .document rfl q⟩
    cases q with
    | document e q => cases e; exact q

/-! ## Other documents -/

/-- What is found on both sides is related. -/
inductive OptRel {D D' : Type} (R : D → D' → Prop) : Option D → Option D' → Prop where
  | none : OptRel R none none
  | some {d : D} {d' : D'} : R d d' → OptRel R (some d) (some d')

theorem OptRel.none_iff {D D' : Type} {R : D → D' → Prop} {o : Option D} {o' : Option D'} (h : OptRel R o o') : o' = Option.none ↔ o = Option.none := by
  cases h <;> simp

/-- Documents with the same elements and related boxes are rendered alike. -/
theorem RendersIn.sim {D D' : Type} {own : D → Option (List Param)} {look : D → Str → Option D} {own' : D' → Option (List Param)} {look' : D' → Str → Option D'}
    {R : D → D' → Prop} (ho : ∀ d d' l, R d d' → own d = some l → own' d' = some l) (hl : ∀ d d' v, R d d' → OptRel R (look d v) (look' d' v))
    {x : Ext} {lang : Option Language.Lang} {h : Heap} {d : D} {job : Job} {σ : Option (List (Option Nat))} {r : Out}
    (q : RendersIn own look x lang h d job σ r) : ∀ d', R d d' → RendersIn own' look' x lang h d' job σ r := by
  have hn : ∀ {d d' v}, R d d' → look d v = none → look' d' v = none := fun hr e => (hl _ _ _ hr).none_iff.2 e
  have hnn : ∀ {d d' v}, R d d' → look d v ≠ none → look' d' v ≠ none := fun hr e e' => e ((hl _ _ _ hr).none_iff.1 e')
  have hf : ∀ {d d'} (names : List Str), R d d' → OptRel R (names.findSome? (look d)) (names.findSome? (look' d')) := by
    intro d d' names hr
    induction names with
    | nil => exact .none
    | cons v names ih =>
      simp only [List.findSome?_cons]
      have := hl d d' v hr
      generalize look d v = o at this
      generalize look' d' v = o' at this
      cases this with
      | none => exact ih
      | some h => exact .some h
  induction q with
  | document e _ ih => exact fun d' hr => .document (ho _ _ _ hr e) (ih d' hr)
  | nil => exact fun _ _ => .nil
  | cons _ _ ih1 ih2 => exact fun d' hr => .cons (ih1 d' hr) (ih2 d' hr)
  | consPanic _ ih => exact fun d' hr => .consPanic (ih d' hr)
  | @chosen d b σ r names e _ ih =>
    intro d' hr
    have := hf names hr
    rw [e] at this
    generalize e' : names.findSome? (look' d') = o' at this
    cases this with
    | some h => exact .chosen e' (ih _ h)
  | @noChoice d σ names e =>
    intro d' hr
    have := hf names hr
    rw [e] at this
    exact .noChoice (this.none_iff.2 rfl)
  | text => exact fun _ _ => .text
  | comment => exact fun _ _ => .comment
  | language => exact fun _ _ => .language
  | variableNoData => exact fun _ _ => .variableNoData
  | «variable» h1 h2 => exact fun _ _ => .variable h1 h2
  | reference h1 h2 h3 _ ih => exact fun d' hr => .reference h1 h2 h3 (ih d' hr)
  | referenceNone h1 h2 => exact fun d' hr => .referenceNone h1 (hn hr h2)
  | referenceWith h1 h2 h3 h4 _ ih => exact fun d' hr => .referenceWith h1 (hnn hr h2) h3 h4 (ih d' hr)
  | referenceWithout h1 h2 h3 h4 h5 _ ih => exact fun d' hr => .referenceWithout h1 (hnn hr h2) h3 h4 h5 (ih d' hr)
  | referenceBroken h1 h2 h3 => exact fun d' hr => .referenceBroken h1 (hnn hr h2) h3
  | referenceNoData h1 h2 => exact fun d' hr => .referenceNoData h1 (hnn hr h2)
  | referenceValue h1 h2 h3 _ ih => exact fun d' hr => .referenceValue h1 h2 h3 (ih d' hr)
  | referenceValueBroken h1 h2 => exact fun _ _ => .referenceValueBroken h1 h2
  | referenceValueNoData h1 => exact fun _ _ => .referenceValueNoData h1
  | rangeNothing h1 h2 => exact fun d' hr => .rangeNothing h1 (h2.imp (hn hr) id)
  | rangeAbsent h1 h2 h3 _ ih => exact fun d' hr => .rangeAbsent h1 (hnn hr h2) h3 (ih d' hr)
  | range h1 h2 h3 h4 _ ih => exact fun d' hr => .range h1 (hnn hr h2) h3 h4 (ih d' hr)
  | rangeOther h1 h2 h3 h4 => exact fun d' hr => .rangeOther h1 (hnn hr h2) h3 h4
  | rangeBroken h1 h2 h3 => exact fun d' hr => .rangeBroken h1 (hnn hr h2) h3
  | loopEnd => exact fun _ _ => .loopEnd
  | loop _ _ ih1 ih2 => exact fun d' hr => .loop (ih1 d' hr) (ih2 d' hr)
  | loopPanic _ ih => exact fun d' hr => .loopPanic (ih d' hr)
  | conditionNoData => exact fun _ _ => .conditionNoData
  | conditionBroken h1 h2 => exact fun _ _ => .conditionBroken h1 h2
  | conditionNothing h1 h2 h3 h4 => exact fun d' hr => .conditionNothing h1 h2 h3 (hn hr h4)
  | conditionAbsent h1 h2 => exact fun _ _ => .conditionAbsent h1 h2
  | conditionDataset h1 h2 h3 => exact fun _ _ => .conditionDataset h1 h2 h3
  | conditionEmpty h1 h2 h3 h4 => exact fun d' hr => .conditionEmpty h1 (hnn hr h2) h3 h4
  | condition h1 h2 h3 h4 h5 h6 _ ih => exact fun d' hr => .condition h1 (hnn hr h2) h3 h4 h5 h6 (ih d' hr)
  | dump h1 h2 h3 => exact fun _ _ => .dump h1 h2 h3
  | dumpNil h1 => exact fun _ _ => .dumpNil h1
  | dumpNothing h1 => exact fun _ _ => .dumpNothing h1
  | unknown h1 => exact fun _ _ => .unknown h1

/-! ## Templates in memory, with a bound for the depth of calls -/

/-- The elements of the template, as long as the bound is not reached. -/
def ownN (th : THeap) (d : Nat × Nat) : Option (List Param) := if d.1 = 0 then none else some (elements th d.2)

/-- The sub-templates, with the rest of the bound. -/
def lookN (th : THeap) (d : Nat × Nat) (v : Str) : Option (Nat × Nat) := (Registered th d.2 v).map fun c => (d.1 - 1, c)

theorem Usable.sub {th : THeap} {t c : Nat} (hu : Usable th t) {v : Str} (e : Registered th t v = some c) : Usable th c := by
  intro b hb
  refine hu b ?_
  clear hu
  induction hb with
  | here => exact .sub .here e
  | sub _ e' ih => exact .sub ih e'

theorem getTemplate_registered (th : THeap) (t : Nat) (v : Str) : getTemplate th t v = Registered th t v := by
  unfold getTemplate Registered
  cases th[t]? <;> rfl

/-- The code, exactly. -/
theorem injector_meets_at {x : Ext} {th : THeap} {h : Heap} {lang : Option Language.Lang} (wf : WF h) : ∀ (n : Nat) (t : Nat), Usable th t →
    ∀ σ, Sound h σ → Meets (stackOf σ) (injector x th h lang n t (stackOf σ)) (RendersIn (ownN th) (lookN th) x lang h (n, t) .document σ) := by
  intro n
  induction n with
  | zero =>
    intro t _ σ _ r q
    cases q with
    | document e => cases e
  | succ n ih =>
    intro t hu σ hs
    have hnone : ∀ v, lookN th (n + 1, t) v = none → getTemplate th t v = none := by
      intro v hv
      rw [getTemplate_registered]
      simpa [lookN] using hv
    have hgood : Good (ownN th) (lookN th) x th h lang (injector x th h lang n) t (n + 1, t) := by
      intro v b hv
      rw [lookN, Option.map_eq_some_iff] at hv
      obtain ⟨c, hc, rfl⟩ := hv
      exact ⟨c, by rw [getTemplate_registered]; exact hc, fun σ hs => ih c (hu.sub hc) σ hs⟩
    have hm := all_meets hnone hgood wf hs (elements th t)
    have inv : ∀ r, RendersIn (ownN th) (lookN th) x lang h (n + 1, t) .document σ r ↔ RendersIn (ownN th) (lookN th) x lang h (n + 1, t) (.body (elements th t)) σ r :=
      fun r => ⟨fun q => by cases q with | document e q => simp only [ownN] at e; cases e; exact q, fun q => .document rfl q⟩
    have hm := hm.congr inv
    obtain ⟨o, e⟩ : ∃ o, th[t]? = some o := ⟨_, List.getElem?_eq_getElem (hu t .here)⟩
    simp only [injector, e]
    cases hr : o.root with
    | some root =>
      simp only
      have : elements th t = root := by simp only [elements, e, Option.bind_some, hr]
      rw [this] at hm
      exact hm
    | none =>
      have : elements th t = [⟨.string, b!"Error, no template.Root compiled"⟩] := by simp only [elements, e, Option.bind_some, hr]
      rw [this] at hm
      simpa [injectAll, injectItem] using hm

end Xcore.V1.Template
