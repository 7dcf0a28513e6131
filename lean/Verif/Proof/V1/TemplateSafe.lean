import Verif.Proof.V1.TemplateRender
import Verif.Proof.TemplateTotal

/-!
# Rendering of version 1: outcomes

`Execute` meets its specification; it ends on data without cycles; conditions under which it does not panic.
-/

namespace Xcore.V1.Template

open Xcore.Template (Kind Param Doc parts Target rangeNames Foreign NeedsNoData find_all own_all)
open Xcore.Dataset (Ext Val Prints GoPrints)
open Xcore.V1.Dataset

/-! ## Execute -/

theorem langOf_iff {h : Heap} (wf : WF h) {a : Nat} (hd : IsDataset h a) (lang : Option Language.Lang) :
    LangOf h a lang ↔ lang = langOf h (Dataset.get h a b!"#") := by
  have key : ∀ v, Dataset.get h a b!"#" = some v ↔ Entry h a b!"#" v := by
    intro v
    rw [get_leads wf hd]
    constructor
    · intro l
      have e : split 62 b!"#" = [b!"#"] := by decide
      rw [e] at l
      cases l with
      | entry e => exact e
    · exact fun e => .entry e
  constructor
  · intro q
    cases q with
    | table e hl => rw [(key _).2 e]; simp [langOf, hl]
    | none hn =>
      cases e : Dataset.get h a b!"#" with
      | none => rfl
      | some v =>
        cases v with
        | ptr b =>
          simp only [langOf]
          split
          · next l hl => exact absurd hl (hn b l ((key _).1 e))
          · rfl
        | _ => rfl
  · rintro rfl
    cases e : langOf h (Dataset.get h a b!"#") with
    | some l =>
      unfold langOf at e
      split at e
      · next b hb =>
        split at e
        · next l' hl => cases e; exact .table ((key _).1 hb) hl
        · cases e
      · cases e
    | none =>
      refine .none fun b l he hl => ?_
      rw [(key _).2 he] at e
      simp [langOf, hl] at e

/-- From the renderer to `Execute`. -/
theorem execute_meets_of {D : Type} {own : D → Option (List Param)} {look : D → Str → Option D} {x : Ext} {th : THeap} {t : Nat} {d : D} {h : Heap}
    {data : Option Nat} (hp : Proper h data) {n : Nat} (hm : ∀ lang σ, Sound h σ → Meets (stackOf σ) (injector x th h lang n t (stackOf σ)) (RendersIn own look x lang h d .document σ)) :
    match execute x th n t h data with
      | .ok s => ∀ r, ExecutesIn own look x d h data r ↔ r = .text s
      | .panic => ∀ r, ExecutesIn own look x d h data r ↔ r = .panic
      | .diverge => ∀ r, ¬ ExecutesIn own look x d h data r := by
  cases data with
  | none =>
    have m := hm none none (fun l e => by cases e)
    have inv : ∀ r, ExecutesIn own look x d h none r ↔ RendersIn own look x none h d .document none r := fun r =>
      ⟨fun q => by cases q with | nil q => exact q, .nil⟩
    simp only [execute, inv]
    have e : stackOf none = none := rfl
    rw [e] at m
    generalize injector x th h none n t none = res at m
    cases res with
    | ok p => exact m.2
    | panic => exact m
    | diverge => exact m
  | some a =>
    have hd := hp.data a rfl
    have m := hm (langOf h (Dataset.get h a b!"#")) (some [some a])
      (fun l e b hb => by cases e; simp at hb; subst hb; exact hd)
    have inv : ∀ r, ExecutesIn own look x d h (some a) r ↔ RendersIn own look x (langOf h (Dataset.get h a b!"#")) h d .document (some [some a]) r := fun r =>
      ⟨fun q => by cases q with | data hl q => rw [(langOf_iff hp.wf hd _).1 hl] at q; exact q, fun q => .data ((langOf_iff hp.wf hd _).2 rfl) q⟩
    simp only [execute, inv]
    have e : stackOf (some [some a]) = some [some a] := rfl
    rw [e] at m
    generalize injector x th h (langOf h (Dataset.get h a b!"#")) n t (some [some a]) = res at m
    cases res with
    | ok p => exact m.2
    | panic => exact m
    | diverge => exact m

theorem execute_meets {x : Ext} {th : THeap} {t : Nat} {d : Doc} (hc : Compiled th t d []) {h : Heap} {data : Option Nat} (hp : Proper h data) {n : Nat}
    (hn : nesting d < n) : match execute x th n t h data with
      | .ok s => ∀ r, Executes x d h data r ↔ r = .text s
      | .panic => ∀ r, Executes x d h data r ↔ r = .panic
      | .diverge => ∀ r, ¬ Executes x d h data r :=
  execute_meets_of hp fun _ σ hs => injector_meets hp.wf n t d hc hn σ hs

/-! ## Termination -/

theorem leads_reach {h : Heap} {b : Nat} {l : List Str} {v : Val} (hl : Leads h b l v) (a : Nat) (e : v = .ptr a) : Reach h b a :=
  reach_up.1 (Xcore.Dataset.leads_reach (leads_up.2 hl) a e)

theorem reach_trans {h : Heap} {a b c : Nat} (r : Reach h a b) (r' : Reach h b c) : Reach h a c := by
  induction r with
  | refl => exact r'
  | step s _ ih => exact .step s (ih r')

theorem acyclic_reach {h : Heap} {a b : Nat} (ac : Acyclic h a) (r : Reach h a b) : Acyclic h b :=
  fun c d rc hr => ac c d (reach_trans r rc) hr

theorem found_reach {h : Heap} {σ : List (Option Nat)} {key : Str} {v : Val} (hf : FoundAt h σ key (.value v)) :
    ∃ b, some b ∈ σ ∧ Leads h b (split 62 key) v := by
  generalize e : Found.value v = f at hf
  induction hf with
  | here hl => cases e; exact ⟨_, by simp, hl⟩
  | outer _ _ ih =>
    obtain ⟨b, hb, hl⟩ := ih e
    exact ⟨b, by simp [hb], hl⟩
  | nil => cases e
  | missing => cases e

theorem found_broken {h : Heap} {σ : List (Option Nat)} {key : Str} (hf : FoundAt h σ key .broken) : none ∈ σ := by
  generalize e : Found.broken = f at hf
  induction hf with
  | here hl => cases e
  | outer _ _ ih => simp [ih e]
  | nil => simp
  | missing => cases e

theorem found_exists {h : Heap} (wf : WF h) {σ : List (Option Nat)} (hs : Sound h (some σ)) (key : Str) : ∃ f, FoundAt h σ key f := by
  have := found_unique wf (hs σ rfl) key
  generalize getDataL h key σ = res at this
  cases res with
  | ok o =>
    cases o with
    | none => exact ⟨_, (this _).2 rfl⟩
    | some v => exact ⟨_, (this _).2 rfl⟩
  | panic => exact ⟨_, (this _).2 rfl⟩
  | diverge => exact this.elim

/-- The datasets on the stack are reachable from the data, which have no cycle. -/
structure Tame (h : Heap) (a : Option Nat) (σ : Option (List (Option Nat))) : Prop where
  sound : Sound h σ
  from_data : ∀ l, σ = some l → ∃ r, a = some r ∧ ∀ b, some b ∈ l → Reach h r b

theorem Tame.push {h : Heap} {a : Option Nat} {σ : List (Option Nat)} (hs : Tame h a (some σ)) {e : Option Nat} (hd : ∀ b, e = some b → IsDataset h b)
    (he : ∀ b, e = some b → ∃ c, some c ∈ σ ∧ Reach h c b) : Tame h a (some (e :: σ)) := by
  constructor
  · intro l q b hb
    cases q
    rcases List.mem_cons.1 hb with hb | hb
    · exact hd b hb.symm
    · exact hs.sound σ rfl b hb
  · intro l q
    cases q
    obtain ⟨r, hr, hq⟩ := hs.from_data σ rfl
    refine ⟨r, hr, fun b hb => ?_⟩
    rcases List.mem_cons.1 hb with hb | hb
    · obtain ⟨c, hc, hcb⟩ := he b hb.symm
      exact reach_trans (hq c hc) hcb
    · exact hq b hb

theorem Tame.root {h : Heap} {data : Option Nat} (hp : Proper h data) : Tame h data (data.map fun a => [some a]) := by
  constructor
  · intro l e b hb
    cases data with
    | none => cases e
    | some a => cases e; simp at hb; subst hb; exact hp.data _ rfl
  · intro l e
    cases data with
    | none => cases e
    | some a => cases e; exact ⟨a, rfl, fun b hb => by simp at hb; subst hb; exact .refl⟩

section
variable {D : Type} {own : D → Option (List Param)} {look : D → Str → Option D} {x : Ext} {lang : Option Language.Lang} {h : Heap} {a : Option Nat} (wf : WF h) (hac : ∀ r, a = some r → r < h.length ∧ Acyclic h r)
include wf hac

theorem shows_exists {σ : List (Option Nat)} (hs : Tame h a (some σ)) {key : Str} {v : Val} (hf : FoundAt h σ key (.value v)) : ∃ s, Shows x h v s := by
  by_cases hn : v = .nil
  · exact ⟨[], Or.inl ⟨hn, rfl⟩⟩
  · by_cases hp : ∃ b, v = .ptr b
    · obtain ⟨b, rfl⟩ := hp
      obtain ⟨c, hc, hl⟩ := found_reach hf
      obtain ⟨r, hr, hq⟩ := hs.from_data σ rfl
      obtain ⟨hlt, hac⟩ := hac r hr
      have hrb := reach_trans (hq c hc) (leads_reach hl b rfl)
      have hblt : b < h.length := by
        have := Xcore.Dataset.reach_lt (wf_up.2 wf) (reach_up.2 hrb) (by rw [up_length]; exact hlt)
        rwa [up_length] at this
      obtain ⟨⟨s, e⟩, _⟩ := sprint_ends x wf hblt (acyclic_reach hac hrb) (d := printBound h) (by simp [printBound])
      exact ⟨s, (shows_iff wf hn).2 e⟩
    · have : ∃ s, sprint x (printBound h) h v = some s := by
        cases v <;> first | exact absurd ⟨_, rfl⟩ hp | (simp only [printBound, sprint]; first | exact ⟨_, rfl⟩ | (split <;> exact ⟨_, rfl⟩))
      obtain ⟨s, e⟩ := this
      exact ⟨s, (shows_iff wf hn).2 e⟩

omit wf hac in
theorem total_choose {d : D} (hb : ∀ v b, (look d) v = some b → ∀ σ, Tame h a σ → ∃ r, RendersIn own look x lang h b .document σ r) {σ : Option (List (Option Nat))}
    (hs : Tame h a σ) (names : List Str) : ∃ r, RendersIn own look x lang h d (.choose names) σ r := by
  cases e : names.findSome? (look d) with
  | none => exact ⟨_, .noChoice e⟩
  | some b =>
    obtain ⟨v, _, e'⟩ := List.exists_of_findSome?_eq_some e
    obtain ⟨r, q⟩ := hb v b e' σ hs
    exact ⟨r, .chosen e q⟩

omit wf hac in
theorem total_loop {d : D} (hb : ∀ v b, (look d) v = some b → ∀ σ, Tame h a σ → ∃ r, RendersIn own look x lang h b .document σ r) {σ : List (Option Nat)}
    (hs : Tame h a (some σ)) (id : Str) (n : Nat) : ∀ (l : List (Option Nat)) (i : Nat), (∀ b, some b ∈ l → IsDataset h b ∧ ∃ c, some c ∈ σ ∧ Reach h c b) →
    ∃ r, RendersIn own look x lang h d (.loop id n i l) (some σ) r := by
  intro l
  induction l with
  | nil => intro i _; exact ⟨_, .loopEnd⟩
  | cons e l ih =>
    intro i hl
    obtain ⟨r1, q1⟩ := total_choose hb (hs.push (e := e) (fun b he => (hl b (by simp [he])).1) (fun b he => (hl b (by simp [he])).2)) (rangeNames id i n)
    cases r1 with
    | panic => exact ⟨_, .loopPanic q1⟩
    | text s =>
      obtain ⟨r2, q2⟩ := ih (i + 1) fun b hm => hl b (by simp [hm])
      exact ⟨_, .loop q1 q2⟩

theorem total_elem {d : D} (hb : ∀ v b, (look d) v = some b → ∀ σ, Tame h a σ → ∃ r, RendersIn own look x lang h b .document σ r) {σ : Option (List (Option Nat))}
    (hs : Tame h a σ) (p : Param) : ∃ r, RendersIn own look x lang h d (.elem p) σ r := by
  obtain ⟨k, s⟩ := p
  cases k with
  | string => exact ⟨_, .text⟩
  | comment => exact ⟨_, .comment⟩
  | language => exact ⟨_, .language⟩
  | start => exact ⟨_, .unknown trivial⟩
  | stop => exact ⟨_, .unknown trivial⟩
  | unused => exact ⟨_, .unknown trivial⟩
  | other n => exact ⟨_, .unknown trivial⟩
  | «variable» =>
    cases σ with
    | none => exact ⟨_, .variableNoData⟩
    | some σ =>
      obtain ⟨f, hf⟩ := found_exists wf hs.sound s
      cases f with
      | absent => exact ⟨_, .variable hf .absent⟩
      | broken => exact ⟨_, .variable hf .broken⟩
      | value v =>
        obtain ⟨t, ht⟩ := shows_exists (x := x) wf hac hs hf
        exact ⟨_, .variable hf (.value ht)⟩
  | reference =>
    have hne := split_ne_nil 58 s
    match e : parts s with
    | [] => exact absurd e hne
    | [id, key] =>
      by_cases hf : (look d) id = none
      · exact ⟨_, .referenceNone e hf⟩
      · cases σ with
        | none => exact ⟨_, .referenceNoData e hf⟩
        | some σ =>
          obtain ⟨f, hk⟩ := found_exists wf hs.sound key
          by_cases hbr : f = .broken
          · subst hbr; exact ⟨_, .referenceBroken e hf hk⟩
          · by_cases hds : ∃ v, f = .value v ∧ ValIsDataset h v
            · obtain ⟨v, rfl, b, rfl, hb'⟩ := hds
              obtain ⟨c, hc, hl⟩ := found_reach hk
              obtain ⟨r, q⟩ := total_choose hb (hs.push (e := some b) (by rintro _ ⟨rfl⟩; exact hb')
                (by rintro _ ⟨rfl⟩; exact ⟨c, hc, leads_reach hl b rfl⟩)) [id]
              exact ⟨r, .referenceWith e hf hk hb' q⟩
            · obtain ⟨r, q⟩ := total_choose hb hs [id]
              exact ⟨r, .referenceWithout e hf hk hbr (fun v hv hd => hds ⟨v, hv, hd⟩) q⟩
    | [any, key, pre] =>
      cases σ with
      | none => exact ⟨_, .referenceValueNoData e⟩
      | some σ =>
        obtain ⟨f, hk⟩ := found_exists wf hs.sound key
        cases f with
        | broken => exact ⟨_, .referenceValueBroken e hk⟩
        | absent =>
          obtain ⟨r, q⟩ := total_choose hb hs [pre ++ [], pre]
          exact ⟨r, .referenceValue e hk .absent q⟩
        | value v =>
          obtain ⟨t, ht⟩ := shows_exists (x := x) wf hac hs hk
          obtain ⟨r, q⟩ := total_choose hb hs [pre ++ t, pre]
          exact ⟨r, .referenceValue e hk (.value ht) q⟩
    | [id] =>
      obtain ⟨r, q⟩ := total_choose hb hs [id]
      exact ⟨r, .reference e (by simp) (by simp) q⟩
    | id :: b :: c :: e' :: rest =>
      obtain ⟨r, q⟩ := total_choose hb hs [id]
      exact ⟨r, .reference e (by simp) (by simp) q⟩
  | range =>
    obtain ⟨key, id, ht⟩ : ∃ key id, Target s key id := ⟨_, _, Xcore.Template.twoNames_target s⟩
    by_cases hf : (look d) id = none
    · exact ⟨_, .rangeNothing ht (Or.inl hf)⟩
    · cases σ with
      | none => exact ⟨_, .rangeNothing ht (Or.inr rfl)⟩
      | some σ =>
        obtain ⟨f, hk⟩ := found_exists wf hs.sound key
        cases f with
        | broken => exact ⟨_, .rangeBroken ht hf hk⟩
        | absent =>
          obtain ⟨r, q⟩ := total_choose hb hs [id ++ b!".none", id]
          exact ⟨r, .rangeAbsent ht hf hk q⟩
        | value v =>
          by_cases hv : ValIsCollection h v
          · obtain ⟨c, l, rfl, hc⟩ := hv
            obtain ⟨b, hbm, hl⟩ := found_reach hk
            obtain ⟨r, q⟩ := total_loop hb hs id l.length l 0 fun e he =>
              ⟨wf.elem c l e hc he, b, hbm, reach_trans (leads_reach hl c rfl) (.step (.elem hc he) .refl)⟩
            exact ⟨r, .range ht hf hk hc q⟩
          · exact ⟨_, .rangeOther ht hf hk hv⟩
  | condition =>
    obtain ⟨key, id, ht⟩ : ∃ key id, Target s key id := ⟨_, _, Xcore.Template.twoNames_target s⟩
    cases σ with
    | none => exact ⟨_, .conditionNoData⟩
    | some σ =>
      obtain ⟨f, hk⟩ := found_exists wf hs.sound key
      cases f with
      | broken => exact ⟨_, .conditionBroken ht hk⟩
      | absent => exact ⟨_, .conditionAbsent ht hk⟩
      | value v =>
        by_cases hf : (look d) id = none
        · exact ⟨_, .conditionNothing ht hk (by simp) hf⟩
        · by_cases hv : ValIsDataset h v
          · exact ⟨_, .conditionDataset ht hk hv⟩
          · obtain ⟨t, hsh⟩ := shows_exists (x := x) wf hac hs hk
            by_cases hte : t = []
            · subst hte; exact ⟨_, .conditionEmpty ht hf hk hsh⟩
            · obtain ⟨r, q⟩ := total_choose hb hs [id ++ b!"." ++ t, id]
              exact ⟨r, .condition ht hf hk hv hsh hte q⟩
  | dump =>
    cases σ with
    | none => exact ⟨_, .dumpNothing (Or.inr rfl)⟩
    | some σ =>
      by_cases hsd : s = b!"dump" ∨ s = b!"list"
      · cases hl : σ.getLast? with
        | none => exact ⟨_, .dumpNil (by rw [hl]; rfl)⟩
        | some e =>
          cases e with
          | none => exact ⟨_, .dumpNil (by rw [hl]; rfl)⟩
          | some b =>
            obtain ⟨r, hr, hq⟩ := hs.from_data σ rfl
            obtain ⟨hlt, hac⟩ := hac r hr
            have hrb := hq b (List.mem_of_getLast? hl)
            have hblt : b < h.length := by
              have := Xcore.Dataset.reach_lt (wf_up.2 wf) (reach_up.2 hrb) (by rw [up_length]; exact hlt)
              rwa [up_length] at this
            obtain ⟨_, t, e⟩ := sprint_ends x wf hblt (acyclic_reach hac hrb) (d := printBound h) (by simp [printBound])
            obtain ⟨n, q⟩ := (goPrints_bound wf).2 e
            exact ⟨_, .dump hsd hl q⟩
      · exact ⟨_, .dumpNothing (Or.inl (not_or.1 hsd))⟩

theorem total_body {d : D} (hb : ∀ v b, (look d) v = some b → ∀ σ, Tame h a σ → ∃ r, RendersIn own look x lang h b .document σ r) {σ : Option (List (Option Nat))}
    (hs : Tame h a σ) (l : List Param) : ∃ r, RendersIn own look x lang h d (.body l) σ r := by
  induction l with
  | nil => exact ⟨_, .nil⟩
  | cons p l ih =>
    obtain ⟨r1, q1⟩ := total_elem (lang := lang) wf hac hb hs p
    cases r1 with
    | panic => exact ⟨_, .consPanic q1⟩
    | text s =>
      obtain ⟨r2, q2⟩ := ih
      exact ⟨_, .cons q1 q2⟩

/-- Rendering ends, however deep the boxes are nested. -/
theorem renders_total : ∀ (n : Nat) (d : Doc), nesting d < n → ∀ σ, Tame h a σ → ∃ r, Renders x lang h d .document σ r := by
  intro n
  induction n with
  | zero => intro d hn; omega
  | succ n ih =>
    intro d hn σ hs
    obtain ⟨r, q⟩ := total_body (own := fun d => some d.own) (look := Doc.find) (x := x) (lang := lang) (d := d) wf hac
      (fun v b hv σ hs => ih b (by have := find_nesting hv; omega) σ hs) hs d.own
    exact ⟨r, .document rfl q⟩

end

theorem executes_total {x : Ext} {h : Heap} {data : Option Nat} (hp : Proper h data) (hac : ∀ a, data = some a → Acyclic h a) (d : Doc) :
    ∃ r, Executes x d h data r := by
  have hac' : ∀ r, data = some r → r < h.length ∧ Acyclic h r := by
    intro r e
    obtain ⟨m, hm⟩ := hp.data r e
    exact ⟨(List.getElem?_eq_some_iff.1 hm).1, hac r e⟩
  have t := Tame.root hp
  cases data with
  | none =>
    obtain ⟨r, q⟩ := renders_total (x := x) (lang := none) hp.wf hac' (nesting d + 1) d (by omega) _ t
    exact ⟨r, .nil q⟩
  | some a =>
    obtain ⟨r, q⟩ := renders_total (x := x) (lang := langOf h (Dataset.get h a b!"#")) hp.wf hac' (nesting d + 1) d (by omega) _ t
    exact ⟨r, .data ((langOf_iff hp.wf (hp.data a rfl) _).2 rfl) q⟩

/-! ## Panics -/

/-- The elements of the job. -/
def JobAll (P : Param → Prop) : Job → Prop
  | .body l => ∀ p ∈ l, P p
  | .elem p => P p
  | _ => True

/-- The rest of a loop is part of a collection under the data. -/
def JobTame (h : Heap) (σ : Option (List (Option Nat))) : Job → Prop
  | .loop _ _ _ l => ∃ s, σ = some s ∧ ∀ e ∈ l, ∃ b, e = some b ∧ IsDataset h b ∧ ∃ c, some c ∈ s ∧ Reach h c b
  | _ => True

theorem renders_no_panic {x : Ext} {lang : Option Language.Lang} {h : Heap} (wf : WF h) {a : Option Nat} (hcl : ∀ r, a = some r → Clean h r) {P : Param → Prop}
    (hP : ∀ p, P p → (∀ r, a = some r → LoopsOver h r p) ∧ (a = none → NeedsNoData p)) {d : Doc} {job : Job} {σ : Option (List (Option Nat))} {r : Out}
    (q : Renders x lang h d job σ r) : d.All P → JobAll P job → JobTame h σ job → Tame h a σ → (a ≠ none → σ ≠ none) →
      (∀ l, σ = some l → none ∉ l) → r ≠ .panic := by
  have nodata : ∀ {σ : Option (List (Option Nat))}, σ = none → (a ≠ none → σ ≠ none) → a = none := fun e f => by
    by_cases ha : a = none
    · exact ha
    · exact absurd e (f ha)
  have refs : ∀ {s : Str}, P ⟨.reference, s⟩ → a = none → (parts s).length ≠ 2 ∧ (parts s).length ≠ 3 := fun hp ha => ((hP _ hp).2 ha) rfl
  induction q with
  | document e _ ih => cases e; exact fun hd _ _ => ih hd (own_all hd) trivial
  | nil => intros; simp
  | @cons _ _ s r _ _ _ _ _ ih2 =>
    intro hd hj _ ht hn hno
    have := ih2 hd (fun p hp => hj p (by simp [hp])) trivial ht hn hno
    cases r <;> simp_all [Out.after]
  | consPanic _ ih => exact fun hd hj _ ht hn hno => ih hd (hj _ (by simp)) trivial ht hn hno
  | chosen e _ ih =>
    obtain ⟨v, _, e'⟩ := List.exists_of_findSome?_eq_some e
    exact fun hd _ _ => ih (find_all hd e') trivial trivial
  | «variable» hf ht =>
    intro _ _ _ _ _ hno
    cases ht with
    | broken => exact absurd (found_broken hf) (hno _ rfl)
    | _ => simp
  | reference _ _ _ _ ih => exact fun hd _ _ => ih hd trivial trivial
  | @referenceWith _ σ _ _ _ _ b _ _ hk hb _ ih =>
    intro hd _ _ ht hn hno
    obtain ⟨c, hc, hl⟩ := found_reach hk
    exact ih hd trivial trivial (ht.push (by rintro _ ⟨rfl⟩; exact hb) (by rintro _ ⟨rfl⟩; exact ⟨c, hc, leads_reach hl b rfl⟩)) (by simp)
      (by rintro l ⟨rfl⟩; simpa using hno σ rfl)
  | referenceWithout _ _ _ _ _ _ ih => exact fun hd _ _ => ih hd trivial trivial
  | referenceBroken _ _ hk => exact fun _ _ _ _ _ hno => absurd (found_broken hk) (hno _ rfl)
  | referenceNoData e _ => exact fun _ hj _ _ hn _ => absurd (by rw [e]; rfl) (refs hj (nodata rfl hn)).1
  | referenceValue _ _ _ _ ih => exact fun hd _ _ => ih hd trivial trivial
  | referenceValueBroken _ hk => exact fun _ _ _ _ _ hno => absurd (found_broken hk) (hno _ rfl)
  | referenceValueNoData e => exact fun _ hj _ _ hn _ => absurd (by rw [e]; rfl) (refs hj (nodata rfl hn)).2
  | rangeAbsent _ _ _ _ ih => exact fun hd _ _ => ih hd trivial trivial
  | @range d σ r s key id c l _ _ hk hc _ ih =>
    intro hd _ _ ht hn hno
    obtain ⟨b, hb, hl⟩ := found_reach hk
    obtain ⟨r, hr, hq⟩ := ht.from_data σ rfl
    refine ih hd trivial ⟨σ, rfl, fun e he => ?_⟩ ht hn hno
    cases e with
    | none => exact absurd he (hcl r hr c (reach_trans (hq b hb) (leads_reach hl c rfl)) l hc)
    | some e => exact ⟨e, rfl, wf.elem c l e hc he, b, hb, reach_trans (leads_reach hl c rfl) (.step (.elem hc he) .refl)⟩
  | @rangeOther d σ s key id v ht' _ hk hv =>
    intro _ hj _ ht _ _
    obtain ⟨b, hb, hl⟩ := found_reach hk
    obtain ⟨r, hr, hq⟩ := ht.from_data σ rfl
    exact absurd ((hP _ hj).1 r hr rfl key id ht' b (hq b hb) v hl) hv
  | rangeBroken _ _ hk => exact fun _ _ _ _ _ hno => absurd (found_broken hk) (hno _ rfl)
  | @loop d σ s r id n i e l _ _ ih1 ih2 =>
    rintro hd _ ⟨_, e', hj⟩ ht hn hno
    cases e'
    have := ih2 hd trivial ⟨σ, rfl, fun e he => hj e (by simp [he])⟩ ht hn hno
    cases r <;> simp_all [Out.after]
  | @loopPanic d σ id n i e l _ ih =>
    rintro hd _ ⟨_, e', hj⟩ ht hn hno
    cases e'
    obtain ⟨b, rfl, hb, hc⟩ := hj e (by simp)
    exact ih hd trivial trivial (ht.push (by rintro _ ⟨rfl⟩; exact hb) (by rintro _ ⟨rfl⟩; exact hc)) (by simp) (by rintro l ⟨rfl⟩; simpa using hno σ rfl)
  | conditionBroken _ hk => exact fun _ _ _ _ _ hno => absurd (found_broken hk) (hno _ rfl)
  | condition _ _ _ _ _ _ _ ih => exact fun hd _ _ => ih hd trivial trivial
  | _ => intros; simp

theorem executes_no_panic {x : Ext} {d : Doc} {h : Heap} {data : Option Nat} (hp : Proper h data) (hcl : ∀ a, data = some a → Clean h a)
    (hl : ∀ a, data = some a → d.All (LoopsOver h a)) (hn : data = none → d.All NeedsNoData) : ¬ Executes x d h data .panic := by
  have t := Tame.root hp
  intro q
  cases q with
  | nil q =>
    exact renders_no_panic hp.wf (a := none) (fun r e => by cases e) (P := NeedsNoData) (fun p hp => ⟨fun r e => (by cases e), fun _ => hp⟩) q (hn rfl) trivial trivial t
      (by simp) (fun l e => by cases e) rfl
  | data _ q =>
    exact renders_no_panic hp.wf hcl (P := LoopsOver h _) (fun p hp => ⟨fun r e => (by cases e; exact hp), fun e => (by cases e)⟩) q (hl _ rfl) trivial trivial t
      (by simp) (fun l e => by cases e; simp) rfl

end Xcore.V1.Template
