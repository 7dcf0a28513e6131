import Verif.Spec.V1.TemplateNames

namespace Xcore.V1.Template

open Xcore.Template (Kind Param Doc parts Target rangeNames)
open Xcore.Dataset (Ext Val)
open Xcore.V1.Dataset

theorem named_congr {d d' : Doc} (e : d.own = d'.own) {v : Str} : NamedIn d v ↔ NamedIn d' v := by simp only [NamedIn, e]

theorem alike_refl (d : Doc) : Alike d d := by
  suffices H : ∀ n (d : Doc), sizeOf d < n → Alike d d from H _ d (Nat.lt_succ_self _)
  intro n
  induction n with
  | zero => intro d h; omega
  | succ n ih =>
    intro d hd
    refine .mk (fun v => (d.find v).getD .nil) rfl (fun v _ => Iff.rfl) (fun v b _ e => by rw [e]; rfl) fun v b hn e => ?_
    rw [e]
    refine ih b ?_
    have : sizeOf b < sizeOf d := by
      clear ih hd hn
      induction d with
      | nil => simp [Doc.find] at e
      | elem p r ih => simp only [Doc.find] at e; have := ih e; simp; omega
      | box m c r _ ih =>
        simp only [Doc.find] at e
        cases er : r.find v with
        | some b' => rw [er] at e; simp at e; subst e; have := ih er; simp; omega
        | none =>
          rw [er] at e
          simp at e
          rw [← e.2]
          simp
          omega
    omega

theorem alike_symm {d d' : Doc} (a : Alike d d') : Alike d' d := by
  induction a with
  | @mk d d' box own none some _ ih =>
    have back : ∀ v b, NamedIn d' v → d'.find v = Option.some b → ∃ b', d.find v = Option.some b' ∧ NamedIn d v ∧ b = box v := by
      intro v b hn e
      have hn' := (named_congr own).2 hn
      cases ed : d.find v with
      | none => rw [(none v hn').1 ed] at e; cases e
      | some b' => rw [some v b' hn' ed] at e; exact ⟨b', rfl, hn', (Option.some.inj e).symm⟩
    refine .mk (fun v => (d.find v).getD .nil) own.symm (fun v hn => (none v ((named_congr own).2 hn)).symm) (fun v b hn e => ?_) fun v b hn e => ?_
    · obtain ⟨b', e', -⟩ := back v b hn e
      rw [e']; rfl
    · obtain ⟨b', e', hn', rfl⟩ := back v b hn e
      rw [e']
      exact ih v b' hn' e'

/-- The names the job may choose are named in the document. -/
def Job.In (d : Doc) : Job → Prop
  | .document => True
  | .body l => ∀ p ∈ l, ∀ v, Names p v → NamedIn d v
  | .elem p => ∀ v, Names p v → NamedIn d v
  | .choose names => ∀ v ∈ names, NamedIn d v
  | .loop id _ _ _ => ∀ i n, ∀ v ∈ rangeNames id i n, NamedIn d v

theorem find_alike {d d' : Doc} (a : Alike d d') {v : Str} (hv : NamedIn d v) :
    (d.find v = none ∧ d'.find v = none) ∨ ∃ b b', d.find v = some b ∧ d'.find v = some b' ∧ Alike b b' := by
  cases a with
  | mk box own none some al =>
    cases e : d.find v with
    | none => exact Or.inl ⟨rfl, (none v hv).1 e⟩
    | some b => exact Or.inr ⟨b, box v, rfl, some v b hv e, al v b hv e⟩

theorem choose_alike {d d' : Doc} (a : Alike d d') {names : List Str} (hn : ∀ v ∈ names, NamedIn d v) :
    (names.findSome? d.find = none ∧ names.findSome? d'.find = none) ∨
    ∃ b b', names.findSome? d.find = some b ∧ names.findSome? d'.find = some b' ∧ Alike b b' := by
  induction names with
  | nil => exact Or.inl ⟨rfl, rfl⟩
  | cons v names ih =>
    rcases find_alike a (hn v (by simp)) with ⟨e, e'⟩ | ⟨b, b', e, e', al⟩
    · rw [List.findSome?_cons, List.findSome?_cons, e, e']
      exact ih fun v hv => hn v (by simp [hv])
    · rw [List.findSome?_cons, List.findSome?_cons, e, e']
      exact Or.inr ⟨b, b', rfl, rfl, al⟩

theorem ne_alike {d d' : Doc} (a : Alike d d') {v : Str} (hv : NamedIn d v) (e : d.find v ≠ none) : d'.find v ≠ none := by
  rcases find_alike a hv with ⟨q, -⟩ | ⟨b, b', -, q, -⟩
  · exact absurd q e
  · rw [q]; simp

theorem none_alike {d d' : Doc} (a : Alike d d') {v : Str} (hv : NamedIn d v) (e : d.find v = none) : d'.find v = none := by
  rcases find_alike a hv with ⟨-, q⟩ | ⟨b, b', q, -, -⟩
  · exact q
  · rw [q] at e; cases e

theorem renders_alike {x : Ext} {lang : Option Language.Lang} {h : Heap} {d : Doc} {job : Job} {σ : Option (List (Option Nat))} {r : Out}
    (q : Renders x lang h d job σ r) : ∀ d', Alike d d' → job.In d → Renders x lang h d' job σ r := by
  induction q with
  | @document d l σ r e _ ih =>
    intro d' a _
    cases e
    have own : d.own = d'.own := by cases a with | mk _ own _ _ _ => exact own
    refine .document rfl ?_
    show Renders x lang h d' (.body d'.own) σ r
    rw [← own]
    exact ih d' a fun p hp v hv => ⟨p, hp, hv⟩
  | nil => intro d' _ _; exact .nil
  | cons _ _ ih1 ih2 => intro d' a hj; exact .cons (ih1 d' a (hj _ (by simp))) (ih2 d' a fun p hp => hj p (by simp [hp]))
  | consPanic _ ih => intro d' a hj; exact .consPanic (ih d' a (hj _ (by simp)))
  | chosen e _ ih =>
    intro d' a hj
    rcases choose_alike a hj with ⟨q, -⟩ | ⟨b, b', q, q', al⟩
    · rw [q] at e; cases e
    · rw [q] at e
      cases e
      exact .chosen q' (ih b' al trivial)
  | noChoice e =>
    intro d' a hj
    rcases choose_alike a hj with ⟨-, q⟩ | ⟨b, b', q, -, -⟩
    · exact .noChoice q
    · rw [q] at e; cases e
  | text => intro d' _ _; exact .text
  | comment => intro d' _ _; exact .comment
  | language => intro d' _ _; exact .language
  | variableNoData => intro d' _ _; exact .variableNoData
  | «variable» f t => intro d' _ _; exact .variable f t
  | reference e n1 n2 _ ih =>
    intro d' a hj
    exact .reference e n1 n2 (ih d' a fun v hv => by simp at hv; subst hv; exact hj _ (.reference e n2))
  | referenceNone e n =>
    intro d' a hj
    exact .referenceNone e (none_alike a (hj _ (.reference e (by simp))) n)
  | referenceWith e n f i _ ih =>
    intro d' a hj
    have hv := hj _ (.reference e (by simp))
    exact .referenceWith e (ne_alike a hv n) f i (ih d' a fun v q => by simp at q; subst q; exact hv)
  | referenceWithout e n f b i _ ih =>
    intro d' a hj
    have hv := hj _ (.reference e (by simp))
    exact .referenceWithout e (ne_alike a hv n) f b i (ih d' a fun v q => by simp at q; subst q; exact hv)
  | referenceBroken e n f =>
    intro d' a hj
    exact .referenceBroken e (ne_alike a (hj _ (.reference e (by simp))) n) f
  | referenceNoData e n =>
    intro d' a hj
    exact .referenceNoData e (ne_alike a (hj _ (.reference e (by simp))) n)
  | @referenceValue _ _ _ _ _ _ pre _ _ e f t _ ih =>
    intro d' a hj
    refine .referenceValue e f t (ih d' a fun v q => ?_)
    simp at q
    rcases q with rfl | rfl
    · exact hj _ (.referenceValue e)
    · have := hj _ (.referenceValue (text := []) e)
      simpa using this
  | referenceValueBroken e f => intro d' _ _; exact .referenceValueBroken e f
  | referenceValueNoData e => intro d' _ _; exact .referenceValueNoData e
  | rangeNothing t n =>
    intro d' a hj
    exact .rangeNothing t (n.imp (none_alike a (hj _ (.range t))) id)
  | rangeAbsent t n f _ ih =>
    intro d' a hj
    refine .rangeAbsent t (ne_alike a (hj _ (.range t)) n) f (ih d' a fun v q => ?_)
    simp only [List.mem_cons, List.not_mem_nil, or_false] at q
    rcases q with rfl | rfl
    · exact hj _ (.rangeNone t)
    · exact hj _ (.range t)
  | range t n f i _ ih =>
    intro d' a hj
    exact .range t (ne_alike a (hj _ (.range t)) n) f i (ih d' a fun i n v hv => hj _ (.rangeItem t hv))
  | rangeOther t n f i => intro d' a hj; exact .rangeOther t (ne_alike a (hj _ (.range t)) n) f i
  | rangeBroken t n f => intro d' a hj; exact .rangeBroken t (ne_alike a (hj _ (.range t)) n) f
  | loopEnd => intro d' _ _; exact .loopEnd
  | loop _ _ ih1 ih2 => intro d' a hj; exact .loop (ih1 d' a (hj _ _)) (ih2 d' a hj)
  | loopPanic _ ih => intro d' a hj; exact .loopPanic (ih d' a (hj _ _))
  | conditionNoData => intro d' _ _; exact .conditionNoData
  | conditionBroken t f => intro d' _ _; exact .conditionBroken t f
  | conditionNothing t f b n => intro d' a hj; exact .conditionNothing t f b (none_alike a (hj _ (.condition t)) n)
  | conditionAbsent t f => intro d' _ _; exact .conditionAbsent t f
  | conditionDataset t f i => intro d' _ _; exact .conditionDataset t f i
  | conditionEmpty t n f s => intro d' a hj; exact .conditionEmpty t (ne_alike a (hj _ (.condition t)) n) f s
  | condition t n f i s ne _ ih =>
    intro d' a hj
    refine .condition t (ne_alike a (hj _ (.condition t)) n) f i s ne (ih d' a fun v q => ?_)
    simp only [List.mem_cons, List.not_mem_nil, or_false] at q
    rcases q with rfl | rfl
    · exact hj _ (.conditionValue t ne)
    · exact hj _ (.condition t)
  | dump s l g => intro d' _ _; exact .dump s l g
  | dumpNil l => intro d' _ _; exact .dumpNil l
  | dumpNothing l => intro d' _ _; exact .dumpNothing l
  | unknown f => intro d' _ _; exact .unknown f

theorem executes_alike {x : Ext} {h : Heap} {d d' : Doc} (a : Alike d d') {data : Option Nat} {r : Out} :
    Executes x d h data r ↔ Executes x d' h data r := by
  have one : ∀ {d d' : Doc}, Alike d d' → Executes x d h data r → Executes x d' h data r := by
    intro d d' a q
    cases q with
    | data l q => exact .data l (renders_alike q d' a trivial)
    | nil q => exact .nil (renders_alike q d' a trivial)
  exact ⟨one a, one (alike_symm a)⟩

end Xcore.V1.Template
