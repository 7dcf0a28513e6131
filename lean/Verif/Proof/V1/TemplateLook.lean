import Verif.Spec.V1.TemplateLook
import Verif.Proof.V1.TemplateAdd

/-! Templates of version 1 that look the same render the same (C115). -/

namespace Xcore.V1.Template

open Xcore.Template (Kind Param Doc parts Target rangeNames)
open Xcore.Dataset (Ext Val)
open Xcore.V1.Dataset

section

variable {D D' : Type} {own : D → Option (List Param)} {look : D → Str → Option D} {own' : D' → Option (List Param)} {look' : D' → Str → Option D'}
  {R : D → D' → Prop}

/-- An element of the document may choose the name. -/
def Chosen (own : D → Option (List Param)) (d : D) (v : Str) : Prop := ∃ l p, own d = some l ∧ p ∈ l ∧ Names p v

/-- The names the job may choose are those that an element of the document may choose. -/
def Job.Within (own : D → Option (List Param)) (d : D) : Job → Prop
  | .document => True
  | .body l => ∀ p ∈ l, ∀ v, Names p v → Chosen own d v
  | .elem p => ∀ v, Names p v → Chosen own d v
  | .choose names => ∀ v ∈ names, Chosen own d v
  | .loop id _ _ _ => ∀ i n, ∀ v ∈ rangeNames id i n, Chosen own d v

/-- Documents of any sort that look the same. -/
structure Pairs (own : D → Option (List Param)) (look : D → Str → Option D) (own' : D' → Option (List Param)) (look' : D' → Str → Option D') (R : D → D' → Prop) : Prop where
  same : ∀ d d', R d d' → own d = own' d'
  names : ∀ d d' v, R d d' → Chosen own d v → (look d v = none ∧ look' d' v = none) ∨ ∃ b b', look d v = some b ∧ look' d' v = some b' ∧ R b b'

theorem Pairs.flip (hl : Pairs own look own' look' R) : Pairs own' look' own look (fun a b => R b a) where
  same d d' r := (hl.same d' d r).symm
  names d d' v r hc := by
    obtain ⟨l, p, e, hp, hv⟩ := hc
    rcases hl.names d' d v r ⟨l, p, (hl.same d' d r).trans e, hp, hv⟩ with ⟨a, b⟩ | ⟨a, b, ea, eb, q⟩
    · exact Or.inl ⟨b, a⟩
    · exact Or.inr ⟨b, a, eb, ea, q⟩

theorem Pairs.choose_pair (hl : Pairs own look own' look' R) {d : D} {d' : D'} (a : R d d') {names : List Str} (hn : ∀ v ∈ names, Chosen own d v) :
    (names.findSome? (look d) = none ∧ names.findSome? (look' d') = none) ∨
    ∃ b b', names.findSome? (look d) = some b ∧ names.findSome? (look' d') = some b' ∧ R b b' := by
  induction names with
  | nil => exact Or.inl ⟨rfl, rfl⟩
  | cons v names ih =>
    rcases hl.names d d' v a (hn v (by simp)) with ⟨e, e'⟩ | ⟨b, b', e, e', al⟩
    · rw [List.findSome?_cons, List.findSome?_cons, e, e']
      exact ih fun v hv => hn v (by simp [hv])
    · rw [List.findSome?_cons, List.findSome?_cons, e, e']
      exact Or.inr ⟨b, b', rfl, rfl, al⟩

theorem Pairs.ne_pair (hl : Pairs own look own' look' R) {d : D} {d' : D'} (a : R d d') {v : Str} (hv : Chosen own d v) (e : look d v ≠ none) : look' d' v ≠ none := by
  rcases hl.names d d' v a hv with ⟨q, -⟩ | ⟨b, b', -, q, -⟩
  · exact absurd q e
  · rw [q]; simp

theorem Pairs.none_pair (hl : Pairs own look own' look' R) {d : D} {d' : D'} (a : R d d') {v : Str} (hv : Chosen own d v) (e : look d v = none) : look' d' v = none := by
  rcases hl.names d d' v a hv with ⟨-, q⟩ | ⟨b, b', q, -, -⟩
  · exact q
  · rw [q] at e; cases e

theorem Pairs.renders (hl : Pairs own look own' look' R) {x : Ext} {lang : Option Language.Lang} {h : Heap} {d : D} {job : Job} {σ : Option (List (Option Nat))} {r : Out}
    (q : RendersIn own look x lang h d job σ r) : ∀ d', R d d' → job.Within own d → RendersIn own' look' x lang h d' job σ r := by
  induction q with
  | @document d l σ r e _ ih =>
    intro d' a _
    exact .document ((hl.same d d' a).symm.trans e) (ih d' a fun p hp v hv => ⟨l, p, e, hp, hv⟩)
  | nil => intro d' _ _; exact .nil
  | cons _ _ ih1 ih2 => intro d' a hj; exact .cons (ih1 d' a (hj _ (by simp))) (ih2 d' a fun p hp => hj p (by simp [hp]))
  | consPanic _ ih => intro d' a hj; exact .consPanic (ih d' a (hj _ (by simp)))
  | chosen e _ ih =>
    intro d' a hj
    rcases hl.choose_pair a hj with ⟨q, -⟩ | ⟨b, b', q, q', al⟩
    · rw [q] at e; cases e
    · rw [q] at e
      cases e
      exact .chosen q' (ih b' al trivial)
  | noChoice e =>
    intro d' a hj
    rcases hl.choose_pair a hj with ⟨-, q⟩ | ⟨b, b', q, -, -⟩
    · exact .noChoice q
    · rw [q] at e; cases e
  | text => intro d' _ _; exact .text
  | comment => intro d' _ _; exact .comment
  | language => intro d' _ _; exact .language
  | variableNoData => intro d' _ _; exact .variableNoData
  | «variable» f t => intro d' _ _; exact .variable f t
  | reference e n1 n2 _ ih =>
    intro d' a hj
    exact .reference e n1 n2 (ih d' a fun v hv => by simp at hv; subst hv; exact hj _ (.reference e n2))
  | referenceNone e n =>
    intro d' a hj
    exact .referenceNone e (hl.none_pair a (hj _ (.reference e (by simp))) n)
  | referenceWith e n f i _ ih =>
    intro d' a hj
    have hv := hj _ (.reference e (by simp))
    exact .referenceWith e (hl.ne_pair a hv n) f i (ih d' a fun v q => by simp at q; subst q; exact hv)
  | referenceWithout e n f b i _ ih =>
    intro d' a hj
    have hv := hj _ (.reference e (by simp))
    exact .referenceWithout e (hl.ne_pair a hv n) f b i (ih d' a fun v q => by simp at q; subst q; exact hv)
  | referenceBroken e n f =>
    intro d' a hj
    exact .referenceBroken e (hl.ne_pair a (hj _ (.reference e (by simp))) n) f
  | referenceNoData e n =>
    intro d' a hj
    exact .referenceNoData e (hl.ne_pair a (hj _ (.reference e (by simp))) n)
  | @referenceValue _ _ _ _ _ _ pre _ _ e f t _ ih =>
    intro d' a hj
    refine .referenceValue e f t (ih d' a fun v q => ?_)
    simp at q
    rcases q with rfl | rfl
    · exact hj _ (.referenceValue e)
    · have := hj _ (.referenceValue (text := []) e)
      simpa using this
  | referenceValueBroken e f => intro d' _ _; exact .referenceValueBroken e f
  | referenceValueNoData e => intro d' _ _; exact .referenceValueNoData e
  | rangeNothing t n =>
    intro d' a hj
    exact .rangeNothing t (n.imp (hl.none_pair a (hj _ (.range t))) id)
  | rangeAbsent t n f _ ih =>
    intro d' a hj
    refine .rangeAbsent t (hl.ne_pair a (hj _ (.range t)) n) f (ih d' a fun v q => ?_)
    simp only [List.mem_cons, List.not_mem_nil, or_false] at q
    rcases q with rfl | rfl
    · exact hj _ (.rangeNone t)
    · exact hj _ (.range t)
  | range t n f i _ ih =>
    intro d' a hj
    exact .range t (hl.ne_pair a (hj _ (.range t)) n) f i (ih d' a fun i n v hv => hj _ (.rangeItem t hv))
  | rangeOther t n f i => intro d' a hj; exact .rangeOther t (hl.ne_pair a (hj _ (.range t)) n) f i
  | rangeBroken t n f => intro d' a hj; exact .rangeBroken t (hl.ne_pair a (hj _ (.range t)) n) f
  | loopEnd => intro d' _ _; exact .loopEnd
  | loop _ _ ih1 ih2 => intro d' a hj; exact .loop (ih1 d' a (hj _ _)) (ih2 d' a hj)
  | loopPanic _ ih => intro d' a hj; exact .loopPanic (ih d' a (hj _ _))
  | conditionNoData => intro d' _ _; exact .conditionNoData
  | conditionBroken t f => intro d' _ _; exact .conditionBroken t f
  | conditionNothing t f b n => intro d' a hj; exact .conditionNothing t f b (hl.none_pair a (hj _ (.condition t)) n)
  | conditionAbsent t f => intro d' _ _; exact .conditionAbsent t f
  | conditionDataset t f i => intro d' _ _; exact .conditionDataset t f i
  | conditionEmpty t n f s => intro d' a hj; exact .conditionEmpty t (hl.ne_pair a (hj _ (.condition t)) n) f s
  | condition t n f i s ne _ ih =>
    intro d' a hj
    refine .condition t (hl.ne_pair a (hj _ (.condition t)) n) f i s ne (ih d' a fun v q => ?_)
    simp only [List.mem_cons, List.not_mem_nil, or_false] at q
    rcases q with rfl | rfl
    · exact hj _ (.conditionValue t ne)
    · exact hj _ (.condition t)
  | dump s l g => intro d' _ _; exact .dump s l g
  | dumpNil l => intro d' _ _; exact .dumpNil l
  | dumpNothing l => intro d' _ _; exact .dumpNothing l
  | unknown f => intro d' _ _; exact .unknown f

theorem Pairs.executes (hl : Pairs own look own' look' R) {x : Ext} {h : Heap} {d : D} {d' : D'} (a : R d d') {data : Option Nat} {r : Out} :
    ExecutesIn own look x d h data r ↔ ExecutesIn own' look' x d' h data r :=
  ⟨fun q => q.imp fun _ _ q => hl.renders q _ a trivial, fun q => q.imp fun _ _ q => hl.flip.renders q _ a trivial⟩

end

theorem LookTheSame.pairs {th th' : THeap} {R : Nat → Nat → Prop} (hl : LookTheSame th th' R) :
    Pairs (fun t => some (elements th t)) (Registered th) (fun t => some (elements th' t)) (Registered th') R where
  same t t' r := by
    obtain ⟨o, o', e, e', q⟩ := hl.same t t' r
    simp only [elements, e, e', Option.bind_some, q]
  names t t' v r hc := by
    obtain ⟨l, p, e, hp, hv⟩ := hc
    cases e
    have := hl.names t t' p v r hp hv
    rw [getTemplate_registered, getTemplate_registered] at this
    exact this

/-- The same with a bound on the depth of nested templates. -/
theorem LookTheSame.pairsN {th th' : THeap} {R : Nat → Nat → Prop} (hl : LookTheSame th th' R) :
    Pairs (ownN th) (lookN th) (ownN th') (lookN th') (fun d d' => d.1 = d'.1 ∧ R d.2 d'.2) where
  same d d' r := by
    obtain ⟨n, t⟩ := d
    obtain ⟨n', t'⟩ := d'
    obtain ⟨rfl, r⟩ := r
    have := hl.pairs.same t t' r
    simp only [Option.some.injEq] at this
    simp only [ownN, this]
  names d d' v r hc := by
    obtain ⟨n, t⟩ := d
    obtain ⟨n', t'⟩ := d'
    obtain ⟨rfl, r⟩ := r
    obtain ⟨l, p, e, hp, hv⟩ := hc
    have e : l = elements th t := by
      simp only [ownN] at e
      split at e
      · cases e
      · exact (Option.some.inj e).symm
    subst e
    rcases hl.pairs.names t t' v r ⟨_, p, rfl, hp, hv⟩ with ⟨a, b⟩ | ⟨a, b, ea, eb, q⟩
    · exact Or.inl ⟨by simp [lookN, a], by simp [lookN, b]⟩
    · exact Or.inr ⟨(n - 1, a), (n - 1, b), by simp [lookN, ea], by simp [lookN, eb], rfl, q⟩

theorem outOf_inj {r r' : Res Str} (h : ∀ o, outOf r = some o ↔ outOf r' = some o) : r = r' := by
  have h : outOf r = outOf r' := by
    cases e : outOf r with
    | some o => exact ((h o).1 e).symm
    | none =>
      cases e' : outOf r' with
      | none => rfl
      | some o => rw [(h o).2 e'] at e; cases e
  cases r <;> cases r' <;> simp [outOf] at h ⊢
  exact h

theorem LookTheSame.execute {th th' : THeap} {R : Nat → Nat → Prop} (hl : LookTheSame th th' R) {t t' : Nat} (r : R t t') (hu : Usable th t) (hu' : Usable th' t') (x : Ext)
    (n : Nat) {h : Heap} {data : Option Nat} (hp : Proper h data) : execute x th n t h data = execute x th' n t' h data :=
  outOf_inj fun o => by rw [← execute_meets_n hu hp, ← execute_meets_n hu' hp]; exact hl.pairsN.executes (d := (n, t)) (d' := (n, t')) ⟨rfl, r⟩

end Xcore.V1.Template
