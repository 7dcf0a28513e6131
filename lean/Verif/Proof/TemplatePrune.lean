import Verif.Proof.TemplateTotal

/-!
# Boxes that no element names
-/

namespace Xcore.Template

open Xcore.Dataset

variable {used : Str → Bool}

theorem own_prune (d : Doc) : (d.prune used).own = d.own := by
  induction d with
  | nil => rfl
  | elem p r ih => simp only [Doc.prune, Doc.own, ih]
  | box n b r _ ih =>
    simp only [Doc.prune, Doc.own]
    split
    · simp only [Doc.own, ih]
    · exact ih

theorem find_prune {v : Str} (hv : used v = true) (d : Doc) : (d.prune used).find v = (d.find v).map (Doc.prune used) := by
  induction d with
  | nil => rfl
  | elem p r ih => simp only [Doc.prune, Doc.find, ih]
  | box n b r _ ih =>
    simp only [Doc.prune, Doc.find]
    by_cases ha : (namesOf n).any used = true
    · rw [if_pos ha]
      simp only [Doc.find, ih]
      cases r.find v with
      | some _ => rfl
      | none => simp only [Option.map_none, Option.none_or]; split <;> rfl
    · rw [if_neg ha, ih]
      have hm : v ∉ namesOf n := fun hm => ha (List.any_eq_true.2 ⟨v, hm, hv⟩)
      rw [if_neg hm, Option.or_none]

theorem lookup_prune {v : Str} (hv : used v = true) (sc : List Doc) :
    lookup (sc.map (Doc.prune used)) v = (lookup sc v).map (List.map (Doc.prune used)) := by
  induction sc with
  | nil => rfl
  | cons d up ih =>
    simp only [List.map_cons, lookup, find_prune hv]
    cases d.find v with
    | none => exact ih
    | some b => rfl

/-- The two scopes are the same up to boxes without a used name, and all elements use only used names. -/
structure Alike (used : Str → Bool) (sc sc' : List Doc) : Prop where
  same : sc.map (Doc.prune used) = sc'.map (Doc.prune used)
  names : ∀ d ∈ sc, (d.prune used).All (NamesOnly used)

theorem Alike.symm {sc sc' : List Doc} (h : Alike used sc sc') : Alike used sc' sc := by
  refine ⟨h.same.symm, fun d hd => ?_⟩
  have : d.prune used ∈ sc.map (Doc.prune used) := by rw [h.same]; exact List.mem_map_of_mem hd
  obtain ⟨e, he, heq⟩ := List.mem_map.1 this
  rw [← heq]
  exact h.names e he

theorem Alike.lookup {sc sc' : List Doc} (h : Alike used sc sc') {v : Str} (hv : used v = true) :
    (Template.lookup sc v = none ∧ Template.lookup sc' v = none) ∨
      ∃ s s', Template.lookup sc v = some s ∧ Template.lookup sc' v = some s' ∧ Alike used s s' := by
  have e : (Template.lookup sc v).map (List.map (Doc.prune used)) = (Template.lookup sc' v).map (List.map (Doc.prune used)) := by
    rw [← lookup_prune hv, ← lookup_prune hv, h.same]
  cases e1 : Template.lookup sc v with
  | none =>
    rw [e1] at e
    cases e2 : Template.lookup sc' v with
    | none => exact Or.inl ⟨rfl, rfl⟩
    | some s' => rw [e2] at e; cases e
  | some s =>
    rw [e1] at e
    cases e2 : Template.lookup sc' v with
    | none => rw [e2] at e; cases e
    | some s' =>
      rw [e2] at e
      simp only [Option.map_some, Option.some.injEq] at e
      refine Or.inr ⟨s, s', rfl, rfl, e, ?_⟩
      have hp := lookup_prune hv sc
      rw [e1] at hp
      have := (lookup_all (sc := sc.map (Doc.prune used)) (P := NamesOnly used) (by
        intro d hd
        obtain ⟨d', hd', rfl⟩ := List.mem_map.1 hd
        exact h.names d' hd') hp).2
      intro d hd
      exact this _ (List.mem_map_of_mem hd)

theorem Alike.findSome {sc sc' : List Doc} (h : Alike used sc sc') {names : List Str} (hn : ∀ v ∈ names, used v = true) :
    (names.findSome? (Template.lookup sc) = none ∧ names.findSome? (Template.lookup sc') = none) ∨
      ∃ s s', names.findSome? (Template.lookup sc) = some s ∧ names.findSome? (Template.lookup sc') = some s' ∧ Alike used s s' := by
  induction names with
  | nil => exact Or.inl ⟨rfl, rfl⟩
  | cons v names ih =>
    simp only [List.findSome?_cons]
    rcases h.lookup (hn v (by simp)) with ⟨e1, e2⟩ | ⟨s, s', e1, e2, ha⟩
    · rw [e1, e2]; exact ih fun v hv => hn v (by simp [hv])
    · rw [e1, e2]; exact Or.inr ⟨s, s', rfl, rfl, ha⟩

theorem Alike.no {sc sc' : List Doc} (h : Alike used sc sc') {v : Str} (hv : used v = true) (e : Template.lookup sc v = none) : Template.lookup sc' v = none := by
  rcases h.lookup hv with ⟨_, e2⟩ | ⟨s, _, e1, _⟩
  · exact e2
  · rw [e] at e1; cases e1

theorem Alike.ne {sc sc' : List Doc} (h : Alike used sc sc') {v : Str} (hv : used v = true) (e : Template.lookup sc v ≠ none) : Template.lookup sc' v ≠ none :=
  fun e' => e (h.symm.no hv e')

/-- The names a job uses are used. -/
def JobOk (used : Str → Bool) : Job → Prop
  | .document => True
  | .body l => ∀ p ∈ l, NamesOnly used p
  | .elem p => NamesOnly used p
  | .choose names => ∀ v ∈ names, used v = true
  | .loop id n _ _ => ∀ i, ∀ v ∈ rangeNames id i n, used v = true

theorem renders_prune {x : Ext} {lang : Option Language.Lang} {sc : List Doc} {job : Job} {σ : Option (List Nat)} {h h' : Heap} {s : Str}
    (r : Renders x lang sc job σ h h' s) : ∀ sc', Alike used sc sc' → JobOk used job → Renders x lang sc' job σ h h' s := by
  have none : ∀ {d key id : Str}, Target d key id → NamesOnly used ⟨.condition, d⟩ → used (id ++ b!".none") = true := by
    intro d key id ht hn
    have := hn _ (.conditionValue (text := b!"none") ht (by decide))
    simpa using this
  have array : ∀ {d key id : Str}, Target d key id → NamesOnly used ⟨.condition, d⟩ → used (id ++ b!".array") = true := by
    intro d key id ht hn
    have := hn _ (.conditionValue (text := b!"array") ht (by decide))
    simpa using this
  have two : ∀ {v w : Str}, used v = true → used w = true → JobOk used (.choose [v, w]) := by
    intro v w hv hw u hu
    simp only [List.mem_cons, List.not_mem_nil, or_false] at hu
    rcases hu with rfl | rfl <;> assumption
  have one : ∀ {v : Str}, used v = true → JobOk used (.choose [v]) := by
    intro v hv u hu
    simp only [List.mem_cons, List.not_mem_nil, or_false] at hu
    subst hu
    exact hv
  induction r with
  | @document sc _ _ _ _ _ ih =>
    intro sc' e _
    have hsame := e.same
    cases sc with
    | nil =>
      cases sc' with
      | nil => exact .document (ih [] e fun p hp => by cases hp)
      | cons => cases hsame
    | cons d up =>
    cases sc' with
    | nil => cases hsame
    | cons d' up' =>
      have hbody := ih (d' :: up') e (by
        have := own_all (e.names d (by simp))
        rwa [own_prune] at this)
      rw [List.map_cons, List.map_cons, List.cons.injEq] at hsame
      simp only [innermost] at hbody
      rw [← own_prune (used := used), hsame.1, own_prune] at hbody
      exact .document hbody
  | nil => intro sc' e _; exact .nil
  | cons _ _ ih1 ih2 => intro sc' e hj; exact .cons (ih1 sc' e (hj _ (by simp))) (ih2 sc' e fun p hp => hj p (by simp [hp]))
  | chosen hn _ ih =>
    intro sc' e hj
    rcases e.findSome hj with ⟨e1, _⟩ | ⟨s, s', e1, e2, ha⟩
    · rw [hn] at e1; cases e1
    · rw [hn] at e1; cases e1; exact .chosen e2 (ih s' ha trivial)
  | noChoice hn =>
    intro sc' e hj
    rcases e.findSome hj with ⟨_, e2⟩ | ⟨s, s', e1, _⟩
    · exact .noChoice e2
    · rw [hn] at e1; cases e1
  | text => intro sc' e _; exact .text
  | comment => intro sc' e _; exact .comment
  | language => intro sc' e _; exact .language
  | «variable» hv hs => intro sc' e _; exact .variable hv hs
  | reference a b c _ ih => intro sc' e hj; exact .reference a b c (ih sc' e (one (hj _ (.reference a c))))
  | referenceNone a b => intro sc' e hj; exact .referenceNone a (e.no (hj _ (.reference a (by simp))) b)
  | referenceWith a b c d _ ih =>
    intro sc' e hj
    have := hj _ (.reference a (by simp))
    exact .referenceWith a (e.ne this b) c d (ih sc' e (one this))
  | referenceWithout a b c d _ ih =>
    intro sc' e hj
    have := hj _ (.reference a (by simp))
    exact .referenceWithout a (e.ne this b) c d (ih sc' e (one this))
  | referenceValue a b c _ ih =>
    intro sc' e hj
    exact .referenceValue a b c (ih sc' e (two (hj _ (.referenceValue a)) (by simpa using hj _ (.referenceValue (text := []) a))))
  | rangeNothing a b => intro sc' e hj; exact .rangeNothing a (b.imp (e.no (hj _ (.range a))) fun e => e)
  | rangeEmpty a b c d _ ih => intro sc' e hj; exact .rangeEmpty a (e.ne (hj _ (.range a)) b) c d (ih sc' e (two (hj _ (.rangeNone a)) (hj _ (.range a))))
  | range a b c d f _ ih => intro sc' e hj; exact .range a (e.ne (hj _ (.range a)) b) c d f (ih sc' e fun i v hv => hj _ (.rangeItem a hv))
  | loopEnd => intro sc' e _; exact .loopEnd
  | loop a _ _ ih1 ih2 => intro sc' e hj; exact .loop a (ih1 sc' e (hj _)) (ih2 sc' e hj)
  | conditionNone a b c _ ih => intro sc' e hj; exact .conditionNone a b c (ih sc' e (two (none a hj) (hj _ (.condition a))))
  | conditionNothing a b c d f => intro sc' e hj; exact .conditionNothing a b c d (e.no (hj _ (.condition a)) f)
  | conditionValue a b c d f g _ ih =>
    intro sc' e hj
    exact .conditionValue a b c d f (e.ne (hj _ (.condition a)) g) (ih sc' e (two (hj _ (.conditionValue a f)) (hj _ (.condition a))))
  | conditionDataset a b c d _ g ih =>
    intro sc' e hj
    exact .conditionDataset a b c (e.ne (hj _ (.condition a)) d) (ih sc' e (two (array a hj) (hj _ (.condition a)))) g
  | dump a b c d => intro sc' e _; exact .dump a b c d
  | dumpEmpty a => intro sc' e _; exact .dumpEmpty a
  | dumpNothing a => intro sc' e _; exact .dumpNothing a
  | unknown a => intro sc' e _; exact .unknown a

theorem executes_prune {x : Ext} {d d' : Doc} (e : d.prune used = d'.prune used) (hn : (d.prune used).All (NamesOnly used)) {data : Option Nat} {h h' : Heap}
    {s : Str} (r : Executes x d data h h' s) : Executes x d' data h h' s := by
  have ha : Alike used [d] [d'] := ⟨by simp [e], by simpa using hn⟩
  cases r with
  | data hl r => exact .data hl (renders_prune r [d'] ha trivial)
  | nil r => exact .nil (renders_prune r [d'] ha trivial)

end Xcore.Template
