import Verif.Proof.V1.TemplateNames
import Verif.Proof.V1.Page
import Verif.Proof.V1.TemplateSharp

/-!
# Boxes that no element names (C115)
-/

namespace Xcore.V1.Template

open Xcore.Template (Kind Param Doc namesOf)
open Xcore.Dataset (Ext Val)
open Xcore.V1.Dataset

/-- **C115** Texts with the same elements, in which boxes that the elements beside them may choose are alike, render the same for all data: with the
same text, or both with a panic, or (on cyclic data) both without end. Boxes whose names no element beside them can choose do not matter, whatever is
in them. -/
theorem C115_only_named_boxes_matter {s s' : Str} {d d' : Doc} (hm : Means s d) (hm' : Means s' d') (ha : Alike d d') {th th1 th' th1' : THeap} {t t' : Nat}
    (e : newFromString th s = (th1, some t)) (e' : newFromString th' s' = (th1', some t')) (x : Ext) {h : Heap} {data : Option Nat} (hp : Proper h data)
    {n n' : Nat} (hn : nesting d < n) (hn' : nesting d' < n') : execute x th1 n t h data = execute x th1' n' t' h data := by
  have m := execute_meets (x := x) (Xcore.V1.Page.new_compiled hm e) hp hn
  have m' := execute_meets (x := x) (Xcore.V1.Page.new_compiled hm' e') hp hn'
  have q := fun r => executes_alike (x := x) (h := h) ha (data := data) (r := r)
  generalize execute x th1 n t h data = r1 at m ⊢
  generalize execute x th1' n' t' h data = r2 at m' ⊢
  cases r1 with
  | ok o =>
    have p := (q _).1 ((m _).2 rfl)
    cases r2 with
    | ok o' => cases (m' _).1 p; rfl
    | panic => cases (m' _).1 p
    | diverge => exact absurd p (m' _)
  | panic =>
    have p := (q _).1 ((m _).2 rfl)
    cases r2 with
    | ok o' => cases (m' _).1 p
    | panic => rfl
    | diverge => exact absurd p (m' _)
  | diverge =>
    cases r2 with
    | ok o' => exact absurd ((q _).2 ((m' _).2 rfl)) (m _)
    | panic => exact absurd ((q _).2 ((m' _).2 rfl)) (m _)
    | diverge => rfl

/-- **C115** In particular a box more, at any place of the text, does not matter if no element of the text at its level can choose one of its names: also
if elements in other boxes name it. -/
theorem C115_box_more {s s' : Str} {d d' : Doc} (hm : Means s d) (hm' : Means s' d') (ho : d'.own = d.own)
    (hf : ∀ v, d'.find v ≠ d.find v → ∀ p ∈ d.own, ¬ Names p v) {th th1 th' th1' : THeap} {t t' : Nat}
    (e : newFromString th s = (th1, some t)) (e' : newFromString th' s' = (th1', some t')) (x : Ext) {h : Heap} {data : Option Nat} (hp : Proper h data)
    {n n' : Nat} (hn : nesting d < n) (hn' : nesting d' < n') : execute x th1 n t h data = execute x th1' n' t' h data := by
  refine C115_only_named_boxes_matter hm hm' ?_ e e' x hp hn hn'
  have same : ∀ v, NamedIn d v → d'.find v = d.find v := by
    intro v ⟨p, hp, hv⟩
    exact Classical.byContradiction fun ne => hf v ne p hp hv
  refine .mk (fun v => (d.find v).getD .nil) ho.symm (fun v hv => by rw [same v hv]) (fun v b hv e => by rw [same v hv, e]; rfl) fun v b hv e => ?_
  rw [e]
  exact alike_refl b

/-- **C115** Where boxes stand among the elements does not matter: texts with the same elements that have the same box under every name render the same. -/
theorem C115_place_of_boxes {s s' : Str} {d d' : Doc} (hm : Means s d) (hm' : Means s' d') (ho : d'.own = d.own) (hf : ∀ v, d'.find v = d.find v)
    {th th1 th' th1' : THeap} {t t' : Nat} (e : newFromString th s = (th1, some t)) (e' : newFromString th' s' = (th1', some t')) (x : Ext) {h : Heap}
    {data : Option Nat} (hp : Proper h data) {n n' : Nat} (hn : nesting d < n) (hn' : nesting d' < n') :
    execute x th1 n t h data = execute x th1' n' t' h data :=
  C115_box_more hm hm' ho (fun v ne => absurd (hf v) ne) e e' x hp hn hn'

/-- A text with its box in front, and one with the box behind. -/
example : ∃ d d' : Doc, Means b!"[[b]]B[[]]<&&b&&>" d ∧ Means b!"<&&b&&>[[b]]B[[]]" d' ∧ d'.own = d.own ∧ (∀ v, d'.find v = d.find v) ∧ d ≠ d' := by
  refine ⟨.box b!"b" (.elem ⟨.string, b!"B"⟩ .nil) <| .elem ⟨.string, b!"<"⟩ <| .elem ⟨.reference, b!"b"⟩ <| .elem ⟨.string, b!">"⟩ .nil,
    .elem ⟨.string, b!"<"⟩ <| .elem ⟨.reference, b!"b"⟩ <| .elem ⟨.string, b!">"⟩ <| .box b!"b" (.elem ⟨.string, b!"B"⟩ .nil) .nil, ?_, ?_, rfl, fun v => rfl, by decide⟩
  · obtain ⟨l, h, e⟩ := lex_reads b!"[[b]]B[[]]<&&b&&>"
    exact ⟨by simp [Doc.Plain], l, h, by rw [← e]; decide +kernel⟩
  · obtain ⟨l, h, e⟩ := lex_reads b!"<&&b&&>[[b]]B[[]]"
    exact ⟨by simp [Doc.Plain], l, h, by rw [← e]; decide +kernel⟩

/-- The elements of this text name only `b`. -/
def usesB : Doc := .elem ⟨.reference, b!"b"⟩ <| .box b!"b" (.elem ⟨.string, b!"<"⟩ <| .elem ⟨.reference, b!"a"⟩ <| .elem ⟨.string, b!">"⟩ .nil) .nil

/-- The box `a` is named in the box `b`, but not beside it. -/
def usesBmore : Doc := .elem ⟨.reference, b!"b"⟩ <| .box b!"a" (.elem ⟨.string, b!"A"⟩ .nil) <|
  .box b!"b" (.elem ⟨.string, b!"<"⟩ <| .elem ⟨.reference, b!"a"⟩ <| .elem ⟨.string, b!">"⟩ .nil) .nil

theorem usesB_names {p : Param} (hp : p ∈ usesB.own) {v : Str} (hv : Names p v) : v = b!"b" := by
  simp [usesB, Doc.own] at hp
  subst hp
  have : Xcore.Template.parts b!"b" = [b!"b"] := by decide +kernel
  cases hv with
  | reference e _ => rw [this] at e; cases e; rfl
  | referenceValue e => rw [this] at e; cases e

/-- Such texts. -/
example : Means b!"&&b&&[[b]]<&&a&&>[[]]" usesB ∧ Means b!"&&b&&[[a]]A[[]][[b]]<&&a&&>[[]]" usesBmore ∧ usesBmore.own = usesB.own ∧
    (∀ v, usesBmore.find v ≠ usesB.find v → ∀ p ∈ usesB.own, ¬ Names p v) ∧ usesBmore.find b!"a" ≠ usesB.find b!"a" := by
  refine ⟨?_, ?_, rfl, fun v ne p hp hv => ?_, by decide +kernel⟩
  · obtain ⟨l, h, e⟩ := lex_reads b!"&&b&&[[b]]<&&a&&>[[]]"
    exact ⟨by simp [usesB, Doc.Plain], l, h, by rw [← e]; decide +kernel⟩
  · obtain ⟨l, h, e⟩ := lex_reads b!"&&b&&[[a]]A[[]][[b]]<&&a&&>[[]]"
    exact ⟨by simp [usesBmore, Doc.Plain], l, h, by rw [← e]; decide +kernel⟩
  · cases usesB_names hp hv
    exact ne (by decide +kernel)

/-- Both render `<>`, for all data; in version 2, where boxes see those around them, the second renders `<A>`. -/
example (x : Ext) (h : Heap) : execute x (newFromString [] b!"&&b&&[[b]]<&&a&&>[[]]").1 2 0 h none = .ok b!"<>" ∧
    execute x (newFromString [] b!"&&b&&[[a]]A[[]][[b]]<&&a&&>[[]]").1 2 0 h none = .ok b!"<>" ∧
    Xcore.Template.execute x (Xcore.Template.newFromString [] b!"&&b&&[[a]]A[[]][[b]]<&&a&&>[[]]").1 3 0 [] none = .ok ([], b!"<A>") :=
  ⟨rfl, rfl, rfl⟩

/-- **C115** A name counts as soon as data may lead to it: the element `??v:b??` does not contain the name `b.x`, and yet a box of that name changes the page. -/
theorem C115_names_from_data : ∃ (s s' : Str) (d d' : Doc) (th th' : THeap) (t t' : Nat) (h : Heap) (p : Param), Means s d ∧ Means s' d' ∧ d'.own = d.own ∧
    d'.find b!"b.x" ≠ d.find b!"b.x" ∧ p ∈ d.own ∧ Names p b!"b.x" ∧ newFromString [] s = (th, some t) ∧ newFromString [] s' = (th', some t') ∧ Proper h (some 0) ∧
    ∀ x, execute x th 2 t h (some 0) = .ok b!"B" ∧ execute x th' 2 t' h (some 0) = .ok b!"X" := by
  refine ⟨b!"??v:b??[[b]]B[[]]", b!"??v:b??[[b]]B[[]][[b.x]]X[[]]", .elem ⟨.condition, b!"v:b"⟩ <| .box b!"b" (.elem ⟨.string, b!"B"⟩ .nil) .nil,
    .elem ⟨.condition, b!"v:b"⟩ <| .box b!"b" (.elem ⟨.string, b!"B"⟩ .nil) <| .box b!"b.x" (.elem ⟨.string, b!"X"⟩ .nil) .nil,
    _, _, 0, 0, [.ds [(b!"v", .str b!"x")]], ⟨.condition, b!"v:b"⟩, ?_, ?_, rfl, by decide +kernel, by simp [Doc.own], ?_, rfl, rfl, ?_, fun x => ⟨rfl, rfl⟩⟩
  · obtain ⟨l, h, e⟩ := lex_reads b!"??v:b??[[b]]B[[]]"
    exact ⟨by simp [Doc.Plain], l, h, by rw [← e]; decide +kernel⟩
  · obtain ⟨l, h, e⟩ := lex_reads b!"??v:b??[[b]]B[[]][[b.x]]X[[]]"
    exact ⟨by simp [Doc.Plain], l, h, by rw [← e]; decide +kernel⟩
  · exact .conditionValue (text := b!"x") (id := b!"b") (key := b!"v") (Or.inr ⟨[], by decide +kernel⟩) (by decide)
  · refine ⟨?_, fun a e => by cases e; exact ⟨_, rfl⟩⟩
    constructor
    · intro a m e
      match a with
      | 0 => simp at e; subst e; unfold AMap.Nodup; decide
      | n + 1 => simp at e
    · intro a m k v e hm
      match a with
      | 0 => simp at e; subst e; simp at hm; obtain ⟨rfl, rfl⟩ := hm; simp [Valid]
      | n + 1 => simp at e
    · intro a l b e hb
      match a with
      | 0 => simp [IsCollection] at e
      | n + 1 => simp [IsCollection] at e

/-- **C115** The same for templates in memory, however they were made: templates that look the same render the same for all data, with the same text, or
both with a panic, or neither ends (`n` bounds the depth of nested templates, and the outcome is the same for each bound). -/
theorem C115_same_look_same_page {th th' : THeap} {R : Nat → Nat → Prop} (hl : LookTheSame th th' R) {t t' : Nat} (r : R t t') (hu : Usable th t) (hu' : Usable th' t')
    (x : Ext) (n : Nat) {h : Heap} {data : Option Nat} (hp : Proper h data) : execute x th n t h data = execute x th' n t' h data := hl.execute r hu hu' x n hp

/-- A template with a box. -/
def oneText : THeap := (newFromString [] b!"&&b&&[[b]]B[[]]").1

/-- The same put together from two texts with `AddTemplate`, and with a third one that no element names. -/
def twoTexts : THeap := addTemplate (addTemplate (newFromString (newFromString [] b!"&&b&&").1 b!"B").1 0 b!"b" 1) 0 b!"zzz" 1

/-- Such templates. -/
example : LookTheSame oneText twoTexts (fun t t' => t = t' ∧ t < 2) ∧ getTemplate oneText 0 b!"zzz" ≠ getTemplate twoTexts 0 b!"zzz" ∧ Usable oneText 0 ∧ Usable twoTexts 0 ∧
    ∀ x h, execute x oneText 2 0 h none = .ok b!"B" := by
  have pb : Xcore.Template.parts b!"b" = [b!"b"] := by decide +kernel
  have use : ∀ th : THeap, 2 ≤ th.length → (∀ o ∈ th, ∀ q ∈ o.subs.getD [], q.2 < 2) → Usable th 0 := by
    intro th hl hq c hc
    cases hc with
    | here => omega
    | @sub c s v _ e =>
      simp only [Registered] at e
      cases eo : th[c]? with
      | none => rw [eo] at e; cases e
      | some o =>
        rw [eo] at e
        have := hq o (List.mem_of_getElem? eo) (v, _) (AMap.mem_of_get e)
        simp only at this
        omega
  refine ⟨⟨?_, ?_⟩, by decide +kernel, use _ (by decide +kernel) (by decide +kernel), use _ (by decide +kernel) (by decide +kernel), fun x h => rfl⟩
  · rintro t _ ⟨rfl, ht⟩
    match t, ht with
    | 0, _ => exact ⟨_, _, rfl, rfl, by decide +kernel⟩
    | 1, _ => exact ⟨_, _, rfl, rfl, by decide +kernel⟩
  · rintro t _ p v ⟨rfl, ht⟩ hp hv
    match t, ht with
    | 0, _ =>
      have : elements oneText 0 = [⟨.reference, b!"b"⟩] := by decide +kernel
      rw [this] at hp
      simp at hp
      subst hp
      have : v = b!"b" := by
        cases hv with
        | reference e _ => rw [pb] at e; cases e; rfl
        | referenceValue e => rw [pb] at e; cases e
      subst this
      exact Or.inr ⟨1, 1, by decide +kernel, by decide +kernel, rfl, by decide⟩
    | 1, _ =>
      have : elements oneText 1 = [⟨.string, b!"B"⟩] := by decide +kernel
      rw [this] at hp
      simp at hp
      subst hp
      cases hv

/-- **C115** Exactly the names an element can choose count: for every element and every name it may choose there are two templates, with this element only,
that have the same under all other names, and data with which they render differently. -/
theorem C115_every_name_counts {p : Param} {v : Str} (hv : Names p v) :
    ∃ (th th' : THeap) (t : Nat) (h : Heap) (data : Option Nat), Usable th t ∧ Usable th' t ∧ Proper h data ∧ elements th t = [p] ∧ elements th' t = [p] ∧
      (∀ w, w ≠ v → getTemplate th t w = getTemplate th' t w) ∧ (∀ c, c ≠ t → th[c]? = th'[c]?) ∧
      ∀ x, ∃ n n' out out', execute x th n t h data = .ok out ∧ execute x th' n' t h data = .ok out' ∧ out ≠ out' := by
  obtain ⟨m, n, base, L, hp, hb, ⟨names, hn, hvn⟩, render⟩ := Sharp.tries hv
  have h2 := Xcore.Template.Sharp.two_with base v
  have h2' := Xcore.Template.Sharp.two_without base
  have u := Sharp.templates_usable (p := p) h2
  have u' := Sharp.templates_usable (p := p) h2'
  refine ⟨Sharp.templates p (AMap.set [(base, 1)] v 2), Sharp.templates p [(base, 1)], 0, Sharp.memory m n, some 0, u, u', hp, rfl, rfl, ?_, ?_, fun x => ?_⟩
  · intro w hw
    rw [getTemplate_registered, getTemplate_registered, Sharp.registered_subs, Sharp.registered_subs, AMap.get_set, if_neg hw]
  · intro c hc
    match c with
    | 0 => exact absurd rfl hc
    | 1 => rfl
    | 2 => rfl
    | k + 3 => simp [Sharp.templates]
  · have q := render x none _ h2 (by rw [AMap.get_set]; split <;> simp [AMap.get])
    have q' := render x none _ h2' (by simp [AMap.get])
    have page : ∀ {subs : AMap Nat} {s : Str}, Usable (Sharp.templates p subs) 0 →
        RendersIn (fun t => some (elements (Sharp.templates p subs) t)) (Registered (Sharp.templates p subs)) x none (Sharp.memory m n) 0 (.elem p) (some [some 0]) (.text s) →
        ∃ k, execute x (Sharp.templates p subs) k 0 (Sharp.memory m n) (some 0) = .ok (s ++ []) := by
      intro subs s hu r
      obtain ⟨k, e⟩ := (execute_at hu hp (.text (s ++ []))).1.2 (.data Sharp.memory_lang (.document (l := [p]) rfl (.cons (r := .text []) r .nil)))
      refine ⟨k, ?_⟩
      generalize execute x (Sharp.templates p subs) k 0 (Sharp.memory m n) (some 0) = res at e
      cases res <;> simp [outOf] at e ⊢
      exact e
    obtain ⟨k, e⟩ := page u q
    obtain ⟨k', e'⟩ := page u' q'
    refine ⟨k, k', _, _, e, e', ?_⟩
    simp only [List.append_nil]
    intro eq
    have empty : L.flatMap (Xcore.Template.Sharp.textOf [(base, 1)]) = [] := List.flatMap_eq_nil_iff.2 fun l _ => Xcore.Template.Sharp.text_without base l
    rw [empty] at eq
    have := List.flatMap_eq_nil_iff.1 eq names hn
    obtain ⟨pre, rfl, hpre⟩ := hb names hn
    rw [Xcore.Template.Sharp.textOf, if_pos (Xcore.Template.Sharp.with_name hvn hpre)] at this
    cases this

/-- Such names: of a reference by value, of a row, of a condition with a value behind a path. -/
example : Names ⟨.reference, b!"any:lang:box."⟩ b!"box.fr" ∧ Names ⟨.range, b!"rows:row"⟩ b!"row.key.7" ∧ Names ⟨.condition, b!"user>kind:who"⟩ b!"who.admin" := by
  refine ⟨?_, ?_, ?_⟩
  · exact .referenceValue (any := b!"any") (key := b!"lang") (pre := b!"box.") (text := b!"fr") (by decide +kernel)
  · exact .rangeItem (key := b!"rows") (id := b!"row") (i := 7) (n := 8) (Or.inr ⟨[], by decide +kernel⟩) (by decide +kernel)
  · exact .conditionValue (key := b!"user>kind") (id := b!"who") (text := b!"admin") (Or.inr ⟨[], by decide +kernel⟩) (by decide)

end Xcore.V1.Template
