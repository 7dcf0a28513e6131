import Verif.Proof.TemplateSharp

/-!
# Templates that look the same (C116)
-/

namespace Xcore.Template

open Xcore.Dataset

/-- **C116** Templates that look the same, however they were made, render the same for all data: the same text and the same changes of the data, or
both panic, or neither ends (`n` bounds the depth of nested templates, and the outcome is the same for each bound). Nothing is assumed of the templates
or the data. -/
theorem C116_same_look_same_page {th th' : THeap} {R : Nat → Nat → Prop} (hl : LookTheSame th th' R) {t t' : Nat} (h : R t t') (x : Ext) (n : Nat) (hp : Heap)
    (data : Option Nat) : execute x th n t hp data = execute x th' n t' hp data := execute_sim x hl.sim n h hp data

/-- **C116** In particular texts: they render the same if their places can be paired so that paired places have the same elements, and see paired places
(or nothing) under the names that these elements may choose. -/
theorem C116_same_places_same_page {s s' : Str} {d d' : Doc} (hm : Means s d) (hm' : Means s' d') {R : List Doc → List Doc → Prop} (hr : PlacesTheSame R)
    (h : R [d] [d']) {th th₁ th' th₁' : THeap} {t t' : Nat} (e : newFromString th s = (th₁, some t)) (e' : newFromString th' s' = (th₁', some t')) (x : Ext)
    (n : Nat) (hp : Heap) (data : Option Nat) : execute x th₁ n t hp data = execute x th₁' n t' hp data :=
  C116_same_look_same_page (hr.look th₁ th₁') ⟨_, _, new_in_scope hm e, new_in_scope hm' e', h⟩ x n hp data

/-- **C116** Where boxes stand among the elements does not matter: texts with the same elements that have the same box under every name render the same. -/
theorem C116_place_of_boxes {s s' : Str} {d d' : Doc} (hm : Means s d) (hm' : Means s' d') (ho : d.own = d'.own) (hf : ∀ v, d.find v = d'.find v)
    {th th₁ th' th₁' : THeap} {t t' : Nat} (e : newFromString th s = (th₁, some t)) (e' : newFromString th' s' = (th₁', some t')) (x : Ext)
    (n : Nat) (hp : Heap) (data : Option Nat) : execute x th₁ n t hp data = execute x th₁' n t' hp data :=
  C116_same_places_same_page hm hm' (places_moved ho hf) ⟨[], rfl, rfl⟩ e e' x n hp data

/-- **C116** The same text loaded at different moments, whatever other templates there are, renders the same. -/
theorem C116_same_text {s : Str} {d : Doc} (hm : Means s d) {th th₁ th' th₁' : THeap} {t t' : Nat} (e : newFromString th s = (th₁, some t))
    (e' : newFromString th' s = (th₁', some t')) (x : Ext) (n : Nat) (hp : Heap) (data : Option Nat) :
    execute x th₁ n t hp data = execute x th₁' n t' hp data :=
  C116_place_of_boxes hm hm rfl (fun _ => rfl) e e' x n hp data

/-- A box written inside the box that uses it. -/
def boxInside : Doc := .elem ⟨.reference, b!"b"⟩ <|
  .box b!"b" (.elem ⟨.string, b!"<"⟩ <| .elem ⟨.reference, b!"a"⟩ <| .elem ⟨.string, b!">"⟩ <| .box b!"a" (.elem ⟨.variable, b!"n"⟩ .nil) .nil) .nil

/-- The same box written beside it, and before it a box that nothing uses. -/
def boxBeside : Doc := .box b!"zzz" (.elem ⟨.reference, b!"zzz"⟩ .nil) <| .elem ⟨.reference, b!"b"⟩ <| .box b!"a" (.elem ⟨.variable, b!"n"⟩ .nil) <|
  .box b!"b" (.elem ⟨.string, b!"<"⟩ <| .elem ⟨.reference, b!"a"⟩ <| .elem ⟨.string, b!">"⟩ .nil) .nil

/-- The places of the two documents that are paired: the documents, the boxes `b`, the boxes `a`. -/
inductive MovedBox : List Doc → List Doc → Prop where
  | document : MovedBox [boxInside] [boxBeside]
  | b {b b' : Doc} : boxInside.find b!"b" = some b → boxBeside.find b!"b" = some b' → MovedBox [b, boxInside] [b', boxBeside]
  | a {a a' b : Doc} : boxInside.find b!"b" = some b → b.find b!"a" = some a → boxBeside.find b!"a" = some a' →
      MovedBox [a, b, boxInside] [a', boxBeside]

theorem reference_names {id v : Str} (hi : parts id = [id]) (h : Names ⟨.reference, id⟩ v) : v = id := by
  cases h with
  | reference e _ => rw [hi] at e; cases e; rfl
  | referenceValue e => rw [hi] at e; cases e

theorem movedBox_same : PlacesTheSame MovedBox := by
  have pa : parts b!"a" = [b!"a"] := by decide +kernel
  have pb : parts b!"b" = [b!"b"] := by decide +kernel
  refine ⟨?_, ?_⟩
  · intro sc sc' h
    cases h with
    | document => rfl
    | b e e' => cases e; cases e'; rfl
    | a e e1 e' => cases e; cases e1; cases e'; rfl
  · intro sc sc' p v h hp hv
    cases h with
    | document =>
      have : p = ⟨.reference, b!"b"⟩ := by simpa [innermost, boxInside, Doc.own] using hp
      subst this
      cases reference_names pb hv
      exact Or.inr ⟨_, _, rfl, rfl, .b rfl rfl⟩
    | b e e' =>
      cases e; cases e'
      simp only [innermost, Doc.own, List.mem_cons, List.not_mem_nil, or_false] at hp
      rcases hp with rfl | rfl | rfl
      · cases hv
      · cases reference_names pa hv
        exact Or.inr ⟨_, _, rfl, rfl, .a rfl rfl rfl⟩
      · cases hv
    | a e e1 e' =>
      cases e; cases e1; cases e'
      simp only [innermost, Doc.own, List.mem_cons, List.not_mem_nil, or_false] at hp
      subst hp
      cases hv

/-- The hypotheses of the theorems hold for these texts. -/
example : Means b!"&&b&&[[b]]<&&a&&>[[a]]{{n}}[[]][[]]" boxInside ∧ Means b!"[[zzz]]&&zzz&&[[]]&&b&&[[a]]{{n}}[[]][[b]]<&&a&&>[[]]" boxBeside ∧
    PlacesTheSame MovedBox ∧ MovedBox [boxInside] [boxBeside] := by
  refine ⟨?_, ?_, movedBox_same, .document⟩
  · obtain ⟨l, h, e⟩ := lex_reads b!"&&b&&[[b]]<&&a&&>[[a]]{{n}}[[]][[]]"
    exact ⟨by simp [boxInside, Doc.Plain], l, h, by rw [← e]; decide +kernel⟩
  · obtain ⟨l, h, e⟩ := lex_reads b!"[[zzz]]&&zzz&&[[]]&&b&&[[a]]{{n}}[[]][[b]]<&&a&&>[[]]"
    exact ⟨by simp [boxBeside, Doc.Plain], l, h, by rw [← e]; decide +kernel⟩

/-- Both render `<7>` for `n = "7"`. -/
example (x : Ext) : execute x (newFromString [] b!"&&b&&[[b]]<&&a&&>[[a]]{{n}}[[]][[]]").1 3 0 [.ds [(b!"n", .str b!"7")]] (some 0) =
      .ok ([.ds [(b!"n", .str b!"7")]], b!"<7>") ∧
    execute x (newFromString [] b!"[[zzz]]&&zzz&&[[]]&&b&&[[a]]{{n}}[[]][[b]]<&&a&&>[[]]").1 3 0 [.ds [(b!"n", .str b!"7")]] (some 0) =
      .ok ([.ds [(b!"n", .str b!"7")]], b!"<7>") := ⟨rfl, rfl⟩

/-- **C116** The names cannot be left out: templates with the same elements that see different templates under a name that an element chooses only for some
data (`??v:b??` chooses `b.x` if `v` is `x`) render differently. -/
theorem C116_names_matter : ∃ (th th' : THeap) (t t' : Nat) (h : Heap), elements th t = elements th' t' ∧
    (∀ v, v ≠ b!"b.x" → getTemplate th t v = getTemplate th' t' v) ∧ (∀ c, c ≠ t → th[c]? = none ∨ th[c]? = th'[c]?) ∧ (∃ p ∈ elements th t, Names p b!"b.x") ∧
    ∀ x, execute x th 2 t h (some 0) = .ok (h, b!"B") ∧ execute x th' 2 t' h (some 0) = .ok (h, b!"X") := by
  refine ⟨[⟨[], some [⟨.condition, b!"v:b"⟩], some [(b!"b", 1)], none⟩, ⟨b!"b", some [⟨.string, b!"B"⟩], none, some 0⟩],
    [⟨[], some [⟨.condition, b!"v:b"⟩], some [(b!"b", 1), (b!"b.x", 2)], none⟩, ⟨b!"b", some [⟨.string, b!"B"⟩], none, some 0⟩,
      ⟨b!"b.x", some [⟨.string, b!"X"⟩], none, some 0⟩], 0, 0, [.ds [(b!"v", .str b!"x")]], rfl, ?_, ?_, ?_, fun x => ⟨rfl, rfl⟩⟩
  · intro v hv
    have : ¬ b!"b.x" = v := fun e => hv e.symm
    simp only [getTemplate, List.length_cons, List.length_nil, getTemplateN]
    simp [AMap.get, this]
  · intro c hc
    match c with
    | 0 => exact absurd rfl hc
    | 1 => exact Or.inr rfl
    | n + 2 => exact Or.inl (by simp)
  · exact ⟨_, by simp [elements]; rfl, .conditionValue (text := b!"x") (id := b!"b") (key := b!"v") (Or.inr ⟨[], by decide +kernel⟩) (by decide)⟩

/-- **C116** Exactly these names count: for every element and every name it may choose there are two templates, with this element only, that see the same
under all other names, and data with which they render differently. (A loop cannot come to an element with an index beyond the largest int, so the names
`id.key.i` for such indexes are left out.) -/
theorem C116_every_name_counts {p : Param} {v : Str} (hv : Names p v) (hs : ∀ (id : Str) (i : Nat), v = id ++ b!".key." ++ itoa i → (i : Int) + 1 < 2 ^ 63) :
    ∃ (th th' : THeap) (t : Nat) (h : Heap) (data : Option Nat), Usable th t ∧ Usable th' t ∧ Proper h data ∧ elements th t = [p] ∧ elements th' t = [p] ∧
      (∀ w, w ≠ v → getTemplate th t w = getTemplate th' t w) ∧ (∀ c, c ≠ t → th[c]? = th'[c]?) ∧
      ∀ x, ∃ n n' h₁ h₂ out out', execute x th n t h data = .ok (h₁, out) ∧ execute x th' n' t h data = .ok (h₂, out') ∧ out ≠ out' := by
  obtain ⟨m, n, base, L, hp, hb, ⟨names, hn, hvn⟩, render⟩ := Sharp.tries hv hs
  have u := Sharp.templates_usable (p := p) (Sharp.two_with base v)
  have u' := Sharp.templates_usable (p := p) (Sharp.two_without base)
  refine ⟨Sharp.templates p (AMap.set [(base, 1)] v 2), Sharp.templates p [(base, 1)], 0, Sharp.memory m n [], some 0, u, u', hp, rfl, rfl, ?_, ?_, fun x => ?_⟩
  · intro w hw
    rw [u.seen, u'.seen, Sharp.seen_subs, Sharp.seen_subs, AMap.get_set, if_neg hw]
  · intro c hc
    match c with
    | 0 => exact absurd rfl hc
    | 1 => rfl
    | 2 => rfl
    | k + 3 => simp [Sharp.templates]
  · obtain ⟨row, q⟩ := render x none _ (Sharp.two_with base v) (by rw [AMap.get_set]; split <;> simp [AMap.get])
    obtain ⟨row', q'⟩ := render x none _ (Sharp.two_without base) (by simp [AMap.get])
    have page : ∀ {subs : AMap Nat} {h' : Heap} {s : Str}, RendersIn (elements (Sharp.templates p subs)) (seen (Sharp.templates p subs)) x none 0 (.elem p) (some [0])
        (Sharp.memory m n []) h' s → ExecutesIn (elements (Sharp.templates p subs)) (seen (Sharp.templates p subs)) x 0 (some 0) (Sharp.memory m n []) h' (s ++ []) :=
      fun r => .data Sharp.memory_lang (.document (.cons r .nil))
    obtain ⟨k, e⟩ := (execute_iff' u.view hp).2 (page q)
    obtain ⟨k', e'⟩ := (execute_iff' u'.view hp).2 (page q')
    refine ⟨k, k', _, _, _, _, e, e', ?_⟩
    simp only [List.append_nil]
    intro eq
    have empty : L.flatMap (Sharp.textOf [(base, 1)]) = [] := List.flatMap_eq_nil_iff.2 fun l _ => Sharp.text_without base l
    rw [empty] at eq
    have := List.flatMap_eq_nil_iff.1 eq names hn
    obtain ⟨pre, rfl, hpre⟩ := hb names hn
    rw [Sharp.textOf, if_pos (Sharp.with_name hvn hpre)] at this
    cases this

/-- Such names: of a reference by value, of a row, of a condition with a value behind a path. -/
example : Names ⟨.reference, b!"any:lang:box."⟩ b!"box.fr" ∧ Names ⟨.range, b!"rows:row"⟩ b!"row.key.7" ∧ Names ⟨.condition, b!"user>kind:who"⟩ b!"who.admin" ∧
    (∀ (id : Str) (i : Nat), b!"box.fr" = id ++ b!".key." ++ itoa i → (i : Int) + 1 < 2 ^ 63) := by
  refine ⟨?_, ?_, ?_, ?_⟩
  · exact .referenceValue (any := b!"any") (key := b!"lang") (pre := b!"box.") (text := b!"fr") (by decide +kernel)
  · exact .rangeItem (key := b!"rows") (id := b!"row") (i := 7) (n := 8) (Or.inr ⟨[], by decide +kernel⟩) (by decide +kernel)
  · exact .conditionValue (key := b!"user>kind") (id := b!"who") (text := b!"admin") (Or.inr ⟨[], by decide +kernel⟩) (by decide)
  · intro id i e
    have : (107 : UInt8) ∈ b!"box.fr" := by rw [e]; simp
    simp at this

end Xcore.Template
