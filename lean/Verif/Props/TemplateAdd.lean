import Verif.Proof.TemplateEndless
import Verif.Proof.TemplateAdd
import Verif.Proof.TemplateElem
import Verif.Proof.TemplateBreaks
import Verif.Proof.TemplatePage

/-!
# Properties C88–C90: templates put together with `AddTemplate`

Templates in memory, however they were made: see Verif/Spec/TemplateGraph.lean. `elements th t` are the elements of the template at address
`t`, `seen th t name` is what it sees under a name.
-/

namespace Xcore.Template

open Xcore.Dataset

/-! ## C88 -/

/-- **C88** Whatever sequence of `NewXTemplate`, `LoadString` (with or without success) and `AddTemplate` made the templates, all of them are
usable, as long as none was added to itself or to one inside it. -/
theorem C88_built_templates_are_usable {th : THeap} (h : Built th) {t : Nat} (ht : t < th.length) : Usable th t := h.sound.usable ht

/-- **C88** `GetTemplate` of a usable template gives what is registered in it, or else in the nearest father that has the name. -/
theorem C88_lookup {th : THeap} {t : Nat} (hu : Usable th t) (v : Str) : getTemplate th t v = .ok (seen th t v) := hu.seen v

/-- **C88** What is seen: the first of the template and its fathers that has the name decides. -/
theorem C88_seen {th : THeap} {t : Nat} (hu : Usable th t) (v : Str) : ∃ l, Chain th t l ∧
    ((∃ l₁ a l₂ c, l = l₁ ++ a :: l₂ ∧ (∀ b ∈ l₁, Registered th b v = none) ∧ Registered th a v = some c ∧ seen th t v = some c) ∨
      (∀ a ∈ l, Registered th a v = none) ∧ seen th t v = none) := by
  obtain ⟨l, hl⟩ := hu t .here
  refine ⟨l, hl, ?_⟩
  rw [hl.seen]
  cases e : l.findSome? fun a => Registered th a v with
  | none => exact Or.inr ⟨fun a ha => List.findSome?_eq_none_iff.1 e a ha, rfl⟩
  | some c =>
    obtain ⟨l₁, a, l₂, h1, h2, h3⟩ := List.findSome?_eq_some_iff.1 e
    exact Or.inl ⟨l₁, a, l₂, c, h1, h3, h2, rfl⟩

/-- **C88** What `Execute` of a usable template returns is exactly what the rules of rendering (`RendersIn`, Verif/Spec/TemplateRender.lean)
give for its elements and the names it sees. -/
theorem C88_execute {x : Ext} {th : THeap} {t : Nat} (hu : Usable th t) {h h' : Heap} {data : Option Nat} (hp : Proper h data) {out : Str} :
    (∃ n, execute x th n t h data = .ok (h', out)) ↔ ExecutesIn (elements th) (seen th) x t data h h' out := execute_iff' hu.view hp

/-- **C88** It panics exactly where those rules break. -/
theorem C88_execute_panics_exactly {x : Ext} {th : THeap} {t : Nat} (hu : Usable th t) {h : Heap} {data : Option Nat} (hp : Proper h data) :
    (∃ n, execute x th n t h data = .panic) ↔ ExecuteBreaksIn (elements th) (seen th) x t data h := execute_panic_iff' hu.view hp

/-- **C88** It never ends exactly where those rules go on for ever. -/
theorem C88_execute_never_ends_exactly {x : Ext} {th : THeap} {t : Nat} (hu : Usable th t) {h : Heap} {data : Option Nat} (hp : Proper h data) :
    (∀ n, execute x th n t h data = .diverge) ↔ ExecuteEndlessIn (elements th) (seen th) x t data h := execute_diverges_iff' hu.view hp

/-- **C88** It ends if there is no endless chain of templates each of which names the next, and no cycle in the data. -/
theorem C88_execute_ends {x : Ext} {th : THeap} {t : Nat} (hu : Usable th t) (hacc : Acc (fun a b => CallsIn (elements th) (seen th) b a) t)
    {h : Heap} {data : Option Nat} (hp : Proper h data) (hac : ∀ a, data = some a → Acyclic h a) :
    (∃ n r, execute x th n t h data = .ok r) ∨ ∃ n, execute x th n t h data = .panic := by
  rcases execute_ends' (x := x) hp (fun _ => renders_total' hacc) hac with ⟨h', out, q⟩ | q
  · obtain ⟨n, e⟩ := (C88_execute hu hp).2 q
    exact Or.inl ⟨n, _, e⟩
  · exact Or.inr ((C88_execute_panics_exactly hu hp).2 q)

/-- **C88** A template that was never loaded, or could not be, is rendered as the text of an error. -/
theorem C88_not_loaded {x : Ext} {th : THeap} {t : Nat} (hu : Usable th t) (hr : th[t]?.bind Tpl.root = none) {h h' : Heap} {data : Option Nat}
    (hp : Proper h data) {out : Str} : (∃ n, execute x th n t h data = .ok (h', out)) ↔ h' = h ∧ out = b!"Error, no template.Root compiled" := by
  have own : elements th t = [⟨.string, b!"Error, no template.Root compiled"⟩] := by simp only [elements, hr]
  rw [C88_execute hu hp]
  constructor
  · intro q
    have key : ∀ {lang : Option Language.Lang} {σ : Option (List Nat)}, RendersIn (elements th) (seen th) x lang t .document σ h h' out →
        h' = h ∧ out = b!"Error, no template.Root compiled" := by
      intro lang σ q
      cases q with
      | document q =>
        rw [own] at q
        cases q with
        | cons q1 q2 =>
          cases q2
          cases q1 with
          | text => exact ⟨rfl, by simp⟩
          | unknown hu => exact hu.elim
    cases q with
    | nil q => exact key q
    | data _ q => exact key q
  · rintro ⟨rfl, rfl⟩
    have key : ∀ {lang : Option Language.Lang} {σ : Option (List Nat)}, RendersIn (elements th) (seen th) x lang t .document σ h' h'
        b!"Error, no template.Root compiled" := by
      intro lang σ
      refine .document ?_
      rw [own]
      have := RendersIn.cons (own := elements th) (look := seen th) (x := x) (lang := lang) (sc := t) (σ := σ) (h := h')
        (p := ⟨.string, b!"Error, no template.Root compiled"⟩) .text .nil
      simpa using this
    cases data with
    | none => exact .nil key
    | some a =>
      obtain ⟨l, _, hl⟩ := langOf_iff (hp.data a rfl) hp.wf hp.wrapped
      cases e : langOf h' l with
      | none => exact .data ((hl none).2 (by rw [e]; trivial)) key
      | some b =>
        obtain ⟨lang, q⟩ : ∃ lang, h'[b]? = some (.lang lang) := by
          unfold langOf at e
          split at e
          · split at e
            · next hb => cases e; exact ⟨_, hb⟩
            · cases e
          · cases e
        exact .data ((hl (some lang)).2 (by rw [e]; exact q)) key

/-- **C88** `AddTemplate` exactly: the name stands for the added template in the receiver, the receiver becomes the father of the added
template, and nothing else changes. -/
theorem C88_add {th : THeap} {t : Nat} (ht : t < th.length) (name : Str) (c : Nat) :
    (∀ b v, Registered (addTemplate th t name c) b v = if b = t ∧ v = name then some c else Registered th b v) ∧
    (∀ b : Nat, (addTemplate th t name c)[b]?.bind Tpl.father = if b = c then th[b]?.bind fun _ => some t else th[b]?.bind Tpl.father) ∧
    (∀ b : Nat, (addTemplate th t name c)[b]?.bind Tpl.root = th[b]?.bind Tpl.root ∧ (addTemplate th t name c)[b]?.map Tpl.name = th[b]?.map Tpl.name) := by
  refine ⟨fun b v => add_registered ht name c b v, fun b => add_father th t name c b, fun b => ?_⟩
  rw [addTemplate_get]
  cases th[b]? <;> exact ⟨rfl, rfl⟩

/-- **C88** A template added under a name is rendered as if its text stood in a box of that name at the end of the text of the receiver. -/
theorem C88_added_template_is_a_box {th th₁ th₂ : THeap} {s s' : Str} {t c : Nat} {d e : Doc} (hm : Means s d) (e1 : newFromString th s = (th₁, some t))
    (hm' : Means s' e) (e2 : newFromString th₁ s' = (th₂, some c)) {name : Str} (hn : name ≠ []) (hb : 124 ∉ name)
    {th₃ th₄ : THeap} {s'' : Str} {t' : Nat} (hm'' : Means s'' (d.withBox name e)) (e3 : newFromString th₃ s'' = (th₄, some t'))
    (x : Ext) (n : Nat) (h : Heap) (data : Option Nat) :
    execute x (addTemplate th₂ t name c) n t h data = execute x th₄ n t' h data := by
  have hi1 := new_in_scope hm e1
  have hi2 := new_in_scope hm' e2
  have hpre : th₁ <+: th₂ ∧ c = th₁.length := by
    obtain ⟨hp, l, hr, hd⟩ := hm'
    have hlex : lex s' = e.tokens := by rw [lex_eq hr, hd]
    obtain ⟨th', l, sb, q1, q2, q3, q4, q5, q6⟩ := compile_doc (th := th₁ ++ [⟨[], none, none, none⟩]) (t := th₁.length) (o := ⟨[], none, none, none⟩)
      (by simp) hp hlex
    simp only [newFromString, newTpl, loadString, q1] at e2
    cases e2
    refine ⟨?_, rfl⟩
    rw [List.prefix_iff_getElem?]
    intro i hi
    rw [q3 i (by simp; omega) (by omega), List.getElem?_append_left hi, List.getElem?_eq_getElem hi]
  have hlt : t < th₁.length := by
    obtain ⟨l, hl⟩ := hi1.chain
    exact hl.lt
  have hnames : namesOf name = [name] := by
    rw [namesOf, split_of_not_mem hb]
    simp [hn]
  exact execute_added x (hi1.prefix hpre.1) hi2 (by rw [hpre.2]; omega) hnames (new_in_scope hm'' e3) n h data

/-- **C88** The added template itself is rendered with its own names first and then those of the receiver. -/
theorem C88_added_template_sees_receiver {x : Ext} {th : THeap} {t c : Nat} {d e : Doc} (ht : InScope th t [d]) (hc : InScope th c [e]) (hne : t ≠ c)
    {name : Str} (hn : namesOf name = [name]) {h h' : Heap} {data : Option Nat} (hp : Proper h data) {out : Str} :
    (∃ n, execute x (addTemplate th t name c) n c h data = .ok (h', out)) ↔ ExecutesIn innermost lookup x [e, d.withBox name e] data h h' out :=
  execute_iff' (Z := addView ht hc hne hn) (Or.inr ⟨[], .root, rfl⟩) hp

/-- **C88** Templates that have nothing to do with the receiver and the added template render as before. -/
theorem C88_other_templates {x : Ext} {th : THeap} {t c a : Nat} (name : Str) (h1 : ¬ Comes th a t) (h2 : ¬ Comes th a c) (n : Nat) (h : Heap)
    (data : Option Nat) : execute x (addTemplate th t name c) n a h data = execute x th n a h data := by
  refine execute_apart x (addTemplate_length ..) (fun b hb => ?_) n h data
  have hbt : b ≠ t := fun e => h1 (e ▸ hb)
  have hbc : b ≠ c := fun e => h2 (e ▸ hb)
  rw [addTemplate_get]
  simp only [hbt, hbc, if_false]
  cases th[b]? <;> rfl

/-- The two templates of the examples below: a page that uses a part, the part that uses a name of the page. -/
def twoTemplates : THeap := (newFromString (newFromString [] b!"<&&p&&>[[x]]one[[]]").1 b!"(&&x&&)").1

/-- The hypotheses of the theorems above hold; the page with the part renders the part with the names of the page, as the page with the box does. -/
example : (newFromString [] b!"<&&p&&>[[x]]one[[]]").2 = some 0 ∧ (newFromString (newFromString [] b!"<&&p&&>[[x]]one[[]]").1 b!"(&&x&&)").2 = some 2 ∧
    Built (addTemplate twoTemplates 0 b!"p" 2) ∧ Usable (addTemplate twoTemplates 0 b!"p" 2) 0 ∧ Proper [] none ∧
    execute pageExt (addTemplate twoTemplates 0 b!"p" 2) 3 0 [] none = .ok ([], b!"<(one)>") ∧
    (newFromString [] b!"<&&p&&>[[x]]one[[]][[p]](&&x&&)[[]]").2 = some 0 ∧
    execute pageExt (newFromString [] b!"<&&p&&>[[x]]one[[]][[p]](&&x&&)[[]]").1 3 0 [] none = .ok ([], b!"<(one)>") ∧
    execute pageExt twoTemplates 3 0 [] none = .ok ([], b!"<>") ∧ execute pageExt twoTemplates 3 2 [] none = .ok ([], b!"()") := by
  have hb : Built (addTemplate twoTemplates 0 b!"p" 2) := by
    have h1 : Built (newFromString [] b!"<&&p&&>[[x]]one[[]]").1 := by
      have : (newFromString [] b!"<&&p&&>[[x]]one[[]]").1 = (loadString (newTpl []).1 0 b!"<&&p&&>[[x]]one[[]]").1 := by decide +kernel
      rw [this]
      exact .load (.new .start) (by decide)
    have h2 : Built twoTemplates := by
      have : twoTemplates = (loadString (newTpl (newFromString [] b!"<&&p&&>[[x]]one[[]]").1).1 2 b!"(&&x&&)").1 := by decide +kernel
      rw [this]
      exact .load (.new h1) (by decide +kernel)
    exact .add h2 (l := [0]) (.top (o := ⟨[], some [⟨.string, b!"<"⟩, ⟨.reference, b!"p"⟩, ⟨.string, b!">"⟩], some [(b!"x", 1)], none⟩) (by decide +kernel) rfl)
      (by decide +kernel) (by decide)
  refine ⟨by decide +kernel, by decide +kernel, hb, C88_built_templates_are_usable hb (by decide +kernel), ⟨?_, ?_, ?_, nofun⟩, by decide +kernel,
    by decide +kernel, by decide +kernel, by decide +kernel, by decide +kernel⟩
  · rw [wf_iff]; intro a o ho; cases ho
  · intro a ha; cases ha
  · intro a l hl; rcases hl with hl | hl <;> cases hl

/-- The three texts of `C88_added_template_is_a_box` in this case. -/
example : Means b!"<&&p&&>[[x]]one[[]]" (.elem ⟨.string, b!"<"⟩ (.elem ⟨.reference, b!"p"⟩ (.elem ⟨.string, b!">"⟩ (.box b!"x" (.elem ⟨.string, b!"one"⟩ .nil) .nil)))) ∧
    Means b!"(&&x&&)" (.elem ⟨.string, b!"("⟩ (.elem ⟨.reference, b!"x"⟩ (.elem ⟨.string, b!")"⟩ .nil))) ∧
    Means b!"<&&p&&>[[x]]one[[]][[p]](&&x&&)[[]]"
      (Doc.withBox (.elem ⟨.string, b!"<"⟩ (.elem ⟨.reference, b!"p"⟩ (.elem ⟨.string, b!">"⟩ (.box b!"x" (.elem ⟨.string, b!"one"⟩ .nil) .nil))))
        b!"p" (.elem ⟨.string, b!"("⟩ (.elem ⟨.reference, b!"x"⟩ (.elem ⟨.string, b!")"⟩ .nil)))) := by
  refine ⟨?_, ?_, ?_⟩
  · obtain ⟨l, h, e⟩ := lex_reads b!"<&&p&&>[[x]]one[[]]"
    exact ⟨by simp [Doc.Plain], l, h, by rw [← e]; decide +kernel⟩
  · obtain ⟨l, h, e⟩ := lex_reads b!"(&&x&&)"
    exact ⟨by simp [Doc.Plain], l, h, by rw [← e]; decide +kernel⟩
  · obtain ⟨l, h, e⟩ := lex_reads b!"<&&p&&>[[x]]one[[]][[p]](&&x&&)[[]]"
    exact ⟨by simp [Doc.withBox, Doc.Plain], l, h, by rw [← e]; decide +kernel⟩

/-! ## C89 -/

/-- Three templates: a page with a part, and a second page. -/
def threeTemplates : THeap := (newFromString (addTemplate twoTemplates 0 b!"p" 2) b!"<&&p&&>[[x]]two[[]]").1

/-- **C89 is false**: a template has one father. Adding the part to the second page changes what the first page renders. -/
theorem C89_adding_elsewhere_changes_rendering : Registered threeTemplates 0 b!"p" = some 2 ∧ ¬ Comes threeTemplates 0 3 ∧
    execute pageExt threeTemplates 3 0 [] none = .ok ([], b!"<(one)>") ∧
    execute pageExt (addTemplate threeTemplates 3 b!"p" 2) 3 0 [] none = .ok ([], b!"<(two)>") := by
  refine ⟨by decide +kernel, fun h => ?_, by decide +kernel, by decide +kernel⟩
  have key : ∀ b, Comes threeTemplates 0 b → b = 0 ∨ b = 1 ∨ b = 2 := by
    have e0 : threeTemplates[0]? = some ⟨[], some [⟨.string, b!"<"⟩, ⟨.reference, b!"p"⟩, ⟨.string, b!">"⟩], some [(b!"x", 1), (b!"p", 2)], none⟩ := by decide +kernel
    have e1 : threeTemplates[1]? = some ⟨b!"x", some [⟨.string, b!"one"⟩], none, some 0⟩ := by decide +kernel
    have e2 : threeTemplates[2]? = some ⟨[], some [⟨.string, b!"("⟩, ⟨.reference, b!"x"⟩, ⟨.string, b!")"⟩], none, some 0⟩ := by decide +kernel
    intro b hb
    induction hb with
    | here => exact Or.inl rfl
    | father _ e f ih =>
      rcases ih with rfl | rfl | rfl
      · rw [e0] at e; cases e; cases f
      · rw [e1] at e; cases e; cases f; exact Or.inl rfl
      · rw [e2] at e; cases e; cases f; exact Or.inl rfl
    | @sub _ s v _ e ih =>
      rcases ih with rfl | rfl | rfl
      · simp only [Registered, e0, Option.bind_some, Option.getD_some, AMap.get] at e
        split at e
        · cases e; exact Or.inr (Or.inl rfl)
        · split at e
          · cases e; exact Or.inr (Or.inr rfl)
          · cases e
      · simp [Registered, e1] at e
      · simp [Registered, e2] at e
  rcases key 3 h with h | h | h <;> cases h

/-- **C89** What holds: adding a part to a further template `t` does not change what a template `a` renders that has nothing to do with `t`,
if the elements inside the part `c` use no name that they see only outside of it (neither through the old fathers `l₂` nor through the new ones).
Missing: other parts see the names of the template they were added to last. -/
theorem C89_self_contained_part_partial {x : Ext} {th : THeap} {t c a : Nat} {name : Str} {lt : List Nat} (hu : Usable th a) (ht : Chain th t lt)
    (hc : c ∉ lt) (ha : ¬ Comes th a t)
    (hs : ∀ b l₁ l₂ p v, Comes th a b → Chain th b (l₁ ++ c :: l₂) → p ∈ elements th b → Names p v → (∃ y ∈ l₁ ++ [c], Registered th y v ≠ none) ∨
      (∀ y ∈ l₂ ++ lt, Registered th y v = none) ∧ v ≠ name)
    (n : Nat) (h : Heap) (data : Option Nat) : execute x (addTemplate th t name c) n a h data = execute x th n a h data :=
  execute_self_contained x hu ht hc ha hs n h data

/-- A page and a part that uses no names of others: the hypotheses hold and the second adding changes nothing. -/
example : ∃ th : THeap, Usable th 0 ∧ Chain th 2 [2] ∧ 1 ∉ [2] ∧ ¬ Comes th 0 2 ∧ Registered th 0 b!"p" = some 1 ∧
    (∀ b l₁ l₂ p v, Comes th 0 b → Chain th b (l₁ ++ 1 :: l₂) → p ∈ elements th b → Names p v → (∃ y ∈ l₁ ++ [1], Registered th y v ≠ none) ∨
      (∀ y ∈ l₂ ++ [2], Registered th y v = none) ∧ v ≠ b!"p") ∧
    execute pageExt th 3 0 [] none = .ok ([], b!"<part>") ∧ execute pageExt (addTemplate th 2 b!"p" 1) 3 0 [] none = .ok ([], b!"<part>") := by
  let th : THeap := [⟨[], some [⟨.string, b!"<"⟩, ⟨.reference, b!"p"⟩, ⟨.string, b!">"⟩], some [(b!"p", 1)], none⟩, ⟨[], some [⟨.string, b!"part"⟩], none, some 0⟩,
    ⟨[], some [⟨.reference, b!"p"⟩], none, none⟩]
  have key : ∀ b, Comes th 0 b → b = 0 ∨ b = 1 := by
    intro b hb
    induction hb with
    | here => exact Or.inl rfl
    | father _ e f ih =>
      rcases ih with rfl | rfl
      · cases e; cases f
      · cases e; cases f; exact Or.inl rfl
    | @sub _ s v _ e ih =>
      rcases ih with rfl | rfl
      · simp only [Registered, th, List.getElem?_cons_zero, Option.bind_some, Option.getD_some, AMap.get] at e
        split at e
        · cases e; exact Or.inr rfl
        · cases e
      · simp [Registered, th] at e
  have c0 : Chain th 0 [0] := .top rfl rfl
  have c1 : Chain th 1 [1, 0] := .sub rfl rfl c0
  refine ⟨th, fun b hb => ?_, .top rfl rfl, by decide, fun h => ?_, by decide, ?_, by decide +kernel, by decide +kernel⟩
  · rcases key b hb with rfl | rfl
    · exact ⟨_, c0⟩
    · exact ⟨_, c1⟩
  · rcases key _ h with h | h <;> cases h
  · intro b l₁ l₂ p v hb hl hp hN
    rcases key b hb with rfl | rfl
    · have := hl.unique c0
      exfalso
      have h1 : 1 ∈ [0] := by rw [← this]; simp
      simp at h1
    · have : p = ⟨.string, b!"part"⟩ := by simpa [elements, th] using hp
      subst this
      cases hN

/-! ## C90 -/

/-- **C90** Exactly when `GetTemplate` does not return: there is always a further father and none has the name. -/
theorem C90_lookup_never_returns_exactly {th : THeap} (hr : ∀ (a : Nat) (o : Tpl) (f : Nat), th[a]? = some o → o.father = some f → f < th.length) {t : Nat}
    (ht : t < th.length) (v : Str) : getTemplate th t v = .diverge ↔ ∀ a, Above th t a → Registered th a v = none ∧ ∃ o f, th[a]? = some o ∧ o.father = some f :=
  getTemplate_endless_iff hr ht v

/-- **C90 is false**: in a template that was added to itself, or to one inside it, the lookup of a name that is not there never returns. -/
theorem C90_cycle_never_returns {th : THeap} {t c : Nat} {name : Str} {l₁ l₂ : List Nat} (ht : Chain th t (l₁ ++ c :: l₂)) {v : Str} (hv : v ≠ name)
    (hn : ∀ a ∈ l₁ ++ [c], Registered th a v = none) : getTemplate (addTemplate th t name c) t v = .diverge := cycle_never_returns ht hv hn

/-- A page that refers to a box that is not there, added to itself: the lookup of the box, which rendering the page needs, never returns. -/
example : Chain (newFromString [] b!"&&a&&").1 0 ([] ++ 0 :: []) ∧ getTemplate (newFromString [] b!"&&a&&").1 0 b!"a" = .ok none ∧
    getTemplate (addTemplate (newFromString [] b!"&&a&&").1 0 b!"me" 0) 0 b!"a" = .diverge := by
  have hc : Chain (newFromString [] b!"&&a&&").1 0 ([] ++ 0 :: []) := .top (o := ⟨[], some [⟨.reference, b!"a"⟩], none, none⟩) (by decide +kernel) rfl
  refine ⟨hc, by decide +kernel, C90_cycle_never_returns hc (by decide) fun a ha => ?_⟩
  simp at ha
  subst ha
  decide +kernel

/-- **C90** What holds: among templates that were made by `NewXTemplate`, `LoadString` and `AddTemplate` without adding a template to itself or to
one inside it, every lookup returns. Missing: the excluded calls, and `Clone` after a template was added to several others
(`C90_clone_makes_lookup_endless`). -/
theorem C90_lookup_returns_partial {th : THeap} (h : Built th) {t : Nat} (ht : t < th.length) (v : Str) : ∃ r, getTemplate th t v = .ok r :=
  ⟨_, (h.sound.usable ht).seen v⟩

/-- **C90 is false** with `Clone`, too: all lookups in the four templates `th` return, but after cloning one of them the lookup of a missing name in
another one never does. -/
theorem C90_clone_makes_lookup_endless : ∃ (th th' : THeap) (c : Nat), Built th ∧ clone 5 th 0 = .ok (th', c) ∧ getTemplate th 1 b!"q" = .ok none ∧
    getTemplate th' 1 b!"q" = .diverge := by
  let k0 : THeap := (newTpl (newTpl (newTpl (newTpl []).1).1).1).1
  let k1 := addTemplate k0 0 b!"x" 1
  let k2 := addTemplate k1 2 b!"y" 1
  let k3 := addTemplate k2 1 b!"z" 0
  have h0 : Built k0 := .new (.new (.new (.new .start)))
  have h1 : Built k1 := .add (l := [0]) h0 (.top (o := ⟨[], none, none, none⟩) (by decide) rfl) (by decide) (by decide)
  have h2 : Built k2 := .add (l := [2]) h1 (.top (o := ⟨[], none, none, none⟩) (by decide) rfl) (by decide) (by decide)
  have h3 : Built k3 := .add (l := [1, 2]) h2 (.sub (o := ⟨[], none, none, some 2⟩) (by decide) rfl
    (.top (o := ⟨[], none, some [(b!"y", 1)], none⟩) (by decide) rfl)) (by decide) (by decide)
  have h4 : Built (addTemplate k3 1 b!"z" 3) := .add (l := [1, 2]) h3 (.sub (o := ⟨[], none, some [(b!"z", 0)], some 2⟩) (by decide) rfl
    (.top (o := ⟨[], none, some [(b!"y", 1)], none⟩) (by decide) rfl)) (by decide) (by decide)
  refine ⟨addTemplate k3 1 b!"z" 3, ?_⟩
  cases e : clone 5 (addTemplate k3 1 b!"z" 3) 0 with
  | panic => exact absurd e (by decide)
  | diverge => exact absurd e (by decide)
  | ok r =>
    refine ⟨r.1, r.2, h4, rfl, by decide, ?_⟩
    have : (clone 5 (addTemplate k3 1 b!"z" 3) 0).map (fun r => getTemplate r.1 1 b!"q") = .ok .diverge := by decide
    rw [e] at this
    simpa [Res.map] using this

end Xcore.Template
