import Verif.Proof.V1.TemplateAdd

/-!
# Property C91: templates of version 1, however they were put together

`elements th t` are the elements of the template at address `t`, `Registered th t name` is its sub-template under a name
(Verif/Spec/V1/TemplateGraph.lean).
-/

namespace Xcore.V1.Template

open Xcore.Template (Doc namesOf)
open Xcore.Dataset (Ext Val)
open Xcore.V1.Dataset

theorem out_text {r : Res Str} {s : Str} : outOf r = some (.text s) ↔ r = .ok s := by cases r <;> simp [outOf]

theorem out_panic {r : Res Str} : outOf r = some .panic ↔ r = .panic := by cases r <;> simp [outOf]

/-- **C91** Whatever sequence of `NewXTemplate`, `LoadString` (with or without success) and `AddTemplate` made the templates, all of them are
usable, as long as none was added to itself or to one inside it. -/
theorem C91_built_templates_are_usable {th : THeap} (h : Built th) {t : Nat} (ht : t < th.length) : Usable th t := h.usable ht

/-- **C91** `GetTemplate` gives what is registered in the template itself, and looks nowhere else. -/
theorem C91_lookup (th : THeap) (t : Nat) (v : Str) : getTemplate th t v = Registered th t v := getTemplate_registered th t v

/-- **C91** `AddTemplate` exactly: the name stands for the added template in the receiver, and nothing else changes in any template, neither in
the added one. -/
theorem C91_add {th : THeap} {t : Nat} (ht : t < th.length) (name : Str) (c : Nat) :
    (addTemplate th t name c).length = th.length ∧
    (∀ b v, Registered (addTemplate th t name c) b v = if b = t ∧ v = name then some c else Registered th b v) ∧
    (∀ b : Nat, (addTemplate th t name c)[b]?.bind Tpl.root = th[b]?.bind Tpl.root ∧ (addTemplate th t name c)[b]?.map Tpl.name = th[b]?.map Tpl.name) ∧
    ∀ b : Nat, b ≠ t → (addTemplate th t name c)[b]? = th[b]? := by
  refine ⟨add_length .., fun b v => add_registered ht name c b v, fun b => ⟨add_root .., ?_⟩, fun b hb => ?_⟩
  · simp only [addTemplate, upd_get]
    split
    · cases th[b]? <;> rfl
    · rfl
  · simp only [addTemplate, upd_get, if_neg hb]

/-- **C91** What `Execute` of a usable template returns is exactly what the rules of rendering (`RendersIn`, Verif/Spec/V1/Template.lean) give
for its elements and the templates registered in it. -/
theorem C91_execute {x : Ext} {th : THeap} {t : Nat} (hu : Usable th t) {h : Heap} {data : Option Nat} (hp : Proper h data) {out : Str} :
    (∃ n, execute x th n t h data = .ok out) ↔ ExecutesAt th x t h data (.text out) := by
  rw [← (execute_at hu hp _).1]
  simp only [out_text]

/-- **C91** It panics exactly where those rules say so. -/
theorem C91_execute_panics_exactly {x : Ext} {th : THeap} {t : Nat} (hu : Usable th t) {h : Heap} {data : Option Nat} (hp : Proper h data) :
    (∃ n, execute x th n t h data = .panic) ↔ ExecutesAt th x t h data .panic := by
  rw [← (execute_at hu hp _).1]
  simp only [out_panic]

/-- **C91** It always ends in the same way: the depth of calls allowed only has to be large enough. -/
theorem C91_execute_is_deterministic {x : Ext} {th : THeap} {t : Nat} (hu : Usable th t) {h : Heap} {data : Option Nat} (hp : Proper h data) {n m : Nat}
    (hnm : n ≤ m) (e : execute x th n t h data ≠ .diverge) : execute x th m t h data = execute x th n t h data := by
  cases r : execute x th n t h data with
  | ok s => exact out_text.1 (execute_mono hu hp hnm (out_text.2 r))
  | panic => exact out_panic.1 (execute_mono hu hp hnm (out_panic.2 r))
  | diverge => exact absurd r e

/-- **C91** It ends for all templates made by any calls, on data without cycles and on nil, as long as no template was added to itself or to one
inside it. -/
theorem C91_execute_ends {x : Ext} {th : THeap} (hb : Built th) {t : Nat} (ht : t < th.length) {h : Heap} {data : Option Nat} (hp : Proper h data)
    (hac : ∀ a, data = some a → Acyclic h a) : ∃ n, ∀ m, n ≤ m → execute x th m t h data = execute x th n t h data ∧ execute x th m t h data ≠ .diverge := by
  obtain ⟨r, q⟩ := executes_at_total (x := x) hb hp hac t
  obtain ⟨n, e⟩ := (execute_at (hb.usable ht) hp r).2 q
  refine ⟨n, fun m hm => ?_⟩
  have h1 := e m hm
  have h2 := e n (Nat.le_refl _)
  cases r with
  | text s => rw [out_text] at h1 h2; rw [h1, h2]; exact ⟨rfl, nofun⟩
  | panic => rw [out_panic] at h1 h2; rw [h1, h2]; exact ⟨rfl, nofun⟩

/-- **C91** A template that was never loaded, or could not be, is rendered as the text of an error, whatever the data. -/
theorem C91_not_loaded {x : Ext} {th : THeap} {t : Nat} (ht : t < th.length) (hr : th[t]?.bind Tpl.root = none) (h : Heap) (data : Option Nat) (n : Nat) :
    execute x th (n + 1) t h data = .ok b!"Error, no template.Root compiled" := by
  rw [List.getElem?_eq_getElem ht, Option.bind_some] at hr
  cases data <;> simp only [execute, injector, List.getElem?_eq_getElem ht, hr, Res.map]

/-- **C91** A template added under a name is rendered as if its text stood in a box of that name at the end of the text of the receiver. -/
theorem C91_added_template_is_a_box {x : Ext} {th : THeap} (hb : Built th) {t c : Nat} {d e : Doc} (ht : Compiled th t d []) (hc : Compiled th c e [])
    (hn : ¬ Inside th c t) {name : Str} (hname : name ≠ []) (hbar : 124 ∉ name) {h : Heap} {data : Option Nat} (hp : Proper h data) :
    (∀ out, (∃ n, execute x (addTemplate th t name c) n t h data = .ok out) ↔ Executes x (d.withBox name e) h data (.text out)) ∧
    ((∃ n, execute x (addTemplate th t name c) n t h data = .panic) ↔ Executes x (d.withBox name e) h data .panic) := by
  have hlt : ∀ {a : Nat} {d : Doc}, Compiled th a d [] → a < th.length := by
    rintro a d ⟨o, l, q, _⟩
    exact (List.getElem?_eq_some_iff.1 q).1
  have hu : Usable (addTemplate th t name c) t := (Built.add hb (hlt ht) (hlt hc) hn).usable (by rw [add_length]; exact hlt ht)
  have hnames : namesOf name = [name] := by
    rw [namesOf, split_of_not_mem hbar]
    simp [hname]
  obtain ⟨rank, hr⟩ := hb.ranked
  refine ⟨fun out => ?_, ?_⟩
  · rw [C91_execute hu hp]; exact executes_added hr ht hc hn hnames
  · rw [C91_execute_panics_exactly hu hp]; exact executes_added hr ht hc hn hnames

/-- **C91** `AddTemplate` changes what templates render only for those that contain the receiver. So one part can be added to many templates,
and is rendered itself as before. -/
theorem C91_other_templates {x : Ext} {th : THeap} {t c a : Nat} (ht : t < th.length) (name : Str) (hu : Usable th a) (hc : Usable th c) (ha : ¬ Inside th a t)
    {h : Heap} {data : Option Nat} (hp : Proper h data) (n : Nat) : execute x (addTemplate th t name c) n a h data = execute x th n a h data := by
  refine execute_congr hu (hu.add ht hc) (fun b _ => add_elements ..) (fun b v hb => ?_) hp n
  rw [add_registered ht, if_neg]
  rintro ⟨rfl, _⟩
  exact ha hb

/-- **C91** A template added to itself: rendering a reference to the name does not end. -/
theorem C91_self_reference_never_ends : ∃ th t, newFromString [] b!"x&&a&&" = (th, some t) ∧ ∀ x n h data, execute x (addTemplate th t b!"a" t) n t h data = .diverge := by
  refine ⟨[⟨[], some [⟨.string, b!"x"⟩, ⟨.reference, b!"a"⟩], none⟩], 0, by decide +kernel, fun x n h data => ?_⟩
  have key : ∀ lang n s, injector x [⟨[], some [⟨.string, b!"x"⟩, ⟨.reference, b!"a"⟩], some [(b!"a", 0)]⟩] h lang n 0 s = .diverge := by
    intro lang n
    induction n with
    | zero => intro s; rfl
    | succ n ih =>
      intro s
      have e : split 58 b!"a" = [b!"a"] := by decide
      have hd : [b!"a"].headD [] = b!"a" := rfl
      have g : getTemplate [⟨[], some [⟨.string, b!"x"⟩, ⟨.reference, b!"a"⟩], some [(b!"a", 0)]⟩] 0 b!"a" = some 0 := by decide
      simp only [injector, List.getElem?_cons_zero, injectAll, injectItem, doReference, e, hd, bind, Res.bind]
      simp only [g, renderOpt, ih]
  have e : addTemplate [⟨[], some [⟨.string, b!"x"⟩, ⟨.reference, b!"a"⟩], none⟩] 0 b!"a" 0 = [⟨[], some [⟨.string, b!"x"⟩, ⟨.reference, b!"a"⟩], some [(b!"a", 0)]⟩] := by
    decide +kernel
  rw [e]
  cases data <;> simp only [execute, key] <;> rfl

/-! ## A page made of parts -/

/-- A layout, a part that is used twice, and a template that was never loaded. -/
def parts4 : THeap :=
  let th := (newTpl []).1                               -- 0: the layout
  let th := (loadString th 0 b!"<&&head&&|&&body&&|&&foot&&>").1
  let th := (newTpl th).1                               -- 1: the part
  let th := (loadString th 1 b!"[{{user>name}}]").1
  let th := (newTpl th).1                               -- 2: never loaded
  let th := (loadString th 2 b!"[[never]]closed").1
  let th := addTemplate th 0 b!"head" 1
  let th := addTemplate th 0 b!"body" 1
  addTemplate th 0 b!"foot" 2

theorem inside_leaf {th : THeap} {c b : Nat} (hl : ∀ v, Registered th c v = none) (h : Inside th c b) : b = c := by
  induction h with
  | here => rfl
  | sub _ e ih => subst ih; rw [hl] at e; cases e

/-- The calls that made them keep the rule. -/
theorem parts4_built : Built parts4 := by
  have leaf : ∀ {th : THeap} {c : Nat} {o : Tpl}, th[c]? = some o → o.subs = none → c ≠ 0 → ¬ Inside th c 0 := by
    intro th c o e es hc hi
    refine hc (inside_leaf (fun v => ?_) hi).symm
    simp [Registered, e, es]
  refine .add (.add (.add (.load (.new (.load (.new (.load (.new .start) ?_)) ?_)) ?_) ?_ ?_ ?_) ?_ ?_ ?_) ?_ ?_ ?_
  · decide
  · decide +kernel
  · decide +kernel
  · decide +kernel
  · decide +kernel
  · exact leaf (o := ⟨[], some [⟨.string, b!"["⟩, ⟨.variable, b!"user>name"⟩, ⟨.string, b!"]"⟩], none⟩) (by decide +kernel) rfl (by decide)
  · decide +kernel
  · decide +kernel
  · exact leaf (o := ⟨[], some [⟨.string, b!"["⟩, ⟨.variable, b!"user>name"⟩, ⟨.string, b!"]"⟩], none⟩) (by decide +kernel) rfl (by decide)
  · decide +kernel
  · decide +kernel
  · exact leaf (o := ⟨[], none, none⟩) (by decide +kernel) rfl (by decide)

/-- The part is rendered wherever it is added, with the data of the page; the template that could not be loaded as an error. -/
example (x : Ext) : 0 < parts4.length ∧
    execute x parts4 2 0 [.ds [(b!"user", .ptr 1)], .ds [(b!"name", .str b!"Ann")]] (some 0) = .ok b!"<[Ann]|[Ann]|Error, no template.Root compiled>" ∧
    execute x parts4 1 1 [.ds [(b!"user", .ptr 1)], .ds [(b!"name", .str b!"Ann")]] (some 0) = .ok b!"[Ann]" ∧
    parts4[2]?.bind Tpl.root = none := by
  refine ⟨by decide +kernel, ?_, ?_, by decide +kernel⟩
  · rfl
  · rfl

/-- A template and one to be added to it. -/
example : ∃ th, Built th ∧ Compiled th 0 (.elem ⟨.string, b!"x"⟩ (.elem ⟨.reference, b!"a"⟩ .nil)) [] ∧ Compiled th 1 (.elem ⟨.string, b!"y"⟩ .nil) [] ∧
    ¬ Inside th 1 0 := by
  refine ⟨(loadString (newTpl (loadString (newTpl []).1 0 b!"x&&a&&").1).1 1 b!"y").1, .load (.new (.load (.new .start) (by decide))) (by decide +kernel), ?_, ?_, fun hi => ?_⟩
  · exact ⟨⟨[], some [⟨.string, b!"x"⟩, ⟨.reference, b!"a"⟩], none⟩, [], by decide +kernel, rfl, .elem (.elem .nil), fun v => rfl⟩
  · exact ⟨⟨[], some [⟨.string, b!"y"⟩], none⟩, [], by decide +kernel, rfl, .elem .nil, fun v => rfl⟩
  · have e : (loadString (newTpl (loadString (newTpl []).1 0 b!"x&&a&&").1).1 1 b!"y").1[1]? = some ⟨[], some [⟨.string, b!"y"⟩], none⟩ := by decide +kernel
    have := inside_leaf (fun v => by simp [Registered, e]) hi
    omega

end Xcore.V1.Template
