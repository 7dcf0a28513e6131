import Verif.Proof.VersionPages
import Verif.Proof.PageBuild
import Verif.Proof.TemplatePage
import Verif.Proof.PageTotal
import Verif.Proof.TemplateMore
import Verif.Proof.V1.DataClone

/-!
# C110: pages that are the same in both versions

`Xcore.Page.render` (C100) and `Xcore.V1.Page.render` (C103) compute the pages of version 2 and version 1 from plain data; `oldFields` are the same
data in version 1. What `Portable`, `Conforms` and `WellNamed` say is in Verif/Spec/VersionPages.lean; `Inward`: elements name boxes of the
document they stand in directly, or none that is declared around it.
-/

namespace Xcore.Versions

open Xcore.Template (Kind Param Doc Inside Inward Names Means lookup)
open Xcore.Dataset (Ext Val)
open Xcore.Page (Data Fields Within follow paths)

/-! ## C110 -/

/-- **C110** A document whose elements name only boxes of the document they stand in, and mean the same in both versions with these data, has a page in
both versions, and it is the same. -/
theorem C110_same_page (x : Ext) {d : Doc} {fs : Fields} (hi : Inward d) (hw : WellNamed fs) (hp : d.All (Portable x fs)) :
    ∃ depth out, Page.render x depth d fs = some out ∧ V1.Page.render x d (some (oldFields fs)) = .text out := by
  obtain ⟨out, h1, h2⟩ := render_alike hi hw hp
  exact ⟨_, out, h1, h2⟩

/-- **C110** A text that version 1 reads as the document `d` is read as `d` by version 2 exactly if the elements of `d` have only characters that version 2
allows in them. -/
theorem C110_same_reading {s : Str} {d : Doc} (h : V1.Template.Means s d) : Means s d ↔ d.All Conforms :=
  ⟨means_conforms, means_new h⟩

/-- **C110** Put together: a template text is compiled by both versions, and the same data are in memory for both. Then `Execute` gives the same text in
both versions, without panic. -/
theorem C110_same_text (x : Ext) {s : Str} {d : Doc} (hm : V1.Template.Means s d) (hc : d.All Conforms) (hi : Inward d)
    {th th' : Template.THeap} {t : Nat} (e : Template.newFromString th s = (th', some t))
    {th1 th1' : V1.Template.THeap} {t1 : Nat} (e1 : V1.Template.newFromString th1 s = (th1', some t1))
    {h : Dataset.Heap} {a : Nat} (ok : Template.Proper h (some a)) {h1 : V1.Dataset.Heap} {a1 : Nat} (ok1 : V1.Template.Proper h1 (some a1))
    {pos : Nat → Option Nat} {fs : Fields} (hh : Page.Holds h pos (.ptr a) (.record fs) none) (hh1 : V1.Page.Content h1 (some a1) (some (oldFields fs)))
    (hp : d.All (Portable x fs)) :
    ∃ out n h', (∀ m, n ≤ m → Template.execute x th' m t h (some a) = .ok (h', out)) ∧
      ∀ m, V1.Template.nesting d < m → V1.Template.execute x th1' m t1 h1 (some a1) = .ok out := by
  obtain ⟨out, p2, p1⟩ := render_alike hi (holds_named hh) hp
  have hm2 := means_new hm hc
  obtain ⟨h', ex, _⟩ := Page.render_executes hh (Page.low_means hm2) ok.wf ok.short p2
  obtain ⟨n, en⟩ := (Template.execute_iff (Template.new_in_scope hm2 e) ok).2 ex
  refine ⟨out, n, h', fun m hm => Page.execute_more hm en, fun m hn => ?_⟩
  have := V1.Page.execute_page (x := x) (V1.Page.new_compiled hm e1) ok1 hh1 hn
  rw [p1] at this
  exact this

/-! ## What is different -/

/-- A box that shows a text. -/
def says (name text : Str) : Doc := .box name (.elem ⟨.string, text⟩ .nil) .nil

/-- **C110** The conditions on loops, conditions, counters and boxes are needed: with an empty collection, with a value that is no collection, with the value of a condition missing, empty
or a dataset, with a counter, and with a box of an enclosing document, the versions differ. -/
theorem C110_differences (x : Ext) :
    -- `@@a@@[[a]]A[[]]` with no row
    (Page.render x 2 (.elem ⟨.range, b!"a"⟩ (says b!"a" b!"A")) [(b!"a", .rows [])] = some b!"A" ∧
      V1.Page.render x (.elem ⟨.range, b!"a"⟩ (says b!"a" b!"A")) (some (oldFields [(b!"a", .rows [])])) = .text []) ∧
    -- the same with a text instead of rows
    (Page.render x 2 (.elem ⟨.range, b!"a"⟩ (says b!"a" b!"A")) [(b!"a", .scalar (.str b!"t"))] = some b!"A" ∧
      V1.Page.render x (.elem ⟨.range, b!"a"⟩ (says b!"a" b!"A")) (some (oldFields [(b!"a", .scalar (.str b!"t"))])) = .panic) ∧
    -- `??a??[[a]]A[[]]` without `a`
    (Page.render x 2 (.elem ⟨.condition, b!"a"⟩ (says b!"a" b!"A")) [] = some b!"A" ∧
      V1.Page.render x (.elem ⟨.condition, b!"a"⟩ (says b!"a" b!"A")) (some (oldFields [])) = .text []) ∧
    -- with an empty text
    (Page.render x 2 (.elem ⟨.condition, b!"a"⟩ (says b!"a" b!"A")) [(b!"a", .scalar (.str []))] = some b!"A" ∧
      V1.Page.render x (.elem ⟨.condition, b!"a"⟩ (says b!"a" b!"A")) (some (oldFields [(b!"a", .scalar (.str []))])) = .text []) ∧
    -- with a dataset
    (Page.render x 2 (.elem ⟨.condition, b!"a"⟩ (says b!"a" b!"A")) [(b!"a", .record [])] = some b!"A" ∧
      V1.Page.render x (.elem ⟨.condition, b!"a"⟩ (says b!"a" b!"A")) (some (oldFields [(b!"a", .record [])])) = .text []) ∧
    -- `@@a@@[[a]]{{.counter}}[[]]` with one row
    (Page.render x 2 (.elem ⟨.range, b!"a"⟩ (.box b!"a" (.elem ⟨.variable, b!".counter"⟩ .nil) .nil)) [(b!"a", .rows [[]])] = some b!"1" ∧
      V1.Page.render x (.elem ⟨.range, b!"a"⟩ (.box b!"a" (.elem ⟨.variable, b!".counter"⟩ .nil) .nil)) (some (oldFields [(b!"a", .rows [[]])])) = .text []) ∧
    -- `&&b&&[[b]]&&a&&[[]][[a]]A[[]]`
    (Page.render x 3 (.elem ⟨.reference, b!"b"⟩ (.box b!"b" (.elem ⟨.reference, b!"a"⟩ .nil) (says b!"a" b!"A"))) [] = some b!"A" ∧
      V1.Page.render x (.elem ⟨.reference, b!"b"⟩ (.box b!"b" (.elem ⟨.reference, b!"a"⟩ .nil) (says b!"a" b!"A"))) (some (oldFields [])) = .text []) :=
  ⟨⟨rfl, rfl⟩, ⟨rfl, rfl⟩, ⟨rfl, rfl⟩, ⟨rfl, rfl⟩, ⟨rfl, rfl⟩, ⟨rfl, rfl⟩, ⟨rfl, rfl⟩⟩

/-! ## The hypotheses are met -/

/-- A field, a loop with a variant for the second row and a condition. -/
def listText : Str := b!"{{a}}@@l:r@@??a:c??[[r]]<{{b}}>[[]][[r.key.1]]<<{{b}}>>[[]][[c.x]]yes[[]][[c]]no[[]]"

/-- Its document. -/
def listDoc : Doc :=
  .elem ⟨.variable, b!"a"⟩ <| .elem ⟨.range, b!"l:r"⟩ <| .elem ⟨.condition, b!"a:c"⟩ <|
  .box b!"r" (.elem ⟨.string, b!"<"⟩ <| .elem ⟨.variable, b!"b"⟩ <| .elem ⟨.string, b!">"⟩ .nil) <|
  .box b!"r.key.1" (.elem ⟨.string, b!"<<"⟩ <| .elem ⟨.variable, b!"b"⟩ <| .elem ⟨.string, b!">>"⟩ .nil) <|
  .box b!"c.x" (.elem ⟨.string, b!"yes"⟩ .nil) <| .box b!"c" (.elem ⟨.string, b!"no"⟩ .nil) .nil

/-- The data. -/
def listFields : Fields :=
  [(b!"a", .scalar (.str b!"x")), (b!"l", .rows [[(b!"b", .scalar (.str b!"1"))], [(b!"b", .scalar (.int .int 2))]])]

theorem list_inward : Inward listDoc := by
  have key : ∀ sc, Inside listDoc sc → sc = [listDoc] ∨ ∃ e, sc = [e, listDoc] ∧ (∀ p ∈ e.own, p.kind ∈ [Kind.string, .variable]) ∧ ∀ v, e.find v = none := by
    intro sc h
    induction h with
    | root => exact Or.inl rfl
    | @box e b up v i he ih =>
      rcases ih with h | ⟨e', h, _, hn⟩
      · cases h
        refine Or.inr ⟨b, rfl, ?_⟩
        simp only [listDoc, Doc.find, Option.none_or] at he
        rcases Option.or_eq_some_iff.1 he with he | ⟨_, he⟩
        · rcases Option.or_eq_some_iff.1 he with he | ⟨_, he⟩
          · rcases Option.or_eq_some_iff.1 he with he | ⟨_, he⟩
            · split at he
              · cases he; exact ⟨by simp [Doc.own], fun v => rfl⟩
              · cases he
            · split at he
              · cases he; exact ⟨by simp [Doc.own], fun v => rfl⟩
              · cases he
          · split at he
            · cases he; exact ⟨by simp [Doc.own], fun v => rfl⟩
            · cases he
        · split at he
          · cases he; exact ⟨by simp [Doc.own], fun v => rfl⟩
          · cases he
      · cases h; rw [hn] at he; cases he
  intro e up hin p hp v hv _
  rcases key _ hin with h | ⟨e', h, hk, _⟩
  · cases h; rfl
  · cases h
    have := hk p hp
    cases hv <;> simp at this

theorem list_within {gs : Fields} (w : Within listFields gs) : gs = listFields ∨ ∃ v, gs = [(b!"b", .scalar v)] := by
  induction w with
  | all => exact Or.inl rfl
  | field _ hm ih => rcases ih with rfl | ⟨v, rfl⟩ <;> simp [listFields] at hm
  | row _ hm hr ih =>
    rcases ih with rfl | ⟨v, rfl⟩
    · simp only [listFields, List.mem_cons, Prod.mk.injEq, reduceCtorEq, and_false, Data.rows.injEq, List.not_mem_nil, or_false, false_or] at hm
      rw [hm.2] at hr
      simp only [List.mem_cons, List.not_mem_nil, or_false] at hr
      rcases hr with rfl | rfl <;> exact Or.inr ⟨_, rfl⟩
    · simp at hm

theorem list_portable (x : Ext) : listDoc.All (Portable x listFields) := by
  have one : ∀ {k : Str} {P : Data → Prop}, (∀ d, listFields.lookup k = some d → P d) → (k = b!"b" → ∀ v, P (.scalar v)) → 62 ∉ k → Always listFields k P := by
    intro k P h1 h2 hk gs d row w e
    rw [show split 62 k = [k] from Xcore.split_of_not_mem hk] at e
    simp only [follow, Option.map_eq_some_iff, Prod.mk.injEq] at e
    obtain ⟨d', he, rfl, _⟩ := e
    rcases list_within w with rfl | ⟨v, rfl⟩
    · exact h1 _ he
    · simp only [List.lookup_cons, List.lookup_nil] at he
      split at he
      · cases he; exact h2 (eq_of_beq ‹_›) v
      · cases he
  have str : ∀ t, Portable x listFields ⟨.string, t⟩ := fun t => ⟨by simp [paths], trivial⟩
  have a : Portable x listFields ⟨.variable, b!"a"⟩ :=
    ⟨by simp only [paths, List.mem_singleton, forall_eq]; decide, one (fun d h => by cases h; exact ⟨_, rfl⟩) (fun e => absurd e (by decide)) (by decide)⟩
  have b : Portable x listFields ⟨.variable, b!"b"⟩ :=
    ⟨by simp only [paths, List.mem_singleton, forall_eq]; decide, one (fun d h => by cases h) (fun _ v => ⟨v, rfl⟩) (by decide)⟩
  have l : Portable x listFields ⟨.range, b!"l:r"⟩ := by
    have hp : paths ⟨.range, b!"l:r"⟩ = [b!"l"] := by decide
    refine ⟨by rw [hp]; simp only [List.mem_singleton, forall_eq]; decide, ?_⟩
    show ∀ key ∈ paths ⟨.range, b!"l:r"⟩, _
    rw [hp]; simp only [List.mem_singleton, forall_eq]
    exact one (fun d h => by cases h; exact ⟨_, _, rfl⟩) (fun e => absurd e (by decide)) (by decide)
  have c : Portable x listFields ⟨.condition, b!"a:c"⟩ := by
    have hp : paths ⟨.condition, b!"a:c"⟩ = [b!"a"] := by decide
    refine ⟨by rw [hp]; simp only [List.mem_singleton, forall_eq]; decide, ?_⟩
    show ∀ key ∈ paths ⟨.condition, b!"a:c"⟩, _
    rw [hp]; simp only [List.mem_singleton, forall_eq]
    exact ⟨one (fun d h => by cases h; exact ⟨_, rfl, nofun, nofun⟩) (fun e => absurd e (by decide)) (by decide), nofun⟩
  simp only [listDoc, Doc.All, str, a, b, l, c, and_self]

theorem list_means : V1.Template.Means listText listDoc ∧ listDoc.All Conforms := by
  have h1 : V1.Template.Means listText listDoc := by
    obtain ⟨l, h, e⟩ := V1.Template.lex_reads listText
    exact ⟨by simp [listDoc, Doc.Plain], l, h, by rw [← e]; decide +kernel⟩
  have h2 : Means listText listDoc := by
    obtain ⟨l, h, e⟩ := Template.lex_reads listText
    exact ⟨by simp [listDoc, Doc.Plain], l, h, by rw [← e]; decide +kernel⟩
  exact ⟨h1, (C110_same_reading h1).1 h2⟩

/-- The page. -/
example (x : Ext) : Page.render x 2 listDoc listFields = some b!"x<1><<2>>yes" ∧
    V1.Page.render x listDoc (some (oldFields listFields)) = .text b!"x<1><<2>>yes" := ⟨rfl, rfl⟩

/-- The data as maps for `NewXDataset`. -/
def listData : List (Str × Dataset.Raw) :=
  [(b!"a", .val (.str b!"x")), (b!"l", .maps [[(b!"b", .val (.str b!"1"))], [(b!"b", .val (.int .int 2))]])]

/-- The data in the memory of version 1. -/
def listHeap : V1.Dataset.Heap :=
  [.ds [(b!"a", .str b!"x"), (b!"l", .ptr 1)], .col [some 2, some 3], .ds [(b!"b", .str b!"1")], .ds [(b!"b", .int .int 2)]]

theorem list_proper : V1.Template.Proper listHeap (some 0) := by
  refine ⟨⟨?_, ?_, ?_⟩, fun a e => by cases e; exact ⟨_, rfl⟩⟩
  · intro a m e
    match a with
    | 0 | 2 | 3 => simp [listHeap] at e; subst e; unfold AMap.Nodup; decide
    | 1 => simp [listHeap] at e
    | n + 4 => simp [listHeap] at e
  · intro a m k v e hm
    match a with
    | 0 => simp [listHeap] at e; subst e; simp at hm; rcases hm with ⟨rfl, rfl⟩ | ⟨rfl, rfl⟩ <;> simp [V1.Dataset.Valid, listHeap]
    | 2 | 3 => simp [listHeap] at e; subst e; simp at hm; obtain ⟨rfl, rfl⟩ := hm; simp [V1.Dataset.Valid, Dataset.OfKind]
    | 1 => simp [listHeap] at e
    | n + 4 => simp [listHeap] at e
  · intro a l b e hb
    match a with
    | 1 => simp [listHeap, V1.Dataset.IsCollection] at e; subst e; simp at hb; rcases hb with rfl | rfl <;> exact ⟨_, rfl⟩
    | 0 | 2 | 3 => simp [listHeap, V1.Dataset.IsCollection] at e
    | n + 4 => simp [listHeap, V1.Dataset.IsCollection] at e

theorem list_content : V1.Page.Content listHeap (some 0) (some (oldFields listFields)) := by
  show V1.Page.Holds _ _ _
  unfold listFields
  simp only [oldFields, oldData, oldRows]
  repeat first
    | exact .nil
    | exact V1.Page.Holds.scalar trivial
    | refine V1.Page.record_of_all2 rfl ?_
    | refine V1.Page.rows_of_all2 rfl ?_
    | refine .cons ⟨rfl, ?_⟩ ?_
    | refine .cons (a := some _) (b := some _) ?_ ?_

/-- All of the above at once: the template and the data meet the hypotheses of `C110_same_text`. -/
example (x : Ext) {th' : Template.THeap} {t : Nat} (e : Template.newFromString [] listText = (th', some t))
    {th1' : V1.Template.THeap} {t1 : Nat} (e1 : V1.Template.newFromString [] listText = (th1', some t1)) :
    ∃ out n h', (∀ m, n ≤ m → Template.execute x th' m t (Dataset.newXDataset [] listData).1 (some (Dataset.newXDataset [] listData).2) = .ok (h', out)) ∧
      ∀ m, V1.Template.nesting listDoc < m → V1.Template.execute x th1' m t1 listHeap (some 0) = .ok out := by
  have lit : Page.Literal [] (.map listData) (.record listFields) := by
    unfold listData listFields
    repeat first
      | exact Page.literal_nil
      | exact Page.literal_noRows
      | exact .scalar trivial
      | refine Page.literal_field (by decide +kernel) ?_ ?_
      | refine Page.literal_row ?_ ?_
  have hv : Page.Values [] (.map listData) := by
    unfold listData
    repeat first
      | exact Page.values_nil
      | exact Page.values_noRows
      | exact Page.values_val trivial
      | exact Page.values_val (by simp [Dataset.Valid, Dataset.OfKind])
      | refine Page.values_field ?_ ?_
      | refine Page.values_row ?_ ?_
  obtain ⟨pos, hh, hw'⟩ := Page.new_holds lit
  have hp : Template.Proper (Dataset.newXDataset [] listData).1 (some (Dataset.newXDataset [] listData).2) := by
    refine ⟨(Dataset.newXDataset_built (fun _ => True) Dataset.wf_nil hv fun _ _ _ _ => trivial).wf, hw' (by simp [Dataset.Wrapped]),
      Page.short_of (by decide +kernel), ?_⟩
    rintro a ⟨⟩
    obtain ⟨b, e, hd⟩ := Page.holds_isDataset hh
    cases e; exact hd
  exact C110_same_text x list_means.1 list_means.2 list_inward e e1 hp list_proper hh list_content (list_portable x)

example : (Template.newFromString [] listText).2 = some 0 ∧ (V1.Template.newFromString [] listText).2 = some 0 := by decide +kernel

/-- An element that only version 1 reads: `{{a b}}`. -/
example : V1.Template.Means b!"{{a b}}" (.elem ⟨.variable, b!"a b"⟩ .nil) ∧ ¬ Means b!"{{a b}}" (.elem ⟨.variable, b!"a b"⟩ .nil) := by
  have h1 : V1.Template.Means b!"{{a b}}" (.elem ⟨.variable, b!"a b"⟩ .nil) := by
    obtain ⟨l, h, e⟩ := V1.Template.lex_reads b!"{{a b}}"
    exact ⟨by simp [Doc.Plain], l, h, by rw [← e]; decide +kernel⟩
  refine ⟨h1, fun h2 => ?_⟩
  have := (C110_same_reading h1).1 h2
  exact absurd ((this.1.2 (by decide)).2 32 (by decide)) (by simp [Template.ElemChar, Template.LangChar])

/-- **C110** The same differences, and two more, in what `Execute` gives for texts and data in memory. -/
theorem C110_differences_of_execute (x : Ext) :
    -- no row
    (page2 x b!"@@a@@[[a]]A[[]]" [.ds [(b!"a", .ptr 1)], .col []] = .ok b!"A" ∧
      page1 x b!"@@a@@[[a]]A[[]]" [.ds [(b!"a", .ptr 1)], .col []] = .ok []) ∧
    -- a text instead of rows
    (page2 x b!"@@a@@[[a]]A[[]]" [.ds [(b!"a", .str b!"t")]] = .ok b!"A" ∧
      page1 x b!"@@a@@[[a]]A[[]]" [.ds [(b!"a", .str b!"t")]] = .panic) ∧
    -- a condition on a value that is not there
    (page2 x b!"??a??[[a]]A[[]]" [.ds []] = .ok b!"A" ∧ page1 x b!"??a??[[a]]A[[]]" [.ds []] = .ok []) ∧
    -- on an empty text
    (page2 x b!"??a??[[a]]A[[]]" [.ds [(b!"a", .str [])]] = .ok b!"A" ∧ page1 x b!"??a??[[a]]A[[]]" [.ds [(b!"a", .str [])]] = .ok []) ∧
    -- on a dataset
    (page2 x b!"??a??[[a]]A[[]]" [.ds [(b!"a", .ptr 1)], .ds []] = .ok b!"A" ∧
      page1 x b!"??a??[[a]]A[[]]" [.ds [(b!"a", .ptr 1)], .ds []] = .ok []) ∧
    -- a counter
    (page2 x b!"@@a@@[[a]]{{.counter}}[[]]" [.ds [(b!"a", .ptr 1)], .col [some 2], .ds []] = .ok b!"1" ∧
      page1 x b!"@@a@@[[a]]{{.counter}}[[]]" [.ds [(b!"a", .ptr 1)], .col [some 2], .ds []] = .ok []) ∧
    -- a box of the enclosing document
    (page2 x b!"&&b&&[[b]]&&a&&[[]][[a]]A[[]]" [.ds []] = .ok b!"A" ∧ page1 x b!"&&b&&[[b]]&&a&&[[]][[a]]A[[]]" [.ds []] = .ok []) ∧
    -- a blank in an element
    (page2 x b!"{{a b}}" [.ds [(b!"a b", .str b!"v")]] = .ok b!"{{a b}}" ∧ page1 x b!"{{a b}}" [.ds [(b!"a b", .str b!"v")]] = .ok b!"v") ∧
    -- a nil row
    (page2 x b!"@@a@@[[a]]A[[]]" [.ds [(b!"a", .ptr 1)], .col [none]] = .panic ∧
      page1 x b!"@@a@@[[a]]A[[]]" [.ds [(b!"a", .ptr 1)], .col [none]] = .ok b!"A") := by
  refine ⟨⟨?_, ?_⟩, ⟨?_, ?_⟩, ⟨?_, ?_⟩, ⟨?_, ?_⟩, ⟨?_, ?_⟩, ⟨?_, ?_⟩, ⟨?_, ?_⟩, ⟨?_, ?_⟩, ⟨?_, ?_⟩⟩ <;> rfl

end Xcore.Versions
