import Verif.Proof.EqualData
import Verif.Proof.TemplatePage

/-!
# Property C55: the text depends on the template's text and the contents of the data only

`SameData R h k` (Verif/Spec/EqualData.lean): the objects of memories `h` and `k` that correspond by `R` have the same contents all the way
down, at any addresses and with the entries of maps in any order.
-/

namespace Xcore.Template

open Xcore.Dataset

/-- **C55** Two templates compiled from the same text, in any surroundings, give the same text for data that are equal one to one: with
the same contents all the way down, the same sharing, at any addresses and with the entries of maps in any order. The data are equal
again afterwards. -/
theorem C55_equal_data_render_the_same {R : Nat → Nat → Prop} {s : Str} {th th1 th' th1' : THeap} {t t' : Nat} (e : newFromString th s = (th1, some t))
    (e' : newFromString th' s = (th1', some t')) {x : Ext} {h k : Heap} {data data' : Option Nat} (hp : Proper h data) (hp' : Proper k data')
    (hd : SameData R h k) (ho : OneToOne R) (ha : SameArg R data data') {out : Str} {h' : Heap} (hr : ∃ n, execute x th1 n t h data = .ok (h', out)) :
    ∃ n k', execute x th1' n t' k data' = .ok (k', out) ∧ SameData R h' k' := by
  obtain ⟨d, hm⟩ := new_means e
  rw [execute_iff (new_in_scope hm e) hp] at hr
  obtain ⟨k', h1, h2⟩ := sameData_executes hd ha (Or.inl ho) hp hp' hr
  obtain ⟨n, h3⟩ := (execute_iff (new_in_scope hm e') hp').2 h1
  exact ⟨n, k', h3, h2⟩

/-- **C55** A template without loops changes nothing, so the sharing of objects does not matter either. -/
theorem C55_sharing_does_not_matter_without_loops {R : Nat → Nat → Prop} {s : Str} {d : Doc} (hm : Means s d) (hl : d.All fun p => p.kind ≠ .range)
    {th th1 th' th1' : THeap} {t t' : Nat} (e : newFromString th s = (th1, some t))
    (e' : newFromString th' s = (th1', some t')) {x : Ext} {h k : Heap} {data data' : Option Nat} (hp : Proper h data) (hp' : Proper k data')
    (hd : SameData R h k) (ha : SameArg R data data') {out : Str} {h' : Heap} (hr : ∃ n, execute x th1 n t h data = .ok (h', out)) :
    ∃ n k', execute x th1' n t' k data' = .ok (k', out) ∧ SameData R h' k' := by
  rw [execute_iff (new_in_scope hm e) hp] at hr
  obtain ⟨k', h1, h2⟩ := sameData_executes hd ha (Or.inr hl) hp hp' hr
  obtain ⟨n, h3⟩ := (execute_iff (new_in_scope hm e') hp').2 h1
  exact ⟨n, k', h3, h2⟩

/-! ## Examples -/

/-- The page's data again: at other addresses, with maps in another order. -/
def page2 : Heap :=
  [.lang ⟨[], [], [(b!"hi", b!"Hola")], []⟩, .ds [(b!"n", .str b!"two")], .col [some 5, some 1],
   .ds [(b!"#", .ptr 0), (b!"rows", .ptr 2), (b!"title", .str b!"{{user}}"), (b!"user", .ptr 4)], .ds [(b!"name", .str b!"Ann")], .ds [(b!"n", .str b!"one")]]

/-- Which objects correspond. -/
def pagePairs : List (Nat × Nat) := [(0, 3), (1, 2), (2, 5), (3, 4), (4, 0), (5, 1)]

theorem page2_proper : Proper page2 (some 3) := by
  have hd : ∀ b : Nat, b = 1 ∨ b = 3 ∨ b = 4 ∨ b = 5 → IsDataset page2 b := by
    rintro b (rfl | rfl | rfl | rfl) <;> exact Or.inl ⟨_, rfl⟩
  have hcol : ∀ a l, IsCollection page2 a l → l = [some 5, some 1] := by
    intro a l hl
    have hlt : a < 6 := by rcases hl with hl | hl <;> exact lt_of_getElem? hl
    rcases hl with hl | hl
    all_goals
      match a, hlt with
      | 0, _ => cases hl
      | 1, _ => cases hl
      | 2, _ => cases hl <;> rfl
      | 3, _ => cases hl
      | 4, _ => cases hl
      | 5, _ => cases hl
  refine ⟨?_, fun a ha => ?_, fun c l hl => by rw [hcol c l hl]; decide, fun a e => by cases e; exact hd 3 (by simp)⟩
  · rw [wf_iff]
    intro a o ho
    have hlt : a < 6 := lt_of_getElem? ho
    match a, hlt with
    | 0, _ => cases ho; trivial
    | 1, _ => cases ho; exact ⟨by decide, by intro k v hb; simp at hb; rw [hb.2]; trivial⟩
    | 2, _ => cases ho; intro b hb; simp at hb; exact hd b (by omega)
    | 3, _ => cases ho; exact ⟨by decide, by intro k v hb; simp at hb; rcases hb with h | h | h | h <;> rw [h.2] <;> simp [Valid, page2]⟩
    | 4, _ => cases ho; exact ⟨by decide, by intro k v hb; simp at hb; rw [hb.2]; trivial⟩
    | 5, _ => cases ho; exact ⟨by decide, by intro k v hb; simp at hb; rw [hb.2]; trivial⟩
  · have hlt : a < 6 := lt_of_getElem? ha
    match a, hlt with
    | 0, _ => cases ha
    | 1, _ => cases ha
    | 2, _ => cases ha
    | 3, _ => cases ha
    | 4, _ => cases ha
    | 5, _ => cases ha

/-- The two pages have equal data, one to one. -/
example : SameData (fun a b => (a, b) ∈ pagePairs) page page2 ∧ OneToOne (fun a b => (a, b) ∈ pagePairs) ∧
    SameArg (fun a b => (a, b) ∈ pagePairs) (some 0) (some 3) ∧ Proper page (some 0) ∧ Proper page2 (some 3) ∧
    ∃ t, (newFromString [] pageText).2 = some t := by
  refine ⟨?_, ?_, .data (by simp [pagePairs]), page_proper, page2_proper, 0, by decide +kernel⟩
  · have one : ∀ (key : Str) (v : Val), SameVal (fun a b => (a, b) ∈ pagePairs) v v →
        SameMap (fun a b => (a, b) ∈ pagePairs) [(key, v)] [(key, v)] := by
      intro key v hv
      constructor
      all_goals
        intro q w hq
        simp only [AMap.get] at hq ⊢
        split at hq
        · cases hq; exact ⟨_, by simp_all, hv⟩
        · cases hq
    intro a b r
    simp only [pagePairs, List.mem_cons, Prod.mk.injEq, List.not_mem_nil, or_false] at r
    rcases r with ⟨rfl, rfl⟩ | ⟨rfl, rfl⟩ | ⟨rfl, rfl⟩ | ⟨rfl, rfl⟩ | ⟨rfl, rfl⟩ | ⟨rfl, rfl⟩
    · refine ⟨_, _, rfl, rfl, .ds ⟨fun key v e => ?_, fun key v e => ?_⟩⟩
      · have hm := AMap.mem_of_get e
        simp only [List.mem_cons, Prod.mk.injEq, List.not_mem_nil, or_false] at hm
        rcases hm with ⟨rfl, rfl⟩ | ⟨rfl, rfl⟩ | ⟨rfl, rfl⟩ | ⟨rfl, rfl⟩
        · exact ⟨_, rfl, rfl⟩
        · exact ⟨_, rfl, _, rfl, by simp [pagePairs]⟩
        · exact ⟨_, rfl, _, rfl, by simp [pagePairs]⟩
        · exact ⟨_, rfl, _, rfl, by simp [pagePairs]⟩
      · have hm := AMap.mem_of_get e
        simp only [List.mem_cons, Prod.mk.injEq, List.not_mem_nil, or_false] at hm
        rcases hm with ⟨rfl, rfl⟩ | ⟨rfl, rfl⟩ | ⟨rfl, rfl⟩ | ⟨rfl, rfl⟩
        · exact ⟨_, rfl, _, rfl, by simp [pagePairs]⟩
        · exact ⟨_, rfl, _, rfl, by simp [pagePairs]⟩
        · exact ⟨_, rfl, rfl⟩
        · exact ⟨_, rfl, _, rfl, by simp [pagePairs]⟩
    · exact ⟨_, _, rfl, rfl, .col (.cons (.elem (by simp [pagePairs])) (.cons (.elem (by simp [pagePairs])) .nil))⟩
    · exact ⟨_, _, rfl, rfl, .ds (one _ _ rfl)⟩
    · exact ⟨_, _, rfl, rfl, .ds (one _ _ rfl)⟩
    · exact ⟨_, _, rfl, rfl, .lang⟩
    · exact ⟨_, _, rfl, rfl, .ds (one _ _ rfl)⟩
  · intro a b a' b' r r'
    simp only [pagePairs, List.mem_cons, Prod.mk.injEq, List.not_mem_nil, or_false] at r r'
    omega

/-- Both give the same text. -/
example : (execute pageExt (newFromString [] pageText).1 3 0 page (some 0)).map Prod.snd = (execute pageExt (newFromString [] pageText).1 3 0 page2 (some 3)).map Prod.snd := by
  decide +kernel

/-- With loops the sharing does matter: a collection with two equal elements and one that has the same element twice are equal, but the
counter that the second round leaves is seen through the first element only if it is the same dataset. -/
theorem C55_sharing_matters_with_loops :
    let text := b!"@@l:r@@{{l>0>.counter}}[[r]]x[[]]"
    let h : Heap := [.ds [(b!"l", .ptr 1)], .col [some 2, some 3], .ds [], .ds []]
    let k : Heap := [.ds [(b!"l", .ptr 1)], .col [some 2, some 2], .ds []]
    (∃ R, SameData R h k ∧ R 0 0) ∧ ∃ th, newFromString [] text = (th, some 0) ∧
      (execute pageExt th 3 0 h (some 0)).map Prod.snd = .ok b!"xx1" ∧ (execute pageExt th 3 0 k (some 0)).map Prod.snd = .ok b!"xx2" := by
  refine ⟨⟨fun a b => (a, b) ∈ [(0, 0), (1, 1), (2, 2), (3, 2)], ?_, by simp⟩, _, rfl, by decide +kernel, by decide +kernel⟩
  intro a b r
  simp only [List.mem_cons, Prod.mk.injEq, List.not_mem_nil, or_false] at r
  rcases r with ⟨rfl, rfl⟩ | ⟨rfl, rfl⟩ | ⟨rfl, rfl⟩ | ⟨rfl, rfl⟩
  · refine ⟨_, _, rfl, rfl, .ds ⟨fun key v e => ?_, fun key v e => ?_⟩⟩
    all_goals
      have hm := AMap.mem_of_get e
      simp only [List.mem_cons, Prod.mk.injEq, List.not_mem_nil, or_false] at hm
      obtain ⟨rfl, rfl⟩ := hm
      exact ⟨_, rfl, _, rfl, by simp⟩
  · exact ⟨_, _, rfl, rfl, .col (.cons (.elem (by simp)) (.cons (.elem (by simp)) .nil))⟩
  · exact ⟨_, _, rfl, rfl, .ds ⟨fun key v e => by simp at e, fun key v e => by simp at e⟩⟩
  · exact ⟨_, _, rfl, rfl, .ds ⟨fun key v e => by simp at e, fun key v e => by simp at e⟩⟩

end Xcore.Template
