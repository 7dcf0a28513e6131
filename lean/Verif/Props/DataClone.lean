import Verif.Proof.DataClone

/-!
# Property C64: rendering with a clone

`Tree h a` (Verif/Spec/DatasetTree.lean): no dataset and no collection in the data is at two places. `cloneVal` is `Clone` (the number
bounds the depth of nesting, see C15 for when it ends).
-/

namespace Xcore.Template

open Xcore.Dataset

/-- **C64** `Clone` gives a tree of new datasets and collections, also if the original is none. -/
theorem C64_clone_is_a_tree {h h' : Heap} {a n : Nat} {w : Val} (wf : WF h) (ha : a < h.length) (hc : cloneVal n h (.ptr a) = .ok (h', w)) :
    ∃ c, w = .ptr c ∧ Tree h' c ∧ ∀ p b, Container h' b → Path h' c p b → h.length ≤ b ∧ b < h'.length := by
  obtain ⟨c, rfl, cl⟩ := clone_cloned wf ha hc
  exact ⟨c, rfl, cl.tree, fun p b hb hp => ⟨cl.new p b hb hp, container_lt hb⟩⟩

/-- **C64** If the data are a tree, a template gives the same texts with them and with a clone of them: every text that the one gives the
other gives, and if the one gives none neither does the other. -/
theorem C64_clone_renders_the_same {s : Str} {th th1 : THeap} {t : Nat} (e : newFromString th s = (th1, some t)) {x : Ext} {h h' : Heap} {a n : Nat} {w : Val}
    (hp : Proper h (some a)) (ht : Tree h a) (hc : cloneVal n h (.ptr a) = .ok (h', w)) :
    ∃ c, w = .ptr c ∧ ∀ out, (∃ n h1, execute x th1 n t h (some a) = .ok (h1, out)) ↔ ∃ n h1, execute x th1 n t h' (some c) = .ok (h1, out) := by
  obtain ⟨c, rfl, cl⟩ := clone_cloned hp.wf (isDataset_lt (hp.data a rfl)) hc
  have hp' := clone_proper hp hc
  have o := cl.oneToOne ht
  obtain ⟨d, hm⟩ := new_means e
  have hs := new_in_scope hm e
  refine ⟨c, rfl, fun out => ⟨?_, ?_⟩⟩
  · rintro ⟨n, h1, e1⟩
    obtain ⟨k', h2, _⟩ := sameData_executes cl.data (.data ⟨[], .nil, .nil⟩) (Or.inl o) hp hp' ((execute_iff hs hp).1 ⟨n, e1⟩)
    obtain ⟨n, h3⟩ := (execute_iff hs hp').2 h2
    exact ⟨n, k', h3⟩
  · rintro ⟨n, h1, e1⟩
    obtain ⟨k', h2, _⟩ := sameData_executes cl.data.flip (.data ⟨[], .nil, .nil⟩) (Or.inl fun x y x' y' r r' => (o y x y' x' r r').symm) hp' hp
      ((execute_iff hs hp').1 ⟨n, e1⟩)
    obtain ⟨n, h3⟩ := (execute_iff hs hp).2 h2
    exact ⟨n, k', h3⟩

/-- **C64** The same for any data, shared or not, if the template has no loops. -/
theorem C64_clone_renders_the_same_without_loops {s : Str} {d : Doc} (hm : Means s d) (hl : d.All fun p => p.kind ≠ .range) {th th1 : THeap} {t : Nat}
    (e : newFromString th s = (th1, some t)) {x : Ext} {h h' : Heap} {a n : Nat} {w : Val}
    (hp : Proper h (some a)) (hc : cloneVal n h (.ptr a) = .ok (h', w)) :
    ∃ c, w = .ptr c ∧ ∀ out, (∃ n h1, execute x th1 n t h (some a) = .ok (h1, out)) ↔ ∃ n h1, execute x th1 n t h' (some c) = .ok (h1, out) := by
  obtain ⟨c, rfl, cl⟩ := clone_cloned hp.wf (isDataset_lt (hp.data a rfl)) hc
  have hp' := clone_proper hp hc
  have hs := new_in_scope hm e
  refine ⟨c, rfl, fun out => ⟨?_, ?_⟩⟩
  · rintro ⟨n, h1, e1⟩
    obtain ⟨k', h2, _⟩ := sameData_executes cl.data (.data ⟨[], .nil, .nil⟩) (Or.inr hl) hp hp' ((execute_iff hs hp).1 ⟨n, e1⟩)
    obtain ⟨n, h3⟩ := (execute_iff hs hp').2 h2
    exact ⟨n, k', h3⟩
  · rintro ⟨n, h1, e1⟩
    obtain ⟨k', h2, _⟩ := sameData_executes cl.data.flip (.data ⟨[], .nil, .nil⟩) (Or.inr hl) hp' hp ((execute_iff hs hp').1 ⟨n, e1⟩)
    obtain ⟨n, h3⟩ := (execute_iff hs hp).2 h2
    exact ⟨n, k', h3⟩

/-- **C64** Rendering changes nothing but datasets that can be reached from the data it is given. -/
theorem C64_other_data_are_untouched {s : Str} {th th1 : THeap} {t : Nat} (e : newFromString th s = (th1, some t)) {x : Ext} {h h1 : Heap} {a : Nat} {out : Str}
    (hp : Proper h (some a)) (hr : ∃ n, execute x th1 n t h (some a) = .ok (h1, out)) (b : Nat)
    (hb : ¬ Reach h a b ∨ ∀ m, h[b]? ≠ some (.ds m)) : h1[b]? = h[b]? := by
  obtain ⟨d, hm⟩ := new_means e
  rcases executes_frame ((execute_iff (new_in_scope hm e) hp).1 hr) b with h2 | ⟨h2, m, h3⟩
  · exact h2
  · rcases hb with hb | hb
    · exact absurd h2 hb
    · exact absurd h3 (hb m)

/-- **C64** Rendering with the clone leaves all that was there before the clone as it was; rendering with the original leaves the clone as
it was. -/
theorem C64_clone_protects_the_original {s : Str} {th th1 : THeap} {t : Nat} (e : newFromString th s = (th1, some t)) {x : Ext} {h h' : Heap} {a n : Nat} {w : Val}
    (hp : Proper h (some a)) (hc : cloneVal n h (.ptr a) = .ok (h', w)) :
    ∃ c, w = .ptr c ∧
      (∀ h1 out, (∃ n, execute x th1 n t h' (some c) = .ok (h1, out)) → ∀ b, b < h.length → h1[b]? = h[b]?) ∧
      (∀ h1 out, (∃ n, execute x th1 n t h' (some a) = .ok (h1, out)) → ∀ b, h.length ≤ b → h1[b]? = h'[b]?) := by
  have ha := isDataset_lt (hp.data a rfl)
  obtain ⟨c, rfl, cl⟩ := clone_cloned hp.wf ha hc
  have hp' := clone_proper hp hc
  have hpa : Proper h' (some a) := ⟨hp'.wf, hp'.wrapped, hp'.short, fun b e => by cases e; exact cl.grows.ext.isDataset (hp.data a rfl)⟩
  refine ⟨c, rfl, fun h1 out hr b hb => ?_, fun h1 out hr b hb => ?_⟩
  · rw [← cl.grows.get_lt hb]
    refine C64_other_data_are_untouched e hp' hr b ?_
    by_cases h2 : ∃ m, h'[b]? = some (.ds m)
    · refine Or.inl fun r => ?_
      obtain ⟨_, _, cp⟩ := clone_copy (v := .ptr a) hp.wf ha hc
      have := copy_reach cl.wf cp r (Or.inl (Or.inl h2))
      omega
    · exact Or.inr fun m hm => h2 ⟨m, hm⟩
  · refine C64_other_data_are_untouched e hpa hr b (Or.inl fun r => ?_)
    have := old_reach hp.wf cl.grows ha r
    omega

/-! ## Examples -/

/-- The page of C47 can be cloned; its clone is proper, and a tree. -/
example : ∃ h' c, cloneVal 4 page (.ptr 0) = .ok (h', .ptr c) ∧ Proper h' (some c) ∧ Tree h' c := by
  have e : ∃ h' w, cloneVal 4 page (.ptr 0) = .ok (h', w) := ⟨_, _, rfl⟩
  obtain ⟨h', w, e⟩ := e
  obtain ⟨c, rfl, h1, _⟩ := C64_clone_is_a_tree page_proper.wf (by decide) e
  exact ⟨h', c, e, clone_proper page_proper e, h1⟩

/-- The clone gives the same text. -/
example : (execute pageExt (newFromString [] pageText).1 3 0 page (some 0)).map Prod.snd =
    (cloneVal 4 page (.ptr 0)).bind fun r => (execute pageExt (newFromString [] pageText).1 3 0 r.1 (match r.2 with | .ptr c => some c | _ => none)).map Prod.snd := by
  decide +kernel

/-- With loops and a dataset that is twice in a collection, the clone does not give the same text: in the clone there are two, and the
counter that the second round leaves is not seen in the first. -/
theorem C64_shared_data_render_differently :
    let text := b!"@@l:r@@{{l>0>.counter}}[[r]]x[[]]"
    let h : Heap := [.ds [(b!"l", .ptr 1)], .col [some 2, some 2], .ds []]
    ∃ th h' c, newFromString [] text = (th, some 0) ∧ cloneVal 4 h (.ptr 0) = .ok (h', .ptr c) ∧
      (execute pageExt th 3 0 h (some 0)).map Prod.snd = .ok b!"xx2" ∧ (execute pageExt th 3 0 h' (some c)).map Prod.snd = .ok b!"xx1" :=
  ⟨_, _, 6, rfl, rfl, by decide +kernel, by decide +kernel⟩

end Xcore.Template
