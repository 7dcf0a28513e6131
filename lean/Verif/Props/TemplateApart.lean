import Verif.Proof.TemplateApart
import Verif.Proof.TemplateConcPage

/-!
# Goroutines that render data without common rows (C114)

The programs are those of C97: every access to the data is a step of its own. Here there is no condition on the templates.
-/

namespace Xcore.Template

open Xcore.Dataset RowsOwn

/-- **C114** In every order of the steps: a goroutine that has ended has done so as `Execute` alone on the data as they were before, with the same
text and the same data afterwards, or with the same panic; one that has not ended can take a step; nothing but rows has changed; and all have ended
after a number of steps that does not depend on the order. -/
theorem C114_each_as_if_alone {x : Ext} {th : THeap} {n : Nat} {h : Heap} {rs : List Rendering} (ra : RowsApart h rs) :
    ∃ total : Nat, ∀ sched g ps, stepsAt sched (h, rs.map fun k => executeP x th n k.t k.data) = some (g, ps) →
      ps.length = rs.length ∧
      (∀ (i : Nat) (k : Rendering) (p : Prog Str), rs[i]? = some k → ps[i]? = some p →
        (∀ out, p = .ret out → ∃ h', execute x th n k.t h k.data = .ok (h', out) ∧ ∀ b, k.Has h b → g[b]? = h'[b]?) ∧
        (p = .panic → execute x th n k.t h k.data = .panic) ∧
        (p = .diverge → execute x th n k.t h k.data = .diverge) ∧
        ((∀ out, p ≠ .ret out) → p ≠ .panic → p ≠ .diverge → ∃ c, stepAt i (g, ps) = some c)) ∧
      (g.length = h.length ∧ ∀ b, (∀ k ∈ rs, ¬ k.Row h b) → g[b]? = h[b]?) ∧
      sched.length ≤ total ∧ (sched.length = total ↔ ∀ i, stepAt i (g, ps) = none) := by
  obtain ⟨total, a0⟩ := all_start (x := x) (th := th) (n := n) (h := h) rs
  refine ⟨total, fun sched g ps e => ?_⟩
  obtain ⟨m, rfl, a, el, eq⟩ := all_steps (pairwise ra) sched a0 e
  refine ⟨a.length, fun i k p e1 e2 => ?_, ⟨el, eq⟩, by omega, ?_⟩
  · obtain ⟨m', hv, q1, q2, q3, -⟩ := a.at e1 e2
    refine ⟨fun out eo => ?_, fun eo => ?_, fun eo => ?_, fun n1 n2 n3 => ?_⟩
    · subst eo; exact ⟨hv, q3.symm, q2.2⟩
    · subst eo; exact q3.symm
    · subst eo; exact q3.symm
    · cases es : p.step g with
      | none => rcases step_none.1 es with ⟨o, eo⟩ | eo | eo <;> simp_all
      | some r => exact ⟨(r.1, ps.set i r.2), by simp only [stepAt, e2, es, Option.map_some]⟩
  · rw [show (sched.length = sched.length + m) ↔ m = 0 by omega, a.zero]
    constructor
    · intro q i
      simp only [stepAt]
      cases e2 : ps[i]? with
      | none => rfl
      | some p => simp [q p (List.mem_of_getElem? e2)]
    · intro q p hp
      obtain ⟨i, e2⟩ := List.mem_iff_getElem?.1 hp
      simpa [stepAt, e2] using q i

/-- **C114** The order does not matter: two orders of the steps, in both of which all goroutines have ended, lead to the same memory and the same
results, also if some of them panic. -/
theorem C114_order_does_not_matter {x : Ext} {th : THeap} {n : Nat} {h : Heap} {rs : List Rendering} (ra : RowsApart h rs) {sched sched' : List Nat}
    {c c' : Heap × List (Prog Str)} (e : stepsAt sched (h, rs.map fun k => executeP x th n k.t k.data) = some c)
    (e' : stepsAt sched' (h, rs.map fun k => executeP x th n k.t k.data) = some c') (he : ∀ i, stepAt i c = none) (he' : ∀ i, stepAt i c' = none) :
    c = c' := by
  obtain ⟨total, a0⟩ := all_start (x := x) (th := th) (n := n) (h := h) rs
  obtain ⟨g, ps⟩ := c
  obtain ⟨g', ps'⟩ := c'
  obtain ⟨m, -, a, el, eq⟩ := all_steps (pairwise ra) sched a0 e
  obtain ⟨m', -, a', el', eq'⟩ := all_steps (pairwise ra) sched' a0 e'
  have done : ∀ {g : Heap} {ps : List (Prog Str)} {i : Nat} {p : Prog Str}, (∀ i, stepAt i (g, ps) = none) → ps[i]? = some p → p.step g = none := by
    intro g ps i p q ep
    simpa [stepAt, ep] using q i
  have at' : ∀ {i : Nat} {k : Rendering}, rs[i]? = some k → ∃ p p', ps[i]? = some p ∧ ps'[i]? = some p' := by
    intro i k ek
    have lt := (List.getElem?_eq_some_iff.1 ek).1
    exact ⟨_, _, List.getElem?_eq_getElem (by rw [a.length]; exact lt), List.getElem?_eq_getElem (by rw [a'.length]; exact lt)⟩
  have eg : g = g' := by
    apply List.ext_getElem?
    intro b
    by_cases hb : ∃ k ∈ rs, k.Row h b
    · obtain ⟨k, hk, r⟩ := hb
      obtain ⟨i, ek⟩ := List.mem_iff_getElem?.1 hk
      obtain ⟨p, p', e1, e2⟩ := at' ek
      obtain ⟨_, q⟩ := a.at ek e1
      obtain ⟨_, q'⟩ := a'.at ek e2
      rw [q.last (done he e1) (row_has r), q'.last (done he' e2) (row_has r)]
    · have hb : ∀ k ∈ rs, ¬ k.Row h b := fun k hk r => hb ⟨k, hk, r⟩
      rw [eq b hb, eq' b hb]
  subst eg
  congr 1
  apply List.ext_getElem?
  intro i
  cases ek : rs[i]? with
  | none =>
    have le := List.getElem?_eq_none_iff.1 ek
    rw [List.getElem?_eq_none (by rw [a.length]; exact le), List.getElem?_eq_none (by rw [a'.length]; exact le)]
  | some k =>
    obtain ⟨p, p', e1, e2⟩ := at' ek
    obtain ⟨_, _, _, _, q, -⟩ := a.at ek e1
    obtain ⟨_, _, _, _, q', -⟩ := a'.at ek e2
    rw [e1, e2]
    rcases step_none.1 (done he e1) with ⟨o, rfl⟩ | rfl | rfl <;> rcases step_none.1 (done he' e2) with ⟨o', rfl⟩ | rfl | rfl <;>
      first | rfl | (have q := q.trans q'.symm; cases q; done) | (have q := q.trans q'.symm; cases q; rfl)

/-- **C114** The same while others change whatever does not belong to the data of a rendering: each goroutine ends as `Execute` alone on the data as they
were before, and all end after the same number of their own steps. -/
theorem C114_while_others_work {x : Ext} {th : THeap} {n : Nat} {h : Heap} {rs : List Rendering} (ra : RowsApart h rs) :
    ∃ total : Nat, ∀ m g ps, Among h rs (h, rs.map fun k => executeP x th n k.t k.data) m (g, ps) →
      ps.length = rs.length ∧
      (∀ (i : Nat) (k : Rendering) (p : Prog Str), rs[i]? = some k → ps[i]? = some p →
        (∀ out, p = .ret out → ∃ h', execute x th n k.t h k.data = .ok (h', out) ∧ ∀ b, k.Has h b → g[b]? = h'[b]?) ∧
        (p = .panic → execute x th n k.t h k.data = .panic) ∧
        (p = .diverge → execute x th n k.t h k.data = .diverge) ∧
        ((∀ out, p ≠ .ret out) → p ≠ .panic → p ≠ .diverge → ∃ c, stepAt i (g, ps) = some c)) ∧
      m ≤ total ∧ (m = total ↔ ∀ i, stepAt i (g, ps) = none) := by
  obtain ⟨total, a0⟩ := all_start (x := x) (th := th) (n := n) (h := h) rs
  refine ⟨total, fun m0 g ps e => ?_⟩
  obtain ⟨m, rfl, a⟩ := all_among (pairwise ra) a0 e
  refine ⟨a.length, fun i k p e1 e2 => ?_, by omega, ?_⟩
  · obtain ⟨m', hv, q1, q2, q3, -⟩ := a.at e1 e2
    refine ⟨fun out eo => ?_, fun eo => ?_, fun eo => ?_, fun n1 n2 n3 => ?_⟩
    · subst eo; exact ⟨hv, q3.symm, q2.2⟩
    · subst eo; exact q3.symm
    · subst eo; exact q3.symm
    · cases es : p.step g with
      | none => rcases step_none.1 es with ⟨o, eo⟩ | eo | eo <;> simp_all
      | some r => exact ⟨(r.1, ps.set i r.2), by simp only [stepAt, e2, es, Option.map_some]⟩
  · rw [show (m0 = m0 + m) ↔ m = 0 by omega, a.zero]
    constructor
    · intro q i
      simp only [stepAt]
      cases e2 : ps[i]? with
      | none => rfl
      | some p => simp [q p (List.mem_of_getElem? e2)]
    · intro q p hp
      obtain ⟨i, e2⟩ := List.mem_iff_getElem?.1 hp
      simpa [stepAt, e2] using q i

/-- **C114** There is nothing for locks to do: whatever has happened so far, the next step of a goroutine changes only rows in its own data, and it
depends only on objects of its own data, which no other goroutine changes. So the data need not be of the thread-safe types. -/
theorem C114_no_races {x : Ext} {th : THeap} {n : Nat} {h : Heap} {rs : List Rendering} (ra : RowsApart h rs) {sched : List Nat} {g g' : Heap}
    {ps : List (Prog Str)} (e : stepsAt sched (h, rs.map fun k => executeP x th n k.t k.data) = some (g, ps)) {i : Nat} {k : Rendering} {p p' : Prog Str}
    (ek : rs[i]? = some k) (ep : ps[i]? = some p) (es : p.step g = some (g', p')) :
    (∀ b, g'[b]? ≠ g[b]? → k.Row h b ∧ ∀ (j : Nat) (k' : Rendering), j ≠ i → rs[j]? = some k' → ¬ k'.Has h b) ∧
    ∀ g2, g2.length = g.length → (∀ b, k.Has h b → g2[b]? = g[b]?) →
      ∃ g3, p.step g2 = some (g3, p') ∧ ∀ b, k.Has h b → g3[b]? = g'[b]? := by
  obtain ⟨total, a0⟩ := all_start (x := x) (th := th) (n := n) (h := h) rs
  obtain ⟨m, -, a, -⟩ := all_steps (pairwise ra) sched a0 e
  obtain ⟨m', q⟩ := a.at ek ep
  obtain ⟨_, -, -, -, eq⟩ := q.step es
  refine ⟨fun b hb => ?_, fun g2 el eq2 => ?_⟩
  · have r : k.Row h b := Classical.byContradiction fun r => hb (eq b r)
    exact ⟨r, fun j k' ne ek' => ra i j k k' (Ne.symm ne) ek ek' b r⟩
  · obtain ⟨g3, e3, a3⟩ := q.looks es ⟨el, eq2⟩
    exact ⟨g3, e3, a3.2⟩

/-- Two pages of plain types: `1` and `4` have a dataset with the title in common, and each its own rows. -/
def twoPages : Heap :=
  [.ds [(b!"title", .str b!"T")],
   .ds [(b!"top", .ptr 0), (b!"rows", .ptr 2)], .col [some 3], .ds [(b!"n", .str b!"a")],
   .ds [(b!"top", .ptr 0), (b!"rows", .ptr 5)], .col [some 6, some 8], .ds [(b!"n", .str b!"b")], .ds [(b!"n", .str b!"c")], .dsTS (some 7)]

theorem twoPages_from {a b : Nat} {S : List Nat} (r : Reach twoPages a b) (ha : a ∈ S)
    (hS : ∀ c ∈ S, ∀ d, Refers twoPages c d → d ∈ S) : b ∈ S := by
  induction r with
  | refl => exact ha
  | step e _ ih => exact ih (hS _ ha _ e)

theorem twoPages_refers {c d : Nat} (r : Refers twoPages c d) :
    (c, d) ∈ [(1, 0), (1, 2), (2, 3), (4, 0), (4, 5), (5, 6), (5, 8), (8, 7)] := by
  have cases : ∀ c : Nat, c < 9 ∨ twoPages[c]? = none := by
    intro c
    rcases Nat.lt_or_ge c 9 with lt | ge
    · exact Or.inl lt
    · exact Or.inr (List.getElem?_eq_none (by simpa [twoPages] using ge))
  rcases cases c with lt | e
  · have : c = 0 ∨ c = 1 ∨ c = 2 ∨ c = 3 ∨ c = 4 ∨ c = 5 ∨ c = 6 ∨ c = 7 ∨ c = 8 := by omega
    rcases this with rfl | rfl | rfl | rfl | rfl | rfl | rfl | rfl | rfl <;> cases r <;> simp_all [twoPages, IsCollection] <;> (try grind)
  · cases r <;> simp_all [IsCollection]

theorem twoPages_first {b : Nat} (r : Reach twoPages 1 b) : b ∈ [1, 0, 2, 3] :=
  twoPages_from r (by decide) fun c hc d q => by have := twoPages_refers q; simp at hc this ⊢; omega

theorem twoPages_apart : RowsApart twoPages [⟨0, some 1⟩, ⟨0, some 4⟩] := by
  have h1 : ∀ b, Reach twoPages 1 b → b ∈ [1, 0, 2, 3] := fun b r => twoPages_first r
  have h4 : ∀ b, Reach twoPages 4 b → b ∈ [4, 0, 5, 6, 7, 8] := fun b r =>
    twoPages_from r (by decide) fun c hc d q => by have := twoPages_refers q; simp at hc this ⊢; omega
  have row : ∀ (k : Rendering) b, k.Row twoPages b → k.Has twoPages b ∧ b ≠ 0 := by
    intro k b r
    refine ⟨row_has r, ?_⟩
    rintro rfl
    obtain ⟨c, l, e, -, hl, he, w⟩ := r
    have q := twoPages_refers (.elem hl he)
    have : e = 3 ∨ e = 6 ∨ e = 8 ∨ e = 0 ∧ (c = 1 ∨ c = 4) ∨ e = 2 ∨ e = 5 ∨ e = 7 := by simp at q; omega
    rcases this with rfl | rfl | rfl | ⟨rfl, rfl | rfl⟩ | rfl | rfl | rfl
    · cases w with | wrapper e _ => simp [twoPages] at e
    · cases w with | wrapper e _ => simp [twoPages] at e
    · cases w with
      | wrapper e w =>
        simp [twoPages] at e
        subst e
        cases w with | wrapper e _ => simp [twoPages] at e
    · simp [twoPages, IsCollection] at hl
    · simp [twoPages, IsCollection] at hl
    · cases w with | wrapper e _ => simp [twoPages] at e
    · cases w with | wrapper e _ => simp [twoPages] at e
    · cases w with | wrapper e _ => simp [twoPages] at e
  intro i j k k' ne ei ej b r hb
  obtain ⟨hk, nz⟩ := row k b r
  have : i = 0 ∧ j = 1 ∨ i = 1 ∧ j = 0 := by
    have := (List.getElem?_eq_some_iff.1 ei).1
    have := (List.getElem?_eq_some_iff.1 ej).1
    simp at *
    omega
  rcases this with ⟨rfl, rfl⟩ | ⟨rfl, rfl⟩ <;> simp at ei ej <;> subst ei ej <;> obtain ⟨a, ea, ra⟩ := hk <;> obtain ⟨a', ea', ra'⟩ := hb <;> cases ea <;> cases ea'
  · have := h1 b ra; have := h4 b ra'; simp at *; omega
  · have := h4 b ra; have := h1 b ra'; simp at *; omega

/-- The text of the pages: with a dump of the data, which C97 does not allow. -/
def twoPagesText : Str := b!"{{top>title}} @@rows:row@@[[row]]{{.counter}}{{n}} [[]]!!dump!!"

/-- The two pages with the steps taken in turn. -/
example : ∃ g, stepsAt ((List.replicate 16 [0, 1]).flatten ++ List.replicate 6 1) (twoPages, [Rendering.mk 0 (some 1), ⟨0, some 4⟩].map fun k =>
    executeP pageExt (newFromString [] twoPagesText).1 3 k.t k.data) = some (g,
      [.ret b!"T 1a #xcore.XDataset{rows:XDatasetCollection[0:xcore.XDataset{.counter:1 n:a} ] top:#xcore.XDataset{title:}}",
       .ret b!"T 1b 2c #xcore.XDataset{rows:XDatasetCollection[0:xcore.XDataset{.counter:1 n:b} 1:xcore.XDataset{.counter:2 n:c} ] top:#xcore.XDataset{title:}}"]) :=
  ⟨((twoPages.set 3 (.ds [(b!"n", .str b!"a"), (b!".counter", .int .int 1)])).set 6 (.ds [(b!"n", .str b!"b"), (b!".counter", .int .int 1)])).set 7
      (.ds [(b!"n", .str b!"c"), (b!".counter", .int .int 2)]),
    steps_end (l := [b!"T 1a #xcore.XDataset{rows:XDatasetCollection[0:xcore.XDataset{.counter:1 n:a} ] top:#xcore.XDataset{title:}}",
      b!"T 1b 2c #xcore.XDataset{rows:XDatasetCollection[0:xcore.XDataset{.counter:1 n:b} 1:xcore.XDataset{.counter:2 n:c} ] top:#xcore.XDataset{title:}}"])
      (by decide +kernel)⟩

/-- The first page is rendered while somebody changes a row of the second one. -/
example : ∃ g p, Among twoPages [⟨0, some 1⟩] (twoPages, [executeP pageExt (newFromString [] twoPagesText).1 3 0 (some 1)]) 1
    (g, [p]) ∧ g[6]? = some (.ds []) := by
  have st : Among twoPages [⟨0, some 1⟩] (twoPages, [executeP pageExt (newFromString [] twoPagesText).1 3 0 (some 1)]) 0
      (twoPages.set 6 (.ds []), [executeP pageExt (newFromString [] twoPagesText).1 3 0 (some 1)]) := by
    refine .other .start (by simp) fun k hk b hb => ?_
    simp at hk
    subst hk
    obtain ⟨a, ea, r⟩ := hb
    cases ea
    have := twoPages_first r
    rw [List.getElem?_set_ne]
    simp at this
    omega
  exact ⟨_, _, .turn (i := 0) st rfl, rfl⟩

/-- **C114** With rows in common it is not so, even if they are thread-safe: alone the first goroutine gives `1a 2b`, but in some order of the steps
`2a 2b`. -/
theorem C114_common_rows_are_mixed : ∃ (x : Ext) (th : THeap) (h h' g : Heap) (k k' : Rendering) (sched : List Nat), ¬ RowsApart h [k, k'] ∧
    execute x th 3 k.t h k.data = .ok (h', b!"1a 2b ") ∧
    stepsAt sched (h, [k, k'].map fun k => executeP x th 3 k.t k.data) = some (g, [.ret b!"2a 2b ", .ret b!"1b 2a "]) := by
  refine ⟨pageExt, (newFromString [] listText).1, lists,
    (lists.set 2 (.ds [(b!"n", .str b!"a"), (b!".counter", .int .int 1)])).set 5 (.ds [(b!"n", .str b!"b"), (b!".counter", .int .int 2)]),
    (lists.set 2 (.ds [(b!"n", .str b!"a"), (b!".counter", .int .int 2)])).set 5 (.ds [(b!"n", .str b!"b"), (b!".counter", .int .int 2)]),
    ⟨0, some 1⟩, ⟨0, some 8⟩, List.replicate 7 0 ++ List.replicate 17 1 ++ List.replicate 10 0, fun ra => ?_, by decide +kernel,
    steps_end (l := [b!"2a 2b ", b!"1b 2a "]) (by decide +kernel)⟩
  have rows1 : Reach lists 1 4 := .step (.wrapped (b := 0) rfl) (.step (.ptr (m := [(b!"rows", .ptr 4)]) (k := b!"rows") rfl (by simp)) .refl)
  have rows8 : Reach lists 8 9 := .step (.wrapped (b := 7) rfl) (.step (.ptr (m := [(b!"rows", .ptr 9)]) (k := b!"rows") rfl (by simp)) .refl)
  refine ra 0 1 _ _ (by decide) rfl rfl 2 ⟨4, [some 3, some 6], 3, ⟨1, rfl, rows1⟩, Or.inr rfl, by simp, .wrapper (b := 2) rfl (.plain (m := [(b!"n", .str b!"a")]) rfl)⟩ ?_
  exact ⟨8, rfl, rows8.trans (.step (.elem (l := [some 6, some 3]) (b := 3) (Or.inr rfl) (by simp)) (.step (.wrapped rfl) .refl))⟩

end Xcore.Template
