import Verif.Proof.TemplateConcPage

/-!
# Several goroutines render at the same time (C97)

Every access to the data is a step of its own, and between two steps of a goroutine others may take any number of steps.
-/

namespace Xcore.Template

open Xcore.Dataset

/-- **C97** The steps of one goroutine, with nothing in between, are `Execute`: it ends with the text, and memory is as after `Execute`. -/
theorem C97_steps_of_one_goroutine_are_execute {x : Ext} {th : THeap} {n t : Nat} {h h' : Heap} {data : Option Nat} {out : Str} :
    (∃ m, stepsAt (List.replicate m 0) (h, [executeP x th n t data]) = some (h', [.ret out])) ↔ execute x th n t h data = .ok (h', out) := by
  rw [← alone_iff_steps, alone_execute]

/-- **C97** And they end in a panic exactly if `Execute` panics. -/
theorem C97_steps_of_one_goroutine_panic_like_execute {x : Ext} {th : THeap} {n t : Nat} {h : Heap} {data : Option Nat} :
    (∃ m g, stepsAt (List.replicate m 0) (h, [executeP x th n t data]) = some (g, [.panic])) ↔ execute x th n t h data = .panic := by
  rw [← alone_panic_iff_steps, alone_execute]

/-- A rendering that ends after 17 steps. -/
example : ∃ h', stepsAt (List.replicate 17 0) (list, [executeP pageExt (newFromString [] listText).1 3 0 (some 1)]) = some (h', [.ret b!"1a 2b "]) :=
  ⟨(list.set 2 (.ds [(b!"n", .str b!"a"), (b!".counter", .int .int 1)])).set 5 (.ds [(b!"n", .str b!"b"), (b!".counter", .int .int 2)]),
    steps_end (l := [b!"1a 2b "]) (by decide +kernel)⟩

/-- Two goroutines that are not alone. -/
example : stepsAt [0, 1, 1, 0] (list, [executeP pageExt (newFromString [] listText).1 3 0 (some 1), executeP pageExt (newFromString [] listText).1 3 0 (some 1)])
    ≠ none := by decide +kernel

/-- **C97** Goroutines that execute templates at the same time, on data they may share, do not disturb each other, in any order of their steps:
nothing but counters changes, none panics, none blocks another, every one that ends has the text that it has alone, and there is a fixed number
of steps after which all have ended. This holds for data and templates as in `Task.Fine`: no dumps, no printed datasets or collections,
`.counter` only as `{{.counter}}` directly in a row, and only in rows that are at one place of the collections. Missing: other templates and data
(false, see below). -/
theorem C97_goroutines_do_not_disturb_each_other_partial {x : Ext} {th : THeap} {h : Heap} {tasks : List Task} (hf : ∀ k ∈ tasks, k.Fine x th h) :
    ∃ N, ∀ n, N ≤ n → ∃ total : Nat, ∀ sched g ps, stepsAt sched (h, tasks.map fun k => executeP x th n k.t (some k.data)) = some (g, ps) →
      SameButCounters h g ∧ ps.length = tasks.length ∧
      (∀ (i : Nat) (k : Task) (p : Prog Str), tasks[i]? = some k → ps[i]? = some p → p = .ret k.out ∨ ∃ c, stepAt i (g, ps) = some c) ∧
      sched.length ≤ total ∧ (sched.length = total ↔ ps = tasks.map fun k => .ret k.out) := by
  obtain ⟨N, e⟩ := all_fine tasks hf
  refine ⟨N, fun n hn => ?_⟩
  obtain ⟨m, a⟩ := e n hn
  refine ⟨m, fun sched g ps es => ?_⟩
  cases tasks with
  | nil =>
    cases a
    cases sched with
    | nil => simp only [stepsAt, List.map_nil] at es; cases es; exact ⟨.refl _, rfl, by simp, by simp, by simp⟩
    | cons i l => simp [stepsAt, stepAt] at es
  | cons k0 l =>
    have hp := (hf k0 (by simp)).proper
    obtain ⟨n', rfl, s, a'⟩ := AllRun.steps hp.short sched ⟨.refl h, hp.wf, fun t i q => by cases q⟩ a es
    obtain ⟨q1, q2⟩ := a'.at
    refine ⟨s.same, by simpa using q1, fun i k p e1 e2 => ?_, by omega, ?_⟩
    · rcases q2 i p k.out e2 (by rw [List.getElem?_map, e1]; rfl) with q | ⟨c, q⟩
      · exact Or.inl q
      · exact Or.inr ⟨(c.1, ps.set i c.2), by simp only [stepAt, e2, q, Option.map_some]⟩
    · rw [show (sched.length = sched.length + n') ↔ n' = 0 by omega, a'.ended, List.map_map]
      rfl

/-- Two goroutines that render the page of the examples, which has a loop with `{{.counter}}` in its rows and a condition. -/
example : ∀ k ∈ [Task.mk 0 pageDoc 0 b!"<h1>{{user}}</h1>Hola\n<1:one><last two>Annend {{user}}", ⟨0, pageDoc, 0, b!"<h1>{{user}}</h1>Hola\n<1:one><last two>Annend {{user}}"⟩],
    k.Fine pageExt (newFromString [] pageText).1 page := by
  have f : (Task.mk 0 pageDoc 0 b!"<h1>{{user}}</h1>Hola\n<1:one><last two>Annend {{user}}").Fine pageExt (newFromString [] pageText).1 page :=
    ⟨new_in_scope (th := []) page_means (by decide +kernel), page_proper, page_undisturbed, 3,
      (page.set 2 (.ds [(b!"n", .str b!"one"), (b!".counter", .int .int 1)])).set 5 (.ds [(b!"n", .str b!"two"), (b!".counter", .int .int 2)]), by decide +kernel⟩
  intro k hk
  simp at hk
  subst hk
  exact f

/-- And a list with thread-safe data, thread-safe rows and a thread-safe collection. -/
example : ∀ k ∈ [Task.mk 0 listDoc 1 b!"1a 2b ", ⟨0, listDoc, 1, b!"1a 2b "⟩, ⟨0, listDoc, 1, b!"1a 2b "⟩], k.Fine pageExt (newFromString [] listText).1 list := by
  have f : (Task.mk 0 listDoc 1 b!"1a 2b ").Fine pageExt (newFromString [] listText).1 list :=
    ⟨new_in_scope (th := []) list_means (by decide +kernel), list_proper (Or.inr rfl), list_undisturbed, 3,
      (list.set 2 (.ds [(b!"n", .str b!"a"), (b!".counter", .int .int 1)])).set 5 (.ds [(b!"n", .str b!"b"), (b!".counter", .int .int 2)]), by decide +kernel⟩
  intro k hk
  simp at hk
  subst hk
  exact f

/-- **C97** Goroutines do disturb each other where they number the same rows differently: two goroutines render lists of the same thread-safe rows
in different order. One after the other both orders of the goroutines give `1a 2b` and `1b 2a`; but there is an order of their steps in which the
first gives `2a 2b`. Both templates read no old counters (`Steady`), so this is not the effect of C59. -/
theorem C97_rows_at_two_places_are_disturbed : ∃ (x : Ext) (th : THeap) (d : Doc) (h : Heap) (a b : Nat),
    InScope th 0 [d] ∧ Proper h (some a) ∧ Proper h (some b) ∧ Steady x d h a ∧ Steady x d h b ∧
    (∃ k k', execute x th 3 0 h (some a) = .ok (k, b!"1a 2b ") ∧ execute x th 3 0 k (some b) = .ok (k', b!"1b 2a ")) ∧
    (∃ k k', execute x th 3 0 h (some b) = .ok (k, b!"1b 2a ") ∧ execute x th 3 0 k (some a) = .ok (k', b!"1a 2b ")) ∧
    ∃ sched g, stepsAt sched (h, [executeP x th 3 0 (some a), executeP x th 3 0 (some b)]) = some (g, [.ret b!"2a 2b ", .ret b!"1b 2a "]) := by
  refine ⟨pageExt, (newFromString [] listText).1, listDoc, lists, 1, 8, new_in_scope (th := []) list_means (by decide +kernel), list_proper (Or.inl rfl), lists_proper,
    lists_steady.1, lists_steady.2.1, ?_, ?_, List.replicate 7 0 ++ List.replicate 17 1 ++ List.replicate 10 0, ?_⟩
  · exact ⟨(lists.set 2 (.ds [(b!"n", .str b!"a"), (b!".counter", .int .int 1)])).set 5 (.ds [(b!"n", .str b!"b"), (b!".counter", .int .int 2)]),
      (lists.set 2 (.ds [(b!"n", .str b!"a"), (b!".counter", .int .int 2)])).set 5 (.ds [(b!"n", .str b!"b"), (b!".counter", .int .int 1)]),
      by decide +kernel, by decide +kernel⟩
  · exact ⟨(lists.set 2 (.ds [(b!"n", .str b!"a"), (b!".counter", .int .int 2)])).set 5 (.ds [(b!"n", .str b!"b"), (b!".counter", .int .int 1)]),
      (lists.set 2 (.ds [(b!"n", .str b!"a"), (b!".counter", .int .int 1)])).set 5 (.ds [(b!"n", .str b!"b"), (b!".counter", .int .int 2)]),
      by decide +kernel, by decide +kernel⟩
  · exact ⟨(lists.set 2 (.ds [(b!"n", .str b!"a"), (b!".counter", .int .int 2)])).set 5 (.ds [(b!"n", .str b!"b"), (b!".counter", .int .int 2)]),
      steps_end (l := [b!"2a 2b ", b!"1b 2a "]) (by decide +kernel)⟩

end Xcore.Template
