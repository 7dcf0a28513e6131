import Verif.Proof.V1.TemplateLooks

/-!
# Version 1: rendering by several goroutines, while others change other things (C113)
-/

namespace Xcore.V1.Template

open Xcore.Dataset (Ext Val)
open Xcore.V1.Dataset

/-- **C113** Goroutines that execute templates of version 1 at the same time, the same or different ones, on data that they may share, while other
goroutines change anything that does not belong to these data: in every order of the steps each one that has ended has ended as `Execute` ends
alone in the memory at the beginning, with the same text or with the same panic; each one that has not ended can go on; there is a fixed number of
steps after which all have ended. -/
theorem C113_each_gets_its_own_page (x : Ext) (th : THeap) (n : Nat) (h : Heap) (tasks : List Task) :
    ∃ total : Nat, ∀ m g ps, Goes tasks (h, tasks.map fun k => executeP x (printBound h) th n k.t k.data) m (g, ps) →
      ps.length = tasks.length ∧
      (∀ (i : Nat) (k : Task) (p : Prog Str), tasks[i]? = some k → ps[i]? = some p →
        p = .ofRes (execute x th n k.t h k.data) ∨ ∃ p', p.step g = some p') ∧
      m ≤ total ∧ (m = total ↔ ps = tasks.map fun k => .ofRes (execute x th n k.t h k.data)) := by
  refine ⟨left h (progs x th n h tasks), fun m g ps e => ?_⟩
  obtain ⟨iv, el⟩ := goes_inv e (inv_start x th n h tasks)
  change m + left h ps = left h (progs x th n h tasks) at el
  have hl := congrArg List.length iv.results
  simp only [List.length_map] at hl
  refine ⟨hl, fun i k p ek ep => ?_, by omega, ?_⟩
  · cases p with
    | read a f => exact Or.inr ⟨_, rfl⟩
    | _ =>
      left
      have := congrArg (·[i]?) iv.results
      simp only [List.getElem?_map, ep, ek, Option.map_some, Option.some.injEq] at this
      rw [← this]
      rfl
  · rw [show m = left h (progs x th n h tasks) ↔ left h ps = 0 by omega]
    constructor
    · intro e0
      have := left_zero e0
      rw [iv.results, List.map_map] at this
      exact this
    · rintro rfl
      rw [show (tasks.map fun k => Prog.ofRes (execute x th n k.t h k.data)) = (tasks.map fun k => execute x th n k.t h k.data).map Prog.ofRes by
        rw [List.map_map]; rfl]
      exact left_ofRes h _

/-- **C113** A goroutine that renders looks only at objects that belong to its own data (and none if it renders without data), and it changes none. So it has
no data race with goroutines that change other objects. -/
theorem C113_looks_only_at_its_data (x : Ext) (th : THeap) (n : Nat) (h : Heap) (tasks : List Task) (m : Nat) (g : Heap) (ps : List (Prog Str))
    (e : Goes tasks (h, tasks.map fun k => executeP x (printBound h) th n k.t k.data) m (g, ps)) (i b : Nat) (f : Option Obj → Prog Str)
    (ep : ps[i]? = some (.read b f)) : ∃ k a, tasks[i]? = some k ∧ k.data = some a ∧ Reach h a b := by
  obtain ⟨iv, _⟩ := goes_inv e (inv_start x th n h tasks)
  obtain ⟨k, ek, fin⟩ := iv.fine i _ ep
  obtain ⟨k', hk, a, ea, r⟩ := fin.1
  simp only [List.mem_singleton] at hk
  subst hk
  exact ⟨k', a, ek, ea, r⟩

/-- Two fields and a list of one row; object 3 is not theirs. -/
private def shop : Heap := [.ds [(b!"a", .str b!"1"), (b!"rows", .ptr 1), (b!"b", .str b!"1")], .col [some 2], .ds [(b!"n", .str b!"x")], .ds []]

private def shopText : Str := b!"{{a}}@@rows@@{{b}}[[rows]]({{n}})[[]]"

private def shopExt : Ext := ⟨fun _ => [], fun _ => [], fun _ => [], fun _ => [], fun _ => [], fun _ _ => [], fun _ => 0⟩

private theorem shop_closed : Closed (· ≤ 2) shop := by
  intro a b ha r
  match a, ha with
  | 0, _ =>
    cases r with
    | ptr e hk => cases e; simp at hk; show b ≤ 2; omega
    | slice e hk => cases e; simp at hk
    | elem e hk => cases e
  | 1, _ =>
    cases r with
    | ptr e hk => cases e
    | slice e hk => cases e
    | elem e hk => cases e; simp at hk; show b ≤ 2; omega
  | 2, _ =>
    cases r with
    | ptr e hk => cases e; simp at hk
    | slice e hk => cases e; simp at hk
    | elem e hk => cases e

/-- Alone the page is `1(x)1`. -/
example : execute shopExt (newFromString [] shopText).1 3 0 shop (some 0) = .ok b!"1(x)1" := by decide +kernel

/-- Two goroutines begin to render it, and between their steps a third one writes into object 3 and makes a new one. -/
example : ∃ g ps, Goes [⟨0, some 0⟩, ⟨0, some 0⟩]
    (shop, [⟨0, some 0⟩, ⟨0, some 0⟩].map fun k : Task => executeP shopExt (printBound shop) (newFromString [] shopText).1 3 k.t k.data) 3 (g, ps) ∧
    g[3]? = some (.ds [(b!"k", .ptr 0)]) ∧ g[4]? = some (.col []) :=
  ⟨_, _, .turn (.turn (.other (h' := [.ds [(b!"a", .str b!"1"), (b!"rows", .ptr 1), (b!"b", .str b!"1")], .col [some 2], .ds [(b!"n", .str b!"x")],
      .ds [(b!"k", .ptr 0)], .col []]) (.turn (.start _) (i := 0) rfl rfl) fun b u => by
    obtain ⟨k, hk, a, ea, r⟩ := u
    have : a = 0 := by
      simp at hk
      subst hk
      cases ea
      rfl
    subst this
    have hb : b ≤ 2 := reach_in shop_closed r (by omega)
    match b, hb with
    | 0, _ => rfl
    | 1, _ => rfl
    | 2, _ => rfl) (i := 1) rfl rfl) (i := 0) rfl rfl, rfl, rfl⟩

/-- A goroutine takes `n` steps in memory `h`. -/
def stepsIn (h : Heap) : Nat → Prog Str → Option (Prog Str)
  | 0, p => some p
  | n + 1, p => (p.step h).bind (stepsIn h n)

/-- **C113** The condition is needed: if somebody else replaces both fields of the data while the page is rendered, the page can have the first field from
before and the second from after: it is the page of neither memory. -/
theorem C113_changed_data_are_mixed : ∃ (x : Ext) (th : THeap) (h h' : Heap) (m : Nat),
    execute x th 3 0 h (some 0) = .ok b!"1-1" ∧ execute x th 3 0 h' (some 0) = .ok b!"2-2" ∧ printBound h = printBound h' ∧
    ∃ p, stepsIn h m (executeP x (printBound h) th 3 0 (some 0)) = some p ∧ p.result h' = .ok b!"1-2" :=
  ⟨shopExt, (newFromString [] b!"{{a}}-{{b}}").1, [.ds [(b!"a", .str b!"1"), (b!"b", .str b!"1")]], [.ds [(b!"a", .str b!"2"), (b!"b", .str b!"2")]],
    2, by decide +kernel, by decide +kernel, rfl, _, rfl, by decide +kernel⟩

end Xcore.V1.Template
