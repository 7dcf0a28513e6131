import Verif.Proof.NestedLinear

/-!
# Property C107: the calls on nested thread-safe objects are linearizable

`History`, `Atomic` and `Does` are in Verif/Spec/NestedLinear.lean: the executions of the model with what is seen of them, and objects every
call of which has its whole effect at one moment.
-/

namespace Xcore.Nested

open Dataset Lock

/-- **C107** What is seen of an execution, and the memory it leaves, can be had from objects whose calls take effect at once; the same
goroutines are within a call. -/
theorem C107_histories_are_linearizable {T : Pairs} {K : Paths} {h0 : Heap} {w : List Obs} {c : Conf}
    (h : History T (Tidy T K) (start h0) w c) : ∃ f, Atomic K h0 w c.heap f ∧ ∀ i, f i = .idle ↔ ¬ Busy c i := by
  obtain ⟨f, h1, h2⟩ := h.atomic
  refine ⟨f, h1, fun i => ?_⟩
  have := h2 i
  generalize f i = p at this
  cases this with
  | idle h => simp [Busy, h]
  | waiting h => simp [Busy, h.busy]
  | done _ h => simp [Busy, h]

/-- The hypotheses are met: `a.Get("c>0")`, while another goroutine takes the first player out of the collection. The `Get` begins before and
ends after; it answers the second player. -/
example : ∃ c, History playerPairs (Tidy playerPairs fun a key => a = 1 ∧ key = b!"c>0") (start players)
    [.begins 0 (.ds (.get (split 62 b!"c>0")) 1), .begins 1 (.col .shift 2), .ends 1 (some (.ptr 4)), .ends 0 (some (.ptr 6))] c := by
  have hp : ∀ c : Conf, (∀ i, 2 ≤ i → (c.gor i).stack = []) → ((privateB 1 0 2 c && privateB 4 3 2 c && privateB 6 5 2 c) &&
      decide (c.heap[0]? = some (.ds [(b!"c", .ptr 2)]) ∧ c.heap[2]? = some (.colTS (elems c.heap 2)))) = true →
      Tidy playerPairs (fun a key => a = 1 ∧ key = b!"c>0") c := by
    intro c hid h
    simp only [Bool.and_eq_true (privateB 1 0 2 c && privateB 4 3 2 c && privateB 6 5 2 c), decide_eq_true_eq] at h
    refine ⟨allPrivate_players c hid h.1, ?_⟩
    rintro a key ⟨rfl, rfl⟩
    exact .element (d := 0) (by simp [playerPairs]) h.2.1 rfl h.2.2
  exact history_example hp (hp _ (fun _ _ => rfl) (by decide)) (xs := [.begin 0 (.ds (.get (split 62 b!"c>0")) 1)] ++ List.replicate 4 (.move 0) ++
    [.begin 1 (.col .shift 2)] ++ List.replicate 4 (.move 1) ++ List.replicate 4 (.move 0))
    (by rintro i call h; simp at h; rcases h with ⟨rfl, rfl⟩ | ⟨rfl, rfl⟩ <;> trivial) (by set_option maxRecDepth 8000 in decide)

/-- For paths that go on behind an element it is false: what is seen of the execution of `C87_paths_behind_elements_are_not_atomic` cannot be
had from objects whose calls take effect at once. -/
theorem C107_paths_behind_elements_are_not_linearizable :
    ∃ w c, History playerPairs (AllPrivate playerPairs) (start players) w c ∧
      ∀ h f, ¬ Atomic (fun a key => a = 1 ∧ key = b!"c>0>x") players w h f := by
  obtain ⟨c, h⟩ := history_example (T := playerPairs) (h0 := players) (n := 2) (p := fun c => privateB 1 0 2 c && privateB 4 3 2 c && privateB 6 5 2 c)
    allPrivate_players (allPrivate_players _ (fun _ _ => rfl) (by decide)) (w := oddHistory)
    (xs := [.begin 0 (.ds (.get (split 62 b!"c>0>x")) 1)] ++ List.replicate 7 (.move 0) ++ [.begin 1 (.col .shift 2)] ++ List.replicate 4 (.move 1) ++
      [.begin 1 (.ds (.set b!"x" (.int .int 2)) 4)] ++ List.replicate 6 (.move 1) ++ List.replicate 6 (.move 0))
    (by
      rintro i call h
      simp at h
      rcases h with ⟨rfl, rfl⟩ | ⟨rfl, rfl⟩ | ⟨rfl, rfl⟩
      · trivial
      · trivial
      · exact ⟨3, by simp [playerPairs]⟩) (by set_option maxRecDepth 8000 in decide)
  exact ⟨_, c, h, odd_not_atomic⟩

end Xcore.Nested
