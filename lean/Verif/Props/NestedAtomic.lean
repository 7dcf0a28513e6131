import Verif.Proof.NestedAtomic

/-!
# Property C87: calls on nested thread-safe objects take effect at one moment

`Trace`, `AllPrivate`, `Along`, `Making` and `AtOneStep` are in Verif/Spec/NestedAtomic.lean. The calls of all the other goroutines are
arbitrary, on these objects and on others.
-/

namespace Xcore.Nested

open Dataset Lock

/-- **C87** A `Get` answers what the sequential `Get` answers on memory as it is at one of its steps, if its path leads through private
datasets, possibly to an element of a thread-safe collection. It changes nothing. Missing: paths that go on behind an element, for which it is
false (below). -/
theorem C87_get_at_one_step_partial {T : Pairs} {h0 : Heap} {c1 c2 : Conf} {i a : Nat} {key : Str} {l : List Event}
    (hr : Run (AllPrivate T) (start h0) c1) (hst : (c1.gor i).stack = (Call.ds (.get (split 62 key)) a).code)
    (ht : Trace (fun c => AllPrivate T c ∧ Along T c.heap a (split 62 key)) c1 l c2) (hm : Making i l) (hend : ¬ Busy c2 i) :
    AtOneStep i l fun h h' => h' = h ∧ Dataset.get h a key = .ok (c2.gor i).ans := by
  have hp : AllPrivate T c1 ∧ Along T c1.heap a (split 62 key) := by cases ht <;> assumption
  obtain ⟨d, hd⟩ := hp.2.pair
  have hs : Stage T c1.heap a (split 62 key) (c1.gor i).stack := by
    rw [hst]
    exact .call (R := []) nofun (.refl hd)
  obtain ⟨h1, e, he, h2, h3⟩ := get_trace hr ht hm hend hs
  obtain ⟨l1, l2, rfl⟩ := List.append_of_mem he
  refine ⟨l1, e, l2, rfl, h2, ⟨h1 e he h2, h3⟩, ?_⟩
  intro e' he'
  exact h1 e' (by simp at he' ⊢; tauto)

/-- **C87** `Set` and `Del` on the wrapper of a private dataset do what the sequential methods do, at one of their steps. -/
theorem C87_set_del_at_one_step {P : Conf → Prop} {c1 c2 : Conf} {i a d : Nat} {key : Str} {l : List Event} (hlt : d < a)
    (ht : Trace (fun c => Private a d c ∧ P c) c1 l c2) (hm : Making i l) (hend : ¬ Busy c2 i) :
    (∀ v, (c1.gor i).stack = (Call.ds (.set key v) a).code → AtOneStep i l fun h h' => Dataset.set h a key v = .ok h') ∧
    ((c1.gor i).stack = (Call.ds (.del key) a).code → AtOneStep i l fun h h' => Dataset.del h a key = .ok h') := by
  have main : ∀ op : Op, op.mode = .write → op.deferred = false → (c1.gor i).stack = [.call op a] →
      AtOneStep i l fun h h' => ∃ m ans ans', h[d]? = some (.ds m) ∧ target h a = some d ∧
        datasetStep h ans d m [.release .write false a] op = .next h' ans' [.release .write false a] := by
    intro op h1 h2 h3
    obtain ⟨l1, e, l2, e1, e2, e3, _, e4⟩ := point_trace (B := WStage op a d) (A := fun s => s = [.release .write false a] ∨ s = [])
      (E := fun c c' => ∃ m ans ans', c.heap[d]? = some (.ds m) ∧ target c.heap a = some d ∧
        datasetStep c.heap ans d m [.release .write false a] op = .next c'.heap ans' [.release .write false a])
      (fun c c' hp _ _ hs hmv => by
        rcases hs.move h1 h2 hp.1 hmv with h | ⟨m, hm1, hm2, hm3⟩
        · exact .inl h
        · exact .inr ⟨⟨m, _, _, hm1, private_target hp.1 hlt, hm2⟩, .inl hm3⟩)
      (fun c c' hs hmv => release_move c c' hs hmv) nofun ht hm hend (by rw [h3]; exact .call)
    exact ⟨l1, e, l2, e1, e2, e3, e4⟩
  constructor
  · intro v hst
    obtain ⟨l1, e, l2, e1, e2, ⟨m, _, _, e3, e4, e5⟩, e6⟩ := main (.set key v) rfl rfl hst
    refine ⟨l1, e, l2, e1, e2, ?_, e6⟩
    simp only [datasetStep] at e5
    simp only [Dataset.set, e4, entries, e3]
    injection e5 with h1
    rw [h1]
  · intro hst
    obtain ⟨l1, e, l2, e1, e2, ⟨m, _, _, e3, e4, e5⟩, e6⟩ := main (.del key) rfl rfl hst
    refine ⟨l1, e, l2, e1, e2, ?_, e6⟩
    simp only [datasetStep] at e5
    simp only [Dataset.del, e4, entries, e3]
    injection e5 with h1
    rw [h1]

/-- **C87** So do the methods of a thread-safe collection that do not look into its elements. -/
theorem C87_collection_at_one_step {P : Conf → Prop} {c1 c2 : Conf} {i col : Nat} {op : ColOp} {l : List Event}
    (ht : Trace P c1 l c2) (hm : Making i l) (hend : ¬ Busy c2 i) (hst : (c1.gor i).stack = (Call.col op col).code) :
    AtOneStep i l fun h h' => match op with
      | .unshift d => h' = Dataset.unshift h col d
      | .push d => h' = Dataset.push h col d
      | .shift => ∃ d, Dataset.shift h col = .ok (h', d) ∧ (c2.gor i).ans = some (elemVal d)
      | .pop => ∃ d, Dataset.pop h col = .ok (h', d) ∧ (c2.gor i).ans = some (elemVal d)
      | .count => h' = h ∧ (c2.gor i).ans = some (.int .int (Dataset.count h col))
      | .get n => h' = h ∧ (c2.gor i).ans = (Dataset.colGetAt h col n).map elemVal := by
  obtain ⟨l1, e, l2, e1, e2, e3, e4, e5⟩ := point_trace (B := CStage op col)
    (A := fun s => s = [.release (colMode op).1 (colMode op).2 col] ∨ s = [])
    (E := fun c c' => exec c.heap (c.gor i).ans (.change op col) [.release (colMode op).1 (colMode op).2 col] =
        .next c'.heap (c'.gor i).ans [.release (colMode op).1 (colMode op).2 col])
    (fun c c' hp _ hcalm hs hmv => by
      rcases hs.move hcalm hmv with h | ⟨h1, h2⟩
      · exact .inl h
      · exact .inr ⟨h1, .inl h2⟩)
    (fun c c' hs hmv => release_move c c' hs hmv) nofun ht hm hend (by rw [hst]; exact .enter)
  refine ⟨l1, e, l2, e1, e2, ?_, e5⟩
  rw [e4]
  cases op with
  | unshift d => simp only [exec, changeStep] at e3; injection e3 with h1; exact h1.symm
  | push d => simp only [exec, changeStep] at e3; injection e3 with h1; exact h1.symm
  | shift =>
    simp only [exec, changeStep] at e3
    split at e3
    · rename_i h' d hsh
      injection e3 with h1 h2
      exact ⟨d, by rw [hsh, h1], h2.symm⟩
    · cases e3
  | pop =>
    simp only [exec, changeStep] at e3
    split at e3
    · rename_i h' d hsh
      injection e3 with h1 h2
      exact ⟨d, by rw [hsh, h1], h2.symm⟩
    · cases e3
  | count => simp only [exec, changeStep] at e3; injection e3 with h1 h2; exact ⟨h1.symm, h2.symm⟩
  | get n => simp only [exec, changeStep] at e3; injection e3 with h1 h2; exact ⟨h1.symm, h2.symm⟩

/-- Behind an element it is false: `a.Get("c>0>x")` has taken the first player from the collection; another goroutine takes the player out of
the collection and then sets its `x` to 2. The answer is 2, although there is no moment at which the path leads to 2. -/
theorem C87_paths_behind_elements_are_not_atomic : ∃ l c2,
    Trace (fun c => AllPrivate playerPairs c ∧ Dataset.get c.heap 1 b!"c>0>x" ≠ .ok (some (.int .int 2)))
      (startWith players (.ds (.get (split 62 b!"c>0>x")) 1)) l c2 ∧ Making 0 l ∧ ¬ Busy c2 0 ∧ (c2.gor 0).ans = some (.int .int 2) := by
  obtain ⟨l, c2, h1, h2, h3, h4⟩ := call_trace (n := 2)
    (P := fun c => AllPrivate playerPairs c ∧ Dataset.get c.heap 1 b!"c>0>x" ≠ .ok (some (.int .int 2)))
    (p := fun c => (privateB 1 0 2 c && privateB 4 3 2 c && privateB 6 5 2 c) && decide (Dataset.get c.heap 1 b!"c>0>x" ≠ .ok (some (.int .int 2))))
    (fun c hid hp => by
      simp only [Bool.and_eq_true (privateB 1 0 2 c && privateB 4 3 2 c && privateB 6 5 2 c), decide_eq_true_eq] at hp
      exact ⟨allPrivate_players c hid hp.1, hp.2⟩) (by omega)
    (c1 := startWith players (.ds (.get (split 62 b!"c>0>x")) 1))
    (fun i hi => by simp only [startWith, Conf.go]; rw [upd_ne _ _ (by omega)]; rfl)
    (xs := List.replicate 7 (.move 0) ++ [.begin 1 (.col .shift 2)] ++ List.replicate 4 (.move 1) ++
      [.begin 1 (.ds (.set b!"x" (.int .int 2)) 4)] ++ List.replicate 6 (.move 1) ++ List.replicate 5 (.move 0))
    (q := fun c => decide ((c.gor 0).ans = some (.int .int 2))) (by set_option maxRecDepth 8000 in decide)
  exact ⟨l, c2, h1, h2, h3, by simpa using h4⟩

/-- The hypotheses of `C87_get_at_one_step_partial` are met: `a.Get("c>0")`, while another goroutine takes the first player out. -/
example : ∃ (l : List Event) (c2 : Conf), AtOneStep 0 l (fun h h' => h' = h ∧ Dataset.get h 1 b!"c>0" = .ok (c2.gor 0).ans) ∧ (c2.gor 0).ans = some (.ptr 6) := by
  obtain ⟨l, c2, h1, h2, h3, h4⟩ := call_trace (n := 2)
    (P := fun c => AllPrivate playerPairs c ∧ Along playerPairs c.heap 1 (split 62 b!"c>0"))
    (p := fun c => (privateB 1 0 2 c && privateB 4 3 2 c && privateB 6 5 2 c) &&
      decide (c.heap[0]? = some (.ds [(b!"c", .ptr 2)]) ∧ c.heap[2]? = some (.colTS (elems c.heap 2))))
    (fun c hid hp => by
      simp only [Bool.and_eq_true (privateB 1 0 2 c && privateB 4 3 2 c && privateB 6 5 2 c), decide_eq_true_eq] at hp
      exact ⟨allPrivate_players c hid hp.1, .element (d := 0) (by simp [playerPairs]) hp.2.1 rfl hp.2.2⟩) (by omega)
    (c1 := startWith players (.ds (.get (split 62 b!"c>0")) 1))
    (fun i hi => by simp only [startWith, Conf.go]; rw [upd_ne _ _ (by omega)]; rfl)
    (xs := List.replicate 4 (.move 0) ++ [.begin 1 (.col .shift 2)] ++ List.replicate 4 (.move 1) ++ List.replicate 3 (.move 0))
    (q := fun c => decide ((c.gor 0).ans = some (.ptr 6))) (by set_option maxRecDepth 8000 in decide)
  have hr : Run (AllPrivate playerPairs) (start players) (startWith players (.ds (.get (split 62 b!"c>0")) 1)) :=
    .step (.refl (allPrivate_players _ (start_idle _ _) (by decide))) (.begin rfl (.inr ⟨_, rfl⟩)) nofun
      h1.first.1
  exact ⟨l, c2, C87_get_at_one_step_partial hr (by simp [startWith, Conf.go]) h1 h2 h3, by simpa using h4⟩

/-- And of the theorem about `Set`: `Set` of `x`, while another goroutine reads. -/
example : ∃ l, AtOneStep 0 l fun h h' => Dataset.set h 4 b!"x" (.int .int 2) = .ok h' := by
  obtain ⟨l, c2, h1, h2, h3, _⟩ := call_trace (n := 2) (P := fun c => Private 4 3 c ∧ True) (p := fun c => privateB 4 3 2 c)
    (fun c hid hp => ⟨private_of_privateB hid hp, trivial⟩) (by omega)
    (c1 := startWith players (.ds (.set b!"x" (.int .int 2)) 4))
    (fun i hi => by simp only [startWith, Conf.go]; rw [upd_ne _ _ (by omega)]; rfl)
    (xs := [.begin 1 (.ds (.get [b!"x"]) 4), .move 1, .move 1, .move 0, .move 0, .move 1, .move 1, .move 1] ++ List.replicate 3 (.move 0))
    (q := fun _ => true) (by set_option maxRecDepth 8000 in decide)
  exact ⟨l, (C87_set_del_at_one_step (by omega) h1 h2 h3).1 _ (by simp [startWith, Conf.go])⟩

/-- And of the theorem about collections. -/
example : ∃ (l : List Event) (c2 : Conf), AtOneStep 0 l fun h h' => ∃ d, Dataset.shift h 2 = .ok (h', d) ∧ (c2.gor 0).ans = some (elemVal d) := by
  obtain ⟨l, c2, h1, h2, h3, _⟩ := call_trace (n := 2) (P := fun _ => True) (p := fun _ => true)
    (fun _ _ _ => trivial) (by omega)
    (c1 := startWith players (.col .shift 2))
    (fun i hi => by simp only [startWith, Conf.go]; rw [upd_ne _ _ (by omega)]; rfl)
    (xs := [.begin 1 (.col .count 2), .move 1, .move 0, .move 1, .move 1, .move 0, .move 0])
    (q := fun _ => true) (by set_option maxRecDepth 8000 in decide)
  exact ⟨l, c2, C87_collection_at_one_step (op := .shift) (col := 2) h1 h2 h3 (by simp [startWith, Conf.go])⟩

end Xcore.Nested
