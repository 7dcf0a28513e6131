import Verif.Proof.NestedCover
import Verif.Proof.NestedAlone
import Verif.Proof.DatasetWF

/-!
# Nested thread-safe objects

Objects that contain other thread-safe objects are used by many goroutines at once (xdatasetts.go, xdatasetcollectionts.go, xdataset.go).
-/

namespace Xcore.Nested

open Dataset Lock

/-! ## C84: calls do not block each other for ever -/

/-- As long as every object refers to objects of lower layers only, whatever calls any number of goroutines make, in any order, on any of
the objects: if somebody is making a call, then somebody can go on. Missing: data without layers, for which it is false (below). -/
theorem C84_layered_data_never_deadlocks_partial {r : Nat → Nat} {h0 : Heap} {c : Conf}
    (h : Run (fun c => Layered r c.heap) (start h0) c) : ¬ Deadlock c := by
  rintro ⟨⟨i, hi⟩, hno⟩
  obtain ⟨j, c', hm⟩ := progress (Held.run h) (Orderly.run h).1 hi
  exact hno j c' hm

/-- And if no more calls are begun, the calls being made end, whichever way the goroutines take turns: they cannot take turns for ever, and
when none can go on, none is making a call. -/
theorem C84_layered_calls_end_partial {r : Nat → Nat} {h0 : Heap} {c : Conf} {n : Nat}
    (h : Run (fun c => Layered r c.heap) (start h0) c) (hn : ∀ i, n ≤ i → ¬ Busy c i) :
    (¬ ∃ f : Nat → Conf, f 0 = c ∧ ∀ k, Onward (fun c => Layered r c.heap) (f k) (f (k + 1))) ∧
    ∀ f : Nat → Conf, f 0 = c → ∀ k, (∀ j < k, Onward (fun c => Layered r c.heap) (f j) (f (j + 1))) → (∀ j c', ¬ Move (f k) j c') →
      ∀ i, ¬ Busy (f k) i := by
  have hrun : ∀ (f : Nat → Conf), f 0 = c → ∀ k, (∀ j < k, Onward (fun c => Layered r c.heap) (f j) (f (j + 1))) →
      Run (fun c => Layered r c.heap) (start h0) (f k) ∧ ∀ i, n ≤ i → ¬ Busy (f k) i := by
    intro f h0 k
    induction k with
    | zero => intro _; rw [h0]; exact ⟨h, hn⟩
    | succ k ih =>
      intro hk
      obtain ⟨h1, h2⟩ := ih fun j hj => hk j (by omega)
      obtain ⟨i, hm, hc, hp⟩ := hk k (Nat.lt_succ_self k)
      refine ⟨.step h1 (.move hm) ?_ hp, ?_⟩
      · intro j hj
        cases hj
        exact hc
      · intro j hj hb
        have hi : i < n := Nat.lt_of_not_le fun hi => h2 i hi hm.busy
        rw [Busy, hm.gor_ne (by omega)] at hb
        exact h2 j hj hb
  refine ⟨?_, ?_⟩
  · rintro ⟨f, h0, hf⟩
    have hdec : ∀ k, Relation.TransGen (Relation.CutExpand Less) (total r (f (k + 1)).gor n) (total r (f k).gor n) := by
      intro k
      obtain ⟨h1, h2⟩ := hrun f h0 k fun j _ => hf j
      obtain ⟨i, hm, _, _⟩ := hf k
      exact move_less (Nat.lt_of_not_le fun hi => h2 i hi hm.busy) (Orderly.run h1).1 (Orderly.run h1).2 hm
    have : ∀ t, ∀ k, total r (f k).gor n ≠ t := by
      intro t
      induction t using less_total_wf.induction with
      | _ t ih =>
        intro k e
        exact ih _ (e ▸ hdec k) (k + 1) rfl
    exact this _ 0 rfl
  · intro f h0 k hk hno i hi
    exact C84_layered_data_never_deadlocks_partial (hrun f h0 k hk).1 ⟨⟨i, hi⟩, hno⟩

/-- A thread-safe dataset within a thread-safe dataset. -/
def family : Heap := [.ds [(b!"name", .str b!"ann")], .dsTS (some 0), .ds [(b!"child", .ptr 1)], .dsTS (some 2)]

/-- Non-vacuity: one goroutine is inside `Get("child>name")`, holds the outer lock and waits for the inner one, which another goroutine
holds for `Set`. -/
example : ∃ c, Run (fun c => Layered id c.heap) (start family) c ∧ Holds c 0 3 false ∧ Holds c 1 1 true ∧
    (∀ c', ¬ Move c 0 c') ∧ ¬ Deadlock c := by
  obtain ⟨c, h1, _, h3⟩ := reach (p := fun c => layeredB id c.heap) (fun c _ h => layered_of_layeredB h) (n := 2) (h := family)
    (xs := [.begin 1 (.ds (.set b!"name" (.str b!"eve")) 1), .move 1, .move 1, .move 1,
      .begin 0 (.ds (.get [b!"child", b!"name"]) 3), .move 0, .move 0, .move 0, .move 0, .move 0])
    (q := fun c => (c.locks 3).readers = [0] && (c.locks 1).writer = some 1 && (tryMove c 0).isNone) (by decide)
  simp only [Bool.and_eq_true, decide_eq_true_eq, Option.isNone_iff_eq_none] at h3
  refine ⟨c, h1, Or.inl (by rw [h3.1.1]; simp), h3.1.2, ?_, C84_layered_data_never_deadlocks_partial h1⟩
  intro c' hm
  rw [hm.tryMove] at h3
  cases h3.2

/-- Two datasets that know each other. -/
def relatives : Heap := [.ds [(b!"child", .ptr 3)], .dsTS (some 0), .ds [(b!"parent", .ptr 1)], .dsTS (some 2)]

/-- Without layers it is false: parent and child refer to each other, one goroutine calls `parent.Get("child>parent>name")`, another one
`parent.Set("x", 1)`. The `Set` comes to wait between the two `RLock`s of the parent's mutex, the second one waits for the `Set`, and the
`Set` for the first one. -/
theorem C84_mutual_references_deadlock : ∃ c, Run (fun _ => True) (start relatives) c ∧ Deadlock c := by
  obtain ⟨c, h1, h2, h3⟩ := reach (P := fun _ => True) (p := fun _ => true) (fun _ _ _ => trivial) (n := 2) (h := relatives)
    (xs := [.begin 0 (.ds (.get [b!"child", b!"parent", b!"name"]) 1)] ++ List.replicate 9 (.move 0) ++
      [.begin 1 (.ds (.set b!"x" (.int .int 1)) 1), .move 1, .move 1])
    (q := stuckB 2) (by decide)
  exact ⟨c, h1, deadlock_of_stuckB h2 h3⟩

/-- A dataset with a collection with one dataset. -/
def league : Heap := [.ds [(b!"c", .ptr 2)], .dsTS (some 0), .colTS [some 4], .ds [], .dsTS (some 3)]

/-- Nor is it enough that at every moment no way leads from an object back to itself: the order of layers must not change. One goroutine
calls `a.Get("c>0>a>x")` and has just got the element from the collection; another one takes the element out of the collection and then
lets it refer to `a`; a third one calls `a.Set("x", 1)`. -/
theorem C84_no_cycle_at_any_moment_deadlocks : ∃ c, Run (fun c => Acyclic c.heap) (start league) c ∧ Deadlock c := by
  obtain ⟨c, h1, h2, h3⟩ := reach (P := fun c => Acyclic c.heap)
    (p := fun c => layeredB (fun a => [3, 4, 2, 0, 1].getD a 0) c.heap || layeredB (fun a => [1, 2, 0, 3, 4].getD a 0) c.heap)
    (fun c _ h => by
      rcases Bool.or_eq_true _ _ ▸ h with h | h
      · exact ⟨_, layered_of_layeredB h⟩
      · exact ⟨_, layered_of_layeredB h⟩) (n := 3) (h := league)
    (xs := [.begin 0 (.ds (.get [b!"c", b!"0", b!"a", b!"x"]) 1)] ++ List.replicate 7 (.move 0) ++
      [.begin 1 (.col .pop 2)] ++ List.replicate 4 (.move 1) ++
      [.begin 1 (.ds (.set b!"a" (.ptr 1)) 4)] ++ List.replicate 6 (.move 1) ++
      [.begin 2 (.ds (.set b!"x" (.int .int 1)) 1), .move 2, .move 2] ++ List.replicate 5 (.move 0))
    (q := stuckB 3) (by set_option maxRecDepth 4000 in decide)
  exact ⟨c, h1, deadlock_of_stuckB h2 h3⟩

/-- And the executions are those in which no panic leaves a lock behind, as `Pop` of an empty collection does: whoever uses the collection
next waits for ever. -/
theorem C84_panic_under_lock_deadlocks : ∃ c, Reaches (start [.colTS []]) c ∧ Deadlock c ∧ ∀ a b, ¬ Contains c.heap a b := by
  obtain ⟨c, h1, h2, h3⟩ := reach_any (n := 2) (h := [.colTS []])
    (xs := [.begin 0 (.col .pop 0), .move 0, .move 0, .move 0, .begin 1 (.col .count 0)])
    (q := fun c => stuckB 2 c && c.heap = [.colTS []]) (by decide)
  simp only [Bool.and_eq_true, decide_eq_true_eq] at h3
  refine ⟨c, h1, deadlock_of_stuckB h2 h3.1, ?_⟩
  rw [h3.2]
  intro a b hc
  obtain ⟨o, ho, hm⟩ := contains_refs hc
  cases a with
  | zero => cases ho; cases hm
  | succ a => cases ho

/-! ## C85: what is protected by which lock -/

/-- As long as only the wrapper `a` refers to the dataset `t` and nobody calls methods of `t` itself, whoever is about to read the entries of
`t` has the lock of `a`, for itself if it is about to change them; so nobody changes the entries while another goroutine uses them.
Everything else may be shared and nested in any way. -/
theorem C85_private_data_is_protected {a t : Nat} {h0 : Heap} {c : Conf} (h : Run (Private a t) (start h0) c) {i : Nat} {op : Op}
    (hi : Accesses c i op t) :
    Holds c i a op.writes ∧ ∀ j op', j ≠ i → Accesses c j op' t → op.writes = false ∧ op'.writes = false :=
  ⟨accesses_holds h hi, fun _ _ hij hj => (accesses_holds h hi).excl (Held.run h) hij (accesses_holds h hj)⟩

/-- The same for the elements of a thread-safe collection, in every execution. Missing: `Clone`, which takes no lock (below). -/
theorem C85_elements_are_protected_partial {P : Conf → Prop} {h0 : Heap} {c : Conf} (h : Run P (start h0) c) {col : Nat}
    (hcol : ∃ l, c.heap[col]? = some (.colTS l)) (hno : ∀ k s, (c.gor k).stack ≠ .call .clone col :: s) {i : Nat} {w : Bool}
    (hi : Touches c i col w) :
    Holds c i col w ∧ ∀ j w', j ≠ i → Touches c j col w' → w = false ∧ w' = false :=
  ⟨touches_holds h hcol (hno i) hi, fun j _ hij hj => (touches_holds h hcol (hno i) hi).excl (Held.run h) hij (touches_holds h hcol (hno j) hj)⟩

/-- Non-vacuity: two goroutines read the private dataset at once, through a dataset both can reach. -/
example : ∃ c, Run (Private 1 0) (start family) c ∧ Accesses c 0 (.get [b!"name"]) 0 ∧ Accesses c 1 .print 0 ∧
    (c.locks 1).readers = [1, 0] := by
  obtain ⟨c, h1, _, h3⟩ := reach (P := Private 1 0) (p := privateB 1 0 2) (n := 2) (fun c hid h => private_of_privateB hid h) (h := family)
    (xs := [.begin 0 (.ds (.get [b!"child", b!"name"]) 3)] ++ List.replicate 7 (.move 0) ++ [.begin 1 (.ds .print 1)] ++ List.replicate 3 (.move 1))
    (q := fun c => (c.gor 0).stack.head? = some (.call (.get [b!"name"]) 0) && (c.gor 1).stack.head? = some (.call .print 0) &&
      (c.locks 1).readers = [1, 0]) (by decide)
  simp only [Bool.and_eq_true, decide_eq_true_eq] at h3
  obtain ⟨⟨h3, h4⟩, h5⟩ := h3
  refine ⟨c, h1, ?_, ?_, h5⟩
  · obtain ⟨s, hs⟩ := List.head?_eq_some_iff.1 h3; exact ⟨s, hs⟩
  · obtain ⟨s, hs⟩ := List.head?_eq_some_iff.1 h4; exact ⟨s, hs⟩

/-- And one goroutine changes it, for itself. -/
example : ∃ c, Run (Private 1 0) (start family) c ∧ Accesses c 1 (.set b!"name" .nil) 0 ∧ Holds c 1 1 true := by
  obtain ⟨c, h1, _, h3⟩ := reach (P := Private 1 0) (p := privateB 1 0 2) (n := 2) (fun c hid h => private_of_privateB hid h) (h := family)
    (xs := [.begin 1 (.ds (.set b!"name" .nil) 1)] ++ List.replicate 4 (.move 1))
    (q := fun c => (c.gor 1).stack.head? = some (.call (.set b!"name" .nil) 0)) (by decide)
  simp only [decide_eq_true_eq] at h3
  obtain ⟨s, hs⟩ := List.head?_eq_some_iff.1 h3
  exact ⟨c, h1, ⟨s, hs⟩, (C85_private_data_is_protected h1 ⟨s, hs⟩).1⟩

/-- One dataset in two wrappers. -/
def twice : Heap := [.ds [], .dsTS (some 0), .dsTS (some 0)]

/-- A dataset that two wrappers refer to is not protected: two goroutines change it at the same time. -/
theorem C85_two_wrappers_do_not_protect : ∃ c, Run (fun _ => True) (start twice) c ∧
    Accesses c 0 (.set b!"x" .nil) 0 ∧ Accesses c 1 (.set b!"x" .nil) 0 := by
  obtain ⟨c, h1, _, h3⟩ := reach (P := fun _ => True) (p := fun _ => true) (fun _ _ _ => trivial) (n := 2) (h := twice)
    (xs := [.begin 0 (.ds (.set b!"x" .nil) 1), .begin 1 (.ds (.set b!"x" .nil) 2)] ++ List.replicate 4 (.move 0) ++ List.replicate 4 (.move 1))
    (q := fun c => (c.gor 0).stack.head? = some (.call (.set b!"x" .nil) 0) && (c.gor 1).stack.head? = some (.call (.set b!"x" .nil) 0)) (by decide)
  simp only [Bool.and_eq_true, decide_eq_true_eq] at h3
  obtain ⟨h3, h4⟩ := h3
  refine ⟨c, h1, ?_, ?_⟩
  · obtain ⟨s, hs⟩ := List.head?_eq_some_iff.1 h3; exact ⟨s, hs⟩
  · obtain ⟨s, hs⟩ := List.head?_eq_some_iff.1 h4; exact ⟨s, hs⟩

/-- Non-vacuity of the theorem about elements: one goroutine adds an element, for itself, while another one waits to read the elements. -/
example : ∃ c, Run (fun _ => True) (start league) c ∧ Touches c 1 2 true ∧ Busy c 0 ∧ (∀ k s, (c.gor k).stack ≠ .call .clone 2 :: s) := by
  obtain ⟨c, h1, h2, h3⟩ := reach (P := fun _ => True) (p := fun _ => true) (fun _ _ _ => trivial) (n := 2) (h := league)
    (xs := [.begin 1 (.col (.push none) 2), .move 1, .move 1, .begin 0 (.getData 2 b!"x")])
    (q := fun c => decide ((c.gor 0).stack = [.enter .read false 2 (.size 2 b!"x")]) &&
      (c.gor 1).stack = [.change (.push none) 2, .release .write false 2]) (by decide)
  simp only [Bool.and_eq_true, decide_eq_true_eq] at h3
  obtain ⟨h3, h4⟩ := h3
  refine ⟨c, h1, Touches.change h4, by rw [Busy, h3]; nofun, ?_⟩
  intro k s
  match k with
  | 0 => rw [h3]; nofun
  | 1 => rw [h4]; nofun
  | k + 2 => rw [h2 (k + 2) (by omega)]; nofun

/-- `Clone` of a thread-safe collection reads the elements without lock: it does so while another goroutine changes them. -/
theorem C85_clone_of_a_collection_is_not_protected : ∃ c, Run (fun _ => True) (start league) c ∧
    Touches c 0 2 false ∧ Touches c 1 2 true ∧ Holds c 1 2 true := by
  obtain ⟨c, h1, _, h3⟩ := reach (P := fun _ => True) (p := fun _ => true) (fun _ _ _ => trivial) (n := 2) (h := league)
    (xs := [.begin 1 (.col (.push none) 2), .move 1, .move 1, .begin 0 (.ds .clone 1)] ++ List.replicate 4 (.move 0))
    (q := fun c => decide ((c.gor 0).stack.head? = some (.call .clone 2)) && decide ((c.gor 1).stack = [.change (.push none) 2, .release .write false 2]) &&
      (c.locks 2).writer = some 1) (by decide)
  simp only [Bool.and_eq_true, decide_eq_true_eq] at h3
  obtain ⟨⟨h3, h4⟩, h5⟩ := h3
  obtain ⟨s, hs⟩ := List.head?_eq_some_iff.1 h3
  exact ⟨c, h1, .clone hs, Touches.change h4, h5⟩

/-! ## C86: calls that are not disturbed -/

/-- The end of a call described by `Outcome`. -/
theorem ends_of_outcome {c : Conf} {i : Nat} {s : List Instr} {r : Res (Option Val)} (hst : (c.gor i).stack = s)
    (h : Outcome c.heap c.locks c.gor i s [] (c.gor i).ans r) :
    ∃ c', Ends i c c' ∧ c'.heap = c.heap ∧ c'.locks = c.locks ∧ r ≠ .diverge ∧ ∀ v, r = .ok v → (c'.gor i).ans = v := by
  cases r with
  | ok v =>
    refine ⟨st c.heap c.locks c.gor i [] v, .of_alone (alone_self hst h) (by simp [st]), rfl, rfl, nofun, ?_⟩
    intro w hw; cases hw; simp [st]
  | panic =>
    obtain ⟨ans', h⟩ := h
    exact ⟨st c.heap c.locks c.gor i [] ans', .of_alone (alone_self hst h) (by simp [st]), rfl, rfl, nofun, nofun⟩
  | diverge => exact h.elim

/-- `Get` of a goroutine that is not disturbed, on data nested in any way, while others may be reading: it ends, answers what `Get` of the
sequential code answers, changes nothing and gives back every lock it took; also when it panics. -/
theorem C86_get_undisturbed {c : Conf} {i a : Nat} {key : Str} (wf : WF c.heap) (hd : IsDataset c.heap a)
    (hfree : ∀ b, (c.locks b).writer = none ∧ (c.locks b).pending = none)
    (hst : (c.gor i).stack = (Call.ds (.get (split 62 key)) a).code) :
    ∃ c', Ends i c c' ∧ c'.heap = c.heap ∧ c'.locks = c.locks ∧ Dataset.get c.heap a key ≠ .diverge ∧
      ∀ v, Dataset.get c.heap a key = .ok v → (c'.gor i).ans = v :=
  ends_of_outcome hst (get_alone (g := c.gor) (i := i) wf _ (split 62 key) rfl (split_ne_nil _ _) a hd c.locks hfree [] (c.gor i).ans)

/-- `GetData` of a thread-safe collection, which takes and gives back the lock once for every element it looks into. -/
theorem C86_getData_undisturbed {c : Conf} {i col : Nat} {key : Str} (wf : WF c.heap)
    (hfree : ∀ b, (c.locks b).writer = none ∧ (c.locks b).pending = none) (hst : (c.gor i).stack = (Call.getData col key).code) :
    ∃ c', Ends i c c' ∧ c'.heap = c.heap ∧ c'.locks = c.locks ∧ Dataset.getData c.heap col key ≠ .diverge ∧
      ∀ v, Dataset.getData c.heap col key = .ok v → (c'.gor i).ans = v :=
  ends_of_outcome hst (getData_alone wf hfree [] (c.gor i).ans)

/-- `Set` and `Del` of a goroutine that is not disturbed. -/
theorem C86_set_del_undisturbed {c : Conf} {i a : Nat} {key : Str} {v : Val} (wf : WF c.heap) (hfree : ∀ b, c.locks b = ⟨none, none, []⟩) :
    ((c.gor i).stack = (Call.ds (.set key v) a).code → ∀ h', Dataset.set c.heap a key v = .ok h' →
      ∃ c', Ends i c c' ∧ c'.heap = h' ∧ c'.locks = c.locks) ∧
    ((c.gor i).stack = (Call.ds (.del key) a).code → ∀ h', Dataset.del c.heap a key = .ok h' →
      ∃ c', Ends i c c' ∧ c'.heap = h' ∧ c'.locks = c.locks) := by
  have key1 : ∀ (op : Op) (t : Nat) (m : AMap Val) (m' : AMap Val), op.mode = .write → (c.gor i).stack = [.call op a] → target c.heap a = some t →
      c.heap[t]? = some (.ds m) → (∀ s ans, exec c.heap ans (.call op t) s = .next (c.heap.set t (.ds m')) ans s) →
      ∃ c', Ends i c c' ∧ c'.heap = c.heap.set t (.ds m') ∧ c'.locks = c.locks := by
    intro op t m m' hop hst ht hm he
    have h := write_alone (g := c.gor) (i := i) wf ((target_iff wf).1 ht) hop he c.locks (fun b _ => hfree b) [] (c.gor i).ans
    exact ⟨st (c.heap.set t (.ds m')) c.locks c.gor i [] (c.gor i).ans, .of_alone (alone_self hst h) (by simp [st]), rfl, rfl⟩
  constructor
  all_goals
    intro hst h' e
    simp only [Dataset.set, Dataset.del] at e
    cases ht : target c.heap a with
    | none => rw [ht] at e; cases e
    | some t =>
      rw [ht] at e
      cases e
      obtain ⟨m, hm⟩ := target_ds ht
      exact key1 _ t m _ rfl hst ht hm fun s ans => by simp only [exec, callStep, hm, datasetStep, entries]

/-- The methods of a thread-safe collection that do not look into its elements, of a goroutine that is not disturbed. -/
theorem C86_collection_undisturbed {c : Conf} {i col : Nat} {op : ColOp} (hfree : c.locks col = ⟨none, none, []⟩)
    (hst : (c.gor i).stack = (Call.col op col).code) :
    match op with
    | .unshift d => ∃ c', Ends i c c' ∧ c'.heap = Dataset.unshift c.heap col d ∧ c'.locks = c.locks
    | .push d => ∃ c', Ends i c c' ∧ c'.heap = Dataset.push c.heap col d ∧ c'.locks = c.locks
    | .shift => ∀ h' d, Dataset.shift c.heap col = .ok (h', d) →
        ∃ c', Ends i c c' ∧ c'.heap = h' ∧ c'.locks = c.locks ∧ (c'.gor i).ans = some (elemVal d)
    | .pop => ∀ h' d, Dataset.pop c.heap col = .ok (h', d) →
        ∃ c', Ends i c c' ∧ c'.heap = h' ∧ c'.locks = c.locks ∧ (c'.gor i).ans = some (elemVal d)
    | .count => ∃ c', Ends i c c' ∧ c'.heap = c.heap ∧ c'.locks = c.locks ∧ (c'.gor i).ans = some (.int .int (Dataset.count c.heap col))
    | .get n => ∃ c', Ends i c c' ∧ c'.heap = c.heap ∧ c'.locks = c.locks ∧ (c'.gor i).ans = (Dataset.colGetAt c.heap col n).map elemVal := by
  have go : ∀ h' ans', (∀ s, exec c.heap (c.gor i).ans (.change op col) s = .next h' ans' s) → ((colMode op).1 = .read → h' = c.heap) →
      ∃ c', Ends i c c' ∧ c'.heap = h' ∧ c'.locks = c.locks ∧ (c'.gor i).ans = ans' := by
    intro h' ans' he hr
    have h := change_alone (L := c.locks) (g := c.gor) (i := i) hfree he hr
    exact ⟨st h' c.locks c.gor i [] ans', .of_alone (alone_self hst h) (by simp [st]), rfl, rfl, by simp [st]⟩
  cases op with
  | unshift d => obtain ⟨c', h1, h2, h3, _⟩ := go _ _ (fun _ => rfl) nofun; exact ⟨c', h1, h2, h3⟩
  | push d => obtain ⟨c', h1, h2, h3, _⟩ := go _ _ (fun _ => rfl) nofun; exact ⟨c', h1, h2, h3⟩
  | shift => intro h' d e; exact go _ _ (fun _ => by simp only [exec, changeStep, e]) nofun
  | pop => intro h' d e; exact go _ _ (fun _ => by simp only [exec, changeStep, e]) nofun
  | count => exact go _ _ (fun _ => rfl) (fun _ => rfl)
  | get n => exact go _ _ (fun _ => rfl) (fun _ => rfl)

theorem family_wf : WF family := by
  rw [wf_iff]
  intro a o ho
  have : a < 4 := (List.getElem?_eq_some_iff.1 ho).1
  match a, this with
  | 0, _ => cases ho; exact ⟨by decide, by intro k v hb; simp at hb; rw [hb.2]; trivial⟩
  | 1, _ => cases ho; exact ⟨by omega, Or.inl ⟨_, rfl⟩⟩
  | 2, _ => cases ho; exact ⟨by decide, by intro k v hb; simp at hb; rw [hb.2]; simp [Valid, family]⟩
  | 3, _ => cases ho; exact ⟨by omega, Or.inl ⟨_, rfl⟩⟩

/-- Non-vacuity: a key with a path and all the hypotheses, and what comes out. -/
example : ∃ c, Step (start family) none c ∧ WF c.heap ∧ IsDataset c.heap 3 ∧ (∀ b, c.locks b = ⟨none, none, []⟩) ∧
    (c.gor 0).stack = (Call.ds (.get (split 62 b!"child>name")) 3).code ∧
    ∃ c', Ends 0 c c' ∧ (c'.gor 0).ans = some (.str b!"ann") ∧ c'.locks = c.locks := by
  refine ⟨_, .begin (i := 0) (call := .ds (.get (split 62 b!"child>name")) 3) rfl (Or.inr ⟨_, rfl⟩), family_wf, Or.inr ⟨_, rfl⟩,
    fun _ => rfl, rfl, ?_⟩
  obtain ⟨c', h1, _, h3, _, h4⟩ := C86_get_undisturbed (c := { start family with gor := (start family).go 0 _ }) (i := 0) (a := 3)
    (key := b!"child>name") family_wf (Or.inr ⟨_, rfl⟩) (fun _ => ⟨rfl, rfl⟩) rfl
  exact ⟨c', h1, h4 _ (by decide), h3⟩

/-- `Set` through the wrapper. -/
example : ∃ c', Ends 0 { start family with gor := (start family).go 0 (Call.ds (.set b!"name" (.bool true)) 1).code } c' ∧
    c'.heap[0]? = some (.ds [(b!"name", .bool true)]) := by
  obtain ⟨c', h1, h2, _⟩ := (C86_set_del_undisturbed (c := { start family with gor := (start family).go 0 _ }) (i := 0) (a := 1)
    (key := b!"name") (v := .bool true) family_wf (fun _ => rfl)).1 rfl _ rfl
  exact ⟨c', h1, by rw [h2]; decide⟩

end Xcore.Nested
