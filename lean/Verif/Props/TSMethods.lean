import Verif.Proof.TSMethods

/-!
# Properties C14, C28 and C57 for XDatasetTS, XDatasetCollectionTS and XLanguage

Goroutine `i` makes the calls `calls i` on one object; the calls are interleaved memory access by memory access
(`Verif/Model/Lock.lean`, `Verif/Model/Method.lean`). The sequential meaning of a call is the sequential model of the same method
(`Xcore.Dataset.set`, `Xcore.Dataset.pop`, `Xcore.Language.get`, ...).
-/

namespace Xcore.Lock

variable {σ ρ Ω Op : Type}

/-- **C14** Methods that do their work in one critical section are atomic, whatever the accesses they are made of, if reading methods do not
write. -/
theorem C14_methods_are_atomic (meth : Op → Method σ ρ Ω) (seq : Op → σ → σ × Res Ω) (hseq : ∀ op s, (meth op).alone s = seq op s)
    (hro : ∀ op, ReadOnly (meth op).section) (r0 : ρ) (s0 : σ) (calls : Nat → List Op) (c : Config σ (Frame ρ Ω))
    (h : Reach (callers meth r0 s0 calls) c) : Atomic meth seq s0 calls c :=
  methods_atomic meth seq hseq hro r0 s0 calls c h

/-- **C28** What is safe in every sequential history is safe in every schedule: if the calls keep `P` true and calls without deferred unlock
do not panic when `P` holds, then in no schedule does a call leave the lock behind. -/
theorem C28_no_lock_is_left_behind (meth : Op → Method σ ρ Ω) (seq : Op → σ → σ × Res Ω) (hseq : ∀ op s, (meth op).alone s = seq op s)
    (hro : ∀ op, ReadOnly (meth op).section) (r0 : ρ) (s0 : σ) (calls : Nat → List Op) (P : σ → Prop) (h0 : P s0)
    (hP : ∀ i, ∀ op ∈ calls i, ∀ s, P s → P (seq op s).1)
    (hs : ∀ i, ∀ op ∈ calls i, ∀ s, P s → (meth op).deferred = false → (seq op s).2 ≠ .panic)
    (c : Config σ (Frame ρ Ω)) (h : Reach (callers meth r0 s0 calls) c) : Calm (callers meth r0 s0 calls) c := by
  have hro' : ∀ i, ∀ sec ∈ (calls i).map (fun op => (meth op).section), ReadOnly sec := by
    intro i sec hs
    obtain ⟨op, _, rfl⟩ := List.mem_map.1 hs
    exact hro op
  have hrun : ∀ ops : List Op, (∀ op ∈ ops, ∃ i, op ∈ calls i) → ∀ s, P s → P (runCalls seq s ops).1 := by
    intro ops
    induction ops with
    | nil => intro _ s hs; exact hs
    | cons op ops ih =>
      intro hm s hs
      obtain ⟨i, hi⟩ := hm op (by simp)
      exact ih (fun o ho => hm o (by simp [ho])) _ (hP i op hi s hs)
  induction h with
  | refl => exact .refl
  | @step c c' i h hst ih =>
    refine .step ih ?_ hst
    intro sec hc hp
    have hi := Inv.reach hro' h
    obtain ⟨S, Ls, h1, _, h3, _⟩ := hi.replay
    have hmem : sec ∈ (calls i).map (fun op => (meth op).section) := by rw [← hi.order i, hc]; simp
    obtain ⟨op, hop, rfl⟩ := List.mem_map.1 hmem
    cases hd : (meth op).deferred with
    | true => exact hd
    | false =>
      exfalso
      obtain ⟨hist, e1, e2⟩ := exists_history (fun op => (meth op).section) c.log
        (fun i => (calls i).take ((calls i).length - (c.threads i).todo.length - (c.threads i).cur.toList.length)) (by
          intro i
          have ho := hi.order i
          have hl := congrArg List.length ho
          simp only [List.length_append, List.length_map] at hl
          rw [List.map_take, ← ho, List.append_assoc, List.take_append_of_le_length (by simp only [List.length_map]; omega), List.take_of_length_le]
          simp only [List.length_map]; omega)
      obtain ⟨e3, _⟩ := replay_history meth seq hseq s0 ⟨0, r0, []⟩ rfl h1 hist e1
      have hPS : P S := by
        rw [e3]
        refine hrun _ ?_ _ h0
        intro op hop
        obtain ⟨p, hp, rfl⟩ := List.mem_map.1 hop
        refine ⟨p.1, ?_⟩
        apply List.mem_of_mem_take (i := (calls p.1).length - (c.threads p.1).todo.length - (c.threads p.1).cur.toList.length)
        rw [← e2 p.1]
        exact List.mem_map.2 ⟨p, List.mem_filter.2 ⟨hp, by simp⟩, rfl⟩
      have := panic_alone (h3 i _ hc) hp
      rw [hseq] at this
      exact hs i op hop S hPS hd this

/-- **C57** As long as no call without deferred unlock has panicked, nobody is stuck: if some goroutine has calls to finish, some goroutine can
move, whatever other calls panicked; and when nobody is inside a call the lock is free. -/
theorem C57_nobody_stuck_while_calm (meth : Op → Method σ ρ Ω) (hro : ∀ op, ReadOnly (meth op).section) (r0 : ρ) (s0 : σ) (calls : Nat → List Op)
    (c : Config σ (Frame ρ Ω)) (h : Calm (callers meth r0 s0 calls) c) :
    (∀ i, (c.threads i).cur ≠ none ∨ (c.threads i).todo ≠ [] → ∃ j c', Step c j c') ∧
    ((∀ i, (c.threads i).cur = none) → c.writer = none ∧ c.readers = []) := by
  have hro' : ∀ i, ∀ sec ∈ (calls i).map (fun op => (meth op).section), ReadOnly sec := by
    intro i sec hs
    obtain ⟨op, _, rfl⟩ := List.mem_map.1 hs
    exact hro op
  have hh := Held.calm hro' h
  refine ⟨fun i hu => progress_of_held hh hu, fun hidle => ⟨?_, ?_⟩⟩
  · cases hc : c.writer with
    | none => rfl
    | some w => obtain ⟨sec, h1, _⟩ := hh.writer w hc; rw [hidle w] at h1; cases h1
  · cases hc : c.readers with
    | nil => rfl
    | cons j js =>
      obtain ⟨sec, h1, _⟩ := hh.readers j (by simp [hc])
      rw [hidle j] at h1; cases h1

end Xcore.Lock

namespace Xcore.Dataset

open Lock

/-- **C14** The methods of `XDatasetTS` are atomic. -/
theorem C14_xdatasetTS_methods_atomic (x : Ext) (n : Nat) (a : Addr) (h0 : Heap) (calls : Nat → List TSOp) (c : Config Heap (Frame TSReg TSOut))
    (h : Reach (callers (tsMethod x n a) ⟨0, .unit⟩ h0 calls) c) : Atomic (tsMethod x n a) (tsSeq x n a) h0 calls c :=
  C14_methods_are_atomic _ _ (tsMethod_alone x n a) (tsMethod_readOnly x n a) _ _ _ _ h

/-- **C14** The methods of `XDatasetCollectionTS` that hold the lock from beginning to end are atomic. -/
theorem C14_collectionTS_methods_atomic (a : Addr) (h0 : Heap) (calls : Nat → List ColOp) (c : Config Heap (Frame ColReg ColOut))
    (h : Reach (callers (colMethod a) ⟨[], .unit⟩ h0 calls) c) : Atomic (colMethod a) (colSeq a) h0 calls c :=
  C14_methods_are_atomic _ _ (colMethod_alone a) (colMethod_readOnly a) _ _ _ _ h

/-- **C57**, **C28** Goroutines calling methods of an `XDatasetTS` that wraps a dataset never deadlock, in any schedule, even when a `Get` through
a bad path panics: no lock is ever left behind. -/
theorem C57_xdatasetTS_never_deadlocks (x : Ext) (n : Nat) (a : Addr) (h0 : Heap) (hw : target h0 a ≠ none) (calls : Nat → List TSOp)
    (c : Config Heap (Frame TSReg TSOut)) (h : Reach (callers (tsMethod x n a) ⟨0, .unit⟩ h0 calls) c) :
    (∀ i, (c.threads i).cur ≠ none ∨ (c.threads i).todo ≠ [] → ∃ j c', Step c j c') ∧
    ((∀ i, (c.threads i).cur = none) → c.writer = none ∧ c.readers = []) := by
  refine C57_nobody_stuck_while_calm _ (tsMethod_readOnly x n a) ⟨0, .unit⟩ h0 calls c ?_
  refine C28_no_lock_is_left_behind _ _ (tsMethod_alone x n a) (tsMethod_readOnly x n a) _ _ _ (fun h => target h a ≠ none) hw ?_ ?_ c h
  · intro i op _ s hs
    rw [tsSeq_target]; exact hs
  · intro i op _ s hs hd
    cases op <;> simp only [tsMethod, tsRead, Bool.true_eq_false] at hd
    all_goals
      simp only [tsSeq, set, del]
      cases e : target s a with
      | none => exact absurd e hs
      | some t => simp [change]

/-- **C28** (false as stated) `Set` or `Del` on an `XDatasetTS` that wraps nothing panics with the lock held: no goroutine can use the object
any more. -/
theorem C28_nil_xdatasetTS_wedges (x : Ext) (n : Nat) (a : Addr) (h0 : Heap) (hw : target h0 a = none) (calls : Nat → List TSOp)
    (i : Nat) (op : TSOp) (hop : (∃ k v, op = .set k v) ∨ ∃ k, op = .del k) (rest : List TSOp) (hc : calls i = op :: rest) :
    ∃ c, Reach (callers (tsMethod x n a) ⟨0, .unit⟩ h0 calls) c ∧ (c.threads i).loc.outs = [none] ∧ ∀ j c', ¬ Step c j c' := by
  have hm : (tsMethod x n a op).section.mode = .write := by rcases hop with ⟨k, v, rfl⟩ | ⟨k, rfl⟩ <;> rfl
  have hd : (tsMethod x n a op).section.deferred = false := by rcases hop with ⟨k, v, rfl⟩ | ⟨k, rfl⟩ <;> rfl
  have hp : (tsMethod x n a op).section.step h0 ⟨0, ⟨0, .unit⟩, []⟩ = .panic := by
    rcases hop with ⟨k, v, rfl⟩ | ⟨k, rfl⟩ <;> simp [tsMethod, tsWrite, Method.section, hw]
  have he : (tsMethod x n a op).section.enter ⟨0, ⟨0, .unit⟩, []⟩ = ⟨0, ⟨0, .unit⟩, []⟩ := by
    rcases hop with ⟨k, v, rfl⟩ | ⟨k, rfl⟩ <;> rfl
  have ht : ((callers (tsMethod x n a) ⟨0, .unit⟩ h0 calls).threads i).todo =
      (tsMethod x n a op).section :: rest.map fun op => (tsMethod x n a op).section := by simp [callers, Lock.init, hc]
  refine ⟨_, .step (.step .refl (.lock (i := i) rfl ht hm rfl rfl)) (.panicLeak (i := i) (sec := (tsMethod x n a op).section) ?_ hd ?_), ?_, ?_⟩
  · simp [upd]
  · simp only [callers, Lock.init, upd_self, he]
    exact hp
  · simp [callers, Lock.init, upd, Method.section]
  · refine stuck_of_leaked (w := i) rfl ?_
    intro j
    by_cases hj : j = i
    · subst hj; simp [upd]
    · simp [callers, Lock.init, upd, hj]

/-- **C28** (false as stated) `Pop` or `Shift` on an empty `XDatasetCollectionTS` panics with the lock held: no goroutine can use the collection
any more. This happens at any time: whenever, in any execution, nobody is inside, the collection is empty and some goroutine's next call is `Pop`
or `Shift`, it can happen, and then nothing moves. -/
theorem C28_empty_collectionTS_wedges (a : Addr) (h0 : Heap) (calls : Nat → List ColOp) (c : Config Heap (Frame ColReg ColOut))
    (h : Reach (callers (colMethod a) ⟨[], .unit⟩ h0 calls) c) (hw : c.writer = none) (hr : c.readers = [])
    (hidle : ∀ j, (c.threads j).cur = none) (he : elems c.shared a = [])
    (i : Nat) (op : ColOp) (hop : op = .pop ∨ op = .shift) (rest : List (Section Heap (Frame ColReg ColOut)))
    (hc : (c.threads i).todo = (colMethod a op).section :: rest) :
    ∃ c', Reach (callers (colMethod a) ⟨[], .unit⟩ h0 calls) c' ∧ (c'.threads i).loc.outs = (c.threads i).loc.outs ++ [none] ∧
      ∀ j c'', ¬ Step c' j c'' := by
  have hm : (colMethod a op).section.mode = .write := by rcases hop with rfl | rfl <;> rfl
  have hd : (colMethod a op).section.deferred = false := by rcases hop with rfl | rfl <;> rfl
  have hp : (colMethod a op).section.step c.shared ((colMethod a op).section.enter (c.threads i).loc) = .panic := by
    rcases hop with rfl | rfl <;> simp [colMethod, Method.section, he]
  refine ⟨_, .step (.step h (.lock (i := i) (hidle i) hc hm hw hr)) (.panicLeak (i := i) (sec := (colMethod a op).section) ?_ hd ?_), ?_, ?_⟩
  · simp [upd]
  · simpa [upd] using hp
  · simp [upd, Method.section]
  · refine stuck_of_leaked (w := i) rfl ?_
    intro j
    by_cases hj : j = i
    · subst hj; simp [upd]
    · simp [upd, hj, hidle j]

/-- **C28** (partial) Without `Pop` and `Shift`, goroutines using an `XDatasetCollectionTS` never deadlock and leave no lock behind. -/
theorem C28_collectionTS_without_pop_partial (a : Addr) (h0 : Heap) (calls : Nat → List ColOp) (hn : ∀ i, ∀ op ∈ calls i, op ≠ .pop ∧ op ≠ .shift)
    (c : Config Heap (Frame ColReg ColOut)) (h : Reach (callers (colMethod a) ⟨[], .unit⟩ h0 calls) c) :
    (∀ i, (c.threads i).cur ≠ none ∨ (c.threads i).todo ≠ [] → ∃ j c', Step c j c') ∧
    ((∀ i, (c.threads i).cur = none) → c.writer = none ∧ c.readers = []) := by
  refine C57_nobody_stuck_while_calm _ (colMethod_readOnly a) ⟨[], .unit⟩ h0 calls c ?_
  refine C28_no_lock_is_left_behind _ _ (colMethod_alone a) (colMethod_readOnly a) _ _ _ (fun _ => True) trivial (fun _ _ _ _ _ => trivial) ?_ c h
  intro i op ho s _ _
  have := hn i op ho
  cases op <;> simp_all [colSeq]

/-- Non-vacuity: goroutine 1 is in the middle of a `Push` (it has read the slice and not yet written it), goroutine 0 still has to pop. -/
example : ∃ c : Config Heap (Frame ColReg ColOut),
    Reach (callers (colMethod 0) ⟨[], .unit⟩ [.colTS [some 3]] fun i => if i = 0 then [.pop, .count] else if i = 1 then [.push (some 2)] else []) c ∧
    c.writer = some 1 ∧ (c.threads 1).loc.reg.slice = [some 3] ∧ elems c.shared 0 = [some 3] ∧ (c.threads 0).todo.length = 2 := by
  refine ⟨_, .step (.step .refl (.lock (i := 1) rfl rfl rfl rfl rfl)) (.access (i := 1) rfl rfl), ?_⟩
  exact ⟨rfl, rfl, rfl, rfl⟩

/-- Non-vacuity: a wrapper around a dataset, one goroutine in the middle of a `Set`. -/
example (x : Ext) : ∃ c : Config Heap (Frame TSReg TSOut), target [.ds [], .dsTS (some 0)] 1 ≠ none ∧
    Reach (callers (tsMethod x 0 1) ⟨0, .unit⟩ [.ds [], .dsTS (some 0)] fun i => if i = 0 then [.get b!"k"] else if i = 1 then [.set b!"k" (.bool true)] else []) c ∧
    c.writer = some 1 ∧ (c.threads 1).loc.pc = 1 ∧ (c.threads 0).todo.length = 1 := by
  refine ⟨_, by decide, .step (.step .refl (.lock (i := 1) rfl rfl rfl rfl rfl)) (.access (i := 1) rfl rfl), ?_⟩
  exact ⟨rfl, rfl, rfl⟩

end Xcore.Dataset

namespace Xcore.Language

open Lock

/-- **C14** The methods of `XLanguage` that take the lock are atomic. -/
theorem C14_xlanguage_methods_atomic (l0 : Lang) (calls : Nat → List TSOp) (c : Config Lang (Frame TSOut TSOut))
    (h : Reach (callers tsMethod .unit l0 calls) c) : Atomic tsMethod tsSeq l0 calls c :=
  C14_methods_are_atomic _ _ tsMethod_alone tsMethod_readOnly _ _ _ _ h

/-- **C57**, **C28** Goroutines using one `XLanguage`, loads included, never deadlock and leave no lock behind. -/
theorem C57_xlanguage_never_deadlocks (l0 : Lang) (calls : Nat → List TSOp) (c : Config Lang (Frame TSOut TSOut))
    (h : Reach (callers tsMethod .unit l0 calls) c) :
    (∀ i, (c.threads i).cur ≠ none ∨ (c.threads i).todo ≠ [] → ∃ j c', Step c j c') ∧
    ((∀ i, (c.threads i).cur = none) → c.writer = none ∧ c.readers = []) := by
  refine C57_nobody_stuck_while_calm _ tsMethod_readOnly .unit l0 calls c ?_
  refine C28_no_lock_is_left_behind _ _ tsMethod_alone tsMethod_readOnly _ _ _ (fun _ => True) trivial (fun _ _ _ _ _ => trivial) ?_ c h
  intro i op _ s _ _
  cases op <;> simp [tsSeq]

/-- Non-vacuity: goroutine 1 is in the middle of a `Del` (entry deleted, status not yet), goroutine 0 still has to read. -/
example : ∃ c : Config Lang (Frame TSOut TSOut),
    Reach (callers tsMethod .unit ⟨[], [], [(b!"a", b!"A")], [(b!"a", b!"S")]⟩ fun i => if i = 0 then [.get b!"a"] else if i = 1 then [.del b!"a"] else []) c ∧
    c.writer = some 1 ∧ c.shared.entries = [] ∧ c.shared.status.length = 1 ∧ (c.threads 0).todo.length = 1 := by
  refine ⟨_, .step (.step .refl (.lock (i := 1) rfl rfl rfl rfl rfl)) (.access (i := 1) rfl rfl), ?_⟩
  exact ⟨rfl, rfl, rfl, rfl⟩

end Xcore.Language
