import Verif.Proof.CacheHistory

/-!
# Properties C14, C28 (generic part) and C57: goroutines sharing a lock-protected object

`prog i` is the list of calls goroutine `i` makes; calls are arbitrary critical sections of one RWMutex, interleaved access by
access (`Verif/Model/Lock.lean`).
-/

namespace Xcore.Lock

variable {σ L : Type}

/-- **C14** In every execution, what completed calls did and returned is what they would have done and returned executed one at a
time, each alone, in the order in which they ended: (1) that sequential execution exists; (2) the locals (hence the results)
of every goroutine between calls are those of the sequential execution; (3) whenever no writer is inside, the shared data is
the one left by the sequential execution, so a reader never sees a half-done update; (4) every goroutine's calls are in its
program order. -/
theorem C14_locked_calls_are_serializable (s0 : σ) (l0 : Nat → L) (prog : Nat → List (Section σ L))
    (hro : ∀ i, ∀ sec ∈ prog i, ReadOnly sec) (c : Config σ L) (h : Reach (init s0 l0 prog) c) :
    (∃ S Ls, Replay s0 l0 c.log S Ls ∧
      (∀ i, (c.threads i).cur = none → (c.threads i).loc = Ls i) ∧
      ((∀ i sec, (c.threads i).cur = some sec → sec.mode = .read) → c.shared = S)) ∧
    (∀ i, ((c.log.filter (fun p => p.1 = i)).map Prod.snd) ++ (c.threads i).cur.toList ++ (c.threads i).todo = prog i) := by
  have hi := Inv.reach hro h
  obtain ⟨S, Ls, h1, h2, _, h4⟩ := hi.replay
  exact ⟨⟨S, Ls, h1, h2, h4⟩, hi.order⟩

/-- **C14** The sequential execution is determined by the order of the calls. -/
theorem C14_sequential_execution_unique (s0 : σ) (l0 : Nat → L) (log : List (Nat × Section σ L)) {S : σ} {Ls : Nat → L}
    (h : Replay s0 l0 log S Ls) : ∀ {S' : σ} {Ls' : Nat → L}, Replay s0 l0 log S' Ls' → S' = S ∧ Ls' = Ls := by
  induction h with
  | nil =>
    intro S' Ls' h'
    generalize hl : ([] : List (Nat × Section σ L)) = lg at h'
    cases h' with
    | nil => exact ⟨rfl, rfl⟩
    | snoc _ _ => simp at hl
  | @snoc log s ls i sec s' l' _ he ih =>
    intro S' Ls' h'
    generalize hl : log ++ [(i, sec)] = lg at h'
    cases h' with
    | nil => simp at hl
    | @snoc log2 s2 ls2 i2 sec2 s2' l2' h2 he2 =>
      have hh := List.append_inj' hl rfl
      obtain ⟨e1, e2⟩ := hh
      simp only [List.cons.injEq, Prod.mk.injEq, and_true] at e2
      obtain ⟨e3, e4⟩ := e2
      subst e1; subst e3; subst e4
      obtain ⟨e5, e6⟩ := ih h2
      subst e5; subst e6
      obtain ⟨e7, e8⟩ := he.det he2
      subst e7; subst e8
      exact ⟨rfl, rfl⟩

/-- **C14** A call that has ended stays before every call that ends later: the order respects real time. -/
theorem C14_order_respects_real_time (c c' : Config σ L) (h : Reach c c') : ∃ later, c'.log = c.log ++ later := by
  induction h with
  | refl => exact ⟨[], by simp⟩
  | step _ hs ih =>
    obtain ⟨l, hl⟩ := ih
    cases hs with
    | rlock => exact ⟨l, hl⟩
    | lock => exact ⟨l, hl⟩
    | access => exact ⟨l, hl⟩
    | runlock => exact ⟨l ++ [_], by rw [← List.append_assoc, ← hl]⟩
    | unlock => exact ⟨l ++ [_], by rw [← List.append_assoc, ← hl]⟩
    | panicDeferred => exact ⟨l ++ [_], by rw [← List.append_assoc, ← hl]⟩
    | panicLeak => exact ⟨l ++ [_], by rw [← List.append_assoc, ← hl]⟩

/-- **C14** Mutual exclusion: while a goroutine is inside a write section nobody else is inside any section. -/
theorem C14_mutual_exclusion (s0 : σ) (l0 : Nat → L) (prog : Nat → List (Section σ L))
    (hro : ∀ i, ∀ sec ∈ prog i, ReadOnly sec) (c : Config σ L) (h : Reach (init s0 l0 prog) c) (i j : Nat)
    (sec sec' : Section σ L) (hi : (c.threads i).cur = some sec) (hj : (c.threads j).cur = some sec')
    (hm : sec.mode = .write) : j = i := by
  by_cases e : j = i
  · exact e
  · rw [(Inv.reach hro h).alone hi hm j e] at hj; cases hj

/-- **C57** If every section defers its unlock, nobody ever gets stuck: in every reachable configuration where some goroutine
still has work, some goroutine can move, panics included. -/
theorem C57_no_deadlock (s0 : σ) (l0 : Nat → L) (prog : Nat → List (Section σ L))
    (hro : ∀ i, ∀ sec ∈ prog i, ReadOnly sec) (hd : ∀ i, ∀ sec ∈ prog i, sec.deferred = true)
    (c : Config σ L) (h : Reach (init s0 l0 prog) c) (i : Nat)
    (hunf : (c.threads i).cur ≠ none ∨ (c.threads i).todo ≠ []) : ∃ j c', Step c j c' :=
  progress_of_held (Held.reach hro hd h) hunf

/-- **C57** With deferred unlocks, when every goroutine is outside the lock is free. -/
theorem C57_lock_released (s0 : σ) (l0 : Nat → L) (prog : Nat → List (Section σ L))
    (hro : ∀ i, ∀ sec ∈ prog i, ReadOnly sec) (hd : ∀ i, ∀ sec ∈ prog i, sec.deferred = true)
    (c : Config σ L) (h : Reach (init s0 l0 prog) c) (hidle : ∀ i, (c.threads i).cur = none) :
    c.writer = none ∧ c.readers = [] := by
  have hh := Held.reach hro hd h
  constructor
  · cases hc : c.writer with
    | none => rfl
    | some w => obtain ⟨sec, h1, _⟩ := hh.writer w hc; rw [hidle w] at h1; cases h1
  · cases hc : c.readers with
    | nil => rfl
    | cons j js =>
      obtain ⟨sec, h1, _⟩ := hh.readers j (by simp [hc])
      rw [hidle j] at h1; cases h1

/-- **C28** A panic inside a write section whose unlock is not deferred wedges the object: after it no goroutine can take any
step on it, for ever. -/
theorem C28_write_panic_without_defer_wedges (s0 : σ) (l0 : Nat → L) (prog : Nat → List (Section σ L))
    (hro : ∀ i, ∀ sec ∈ prog i, ReadOnly sec) (c : Config σ L) (h : Reach (init s0 l0 prog) c) (i : Nat) (sec : Section σ L)
    (hcur : (c.threads i).cur = some sec) (hm : sec.mode = .write) (hd : sec.deferred = false)
    (hp : sec.step c.shared (c.threads i).loc = .panic) (c' : Config σ L) (hs : Step c i c') :
    ∀ j c'', ¬ Step c' j c'' := by
  have hi := Inv.reach hro h
  have hw := hi.busyW i sec hcur hm
  have hal := hi.alone hcur hm
  cases hs with
  | rlock hidle => rw [hcur] at hidle; cases hidle
  | lock hidle => rw [hcur] at hidle; cases hidle
  | access h1 h2 => rw [hcur] at h1; cases h1; rw [hp] at h2; cases h2
  | runlock h1 _ h2 => rw [hcur] at h1; cases h1; rw [hp] at h2; cases h2
  | unlock h1 _ h2 => rw [hcur] at h1; cases h1; rw [hp] at h2; cases h2
  | panicDeferred h1 h2 => rw [hcur] at h1; cases h1; rw [hd] at h2; cases h2
  | panicLeak h1 =>
    refine stuck_of_leaked (w := i) hw ?_
    intro j
    by_cases hj : j = i
    · subst hj; simp
    · simp only [upd_ne _ _ hj]; exact hal j hj

/-- **C28** A panic inside a read section whose unlock is not deferred blocks every writer for ever (readers still get through). -/
theorem C28_read_panic_without_defer_blocks_writers (s0 : σ) (l0 : Nat → L) (prog : Nat → List (Section σ L))
    (hro : ∀ i, ∀ sec ∈ prog i, ReadOnly sec) (c : Config σ L) (h : Reach (init s0 l0 prog) c) (i : Nat) (sec : Section σ L)
    (hcur : (c.threads i).cur = some sec) (hm : sec.mode = .read) (hd : sec.deferred = false)
    (hp : sec.step c.shared (c.threads i).loc = .panic) (c' : Config σ L) (hs : Step c i c') :
    ∀ c'', Reach c' c'' → c''.writer = none ∧ c''.readers ≠ [] ∧ ∀ j c3, Step c'' j c3 → c3.writer = none := by
  have hi := Inv.reach hro h
  have hr := hi.busyR i sec hcur hm
  have hw : c.writer = none := by
    cases hc : c.writer with
    | none => rfl
    | some w => rw [hi.excl w hc] at hr; cases hr
  have hl : LeakedRead c' i := by
    cases hs with
    | rlock hidle => rw [hcur] at hidle; cases hidle
    | lock hidle => rw [hcur] at hidle; cases hidle
    | access h1 h2 => rw [hcur] at h1; cases h1; rw [hp] at h2; cases h2
    | runlock h1 _ h2 => rw [hcur] at h1; cases h1; rw [hp] at h2; cases h2
    | unlock h1 _ h2 => rw [hcur] at h1; cases h1; rw [hp] at h2; cases h2
    | panicDeferred h1 h2 => rw [hcur] at h1; cases h1; rw [hd] at h2; cases h2
    | panicLeak h1 =>
      refine ⟨?_, hw⟩
      simp only [readingNow, upd_self]
      exact List.count_pos_iff.2 hr
  intro c'' hre
  have hl2 := hl.reach hre
  refine ⟨hl2.2, ?_, fun j c3 hs3 => (hl2.step hs3).2⟩
  intro hnil
  have := hl2.1
  rw [hnil] at this
  simp at this

end Xcore.Lock

namespace Xcore.Cache

open Lock

variable {D : Type}

/-- **C14** (cache) Goroutines calling Set, SetTTL, Del, Count, Clean and Flush on one cache, interleaved access by access in any
way: there is a sequential history made of exactly the completed calls, in completion order (of every goroutine, those of its calls it
has neither begun nor still to make, in its own order), such that every goroutine outside the cache has received exactly the answers of
the sequential history, and whenever no call holds the write lock the cache is the one of the sequential history. All theorems about
sequential histories therefore apply. -/
theorem C14_cache_methods_atomic (c0 : Cache D) (hn : c0.items.Nodup) (calls : Nat → List (Env × Op D))
    (hl : ∀ i, ∀ p ∈ calls i, Locked p.2) (c : Config (Cache D) (Loc D))
    (h : Reach (init c0 (fun _ => Loc.empty) (fun i => (calls i).map (fun p => opSection p.1 p.2))) c) :
    ∃ hist : List (Nat × Env × Op D),
      (∀ i, (hist.filter fun p => p.1 = i).map Prod.snd =
        (calls i).take ((calls i).length - (c.threads i).todo.length - (c.threads i).cur.toList.length)) ∧
      (∀ i, (c.threads i).cur = none → (c.threads i).loc.outs = answersOf i c0 hist) ∧
      ((∀ i sec, (c.threads i).cur = some sec → sec.mode = .read) → c.shared = (run c0 (asHistory hist)).1) := by
  have hro : ∀ i, ∀ sec ∈ (calls i).map (fun p => opSection p.1 p.2), ReadOnly sec := by
    intro i sec hsec hm s l s' l' hst
    simp only [List.mem_map] at hsec
    obtain ⟨p, _, rfl⟩ := hsec
    obtain ⟨env, op⟩ := p
    cases op <;> simp [opSection] at hm
    simp [opSection, opStep] at hst
  obtain ⟨⟨S, Ls, h1, h2, h3⟩, hord⟩ := C14_locked_calls_are_serializable c0 (fun _ => Loc.empty) _ hro c h
  obtain ⟨hist, e1, e2⟩ := exists_history (fun p : Env × Op D => opSection p.1 p.2) c.log
    (fun i => (calls i).take ((calls i).length - (c.threads i).todo.length - (c.threads i).cur.toList.length)) (by
      intro i
      have ho := hord i
      have hlen := congrArg List.length ho
      simp only [List.length_append, List.length_map] at hlen
      rw [List.map_take, ← ho, List.append_assoc, List.take_left' (by simp only [List.length_map]; omega)])
  have hlk : ∀ p ∈ hist, Locked p.2.2 := by
    intro p hp
    have hm : p.2 ∈ (hist.filter fun q => q.1 = p.1).map Prod.snd :=
      List.mem_map.2 ⟨p, List.mem_filter.2 ⟨hp, by simp⟩, rfl⟩
    rw [e2 p.1] at hm
    exact hl p.1 _ (List.mem_of_mem_take hm)
  obtain ⟨e3, e4⟩ := replay_is_history c0 hn h1 hist e1 hlk
  refine ⟨hist, e2, ?_, ?_⟩
  · intro i hi
    rw [h2 i hi, e4 i]
  · intro hr
    rw [h3 hr, e3]

/-- Non-vacuity: the six methods are within the theorem. -/
example : ∀ p ∈ ([(env0, .set b!"a" 1), (env0, .setTTL b!"a" 5), (env0, .del b!"a"), (env0, .count), (env0, .clean 50), (env0, .flush)] :
    List (Env × Op Nat)), Locked p.2 := by
  simp [Locked]

/-- **C57** (cache) Goroutines calling those methods never deadlock, even with panicking `Clean(p)`, p > 100. -/
theorem C57_cache_never_deadlocks (c0 : Cache D) (calls : Nat → List (Env × Op D))
    (c : Config (Cache D) (Loc D))
    (h : Reach (init c0 (fun _ => Loc.empty) (fun i => (calls i).map (fun p => opSection p.1 p.2))) c) (i : Nat)
    (hunf : (c.threads i).cur ≠ none ∨ (c.threads i).todo ≠ []) : ∃ j c', Step c j c' := by
  refine C57_no_deadlock c0 _ _ ?_ ?_ c h i hunf
  · intro i sec hsec hm s l s' l' hst
    simp only [List.mem_map] at hsec
    obtain ⟨p, _, rfl⟩ := hsec
    obtain ⟨env, op⟩ := p
    cases op <;> simp [opSection] at hm
    simp [opSection, opStep] at hst
  · intro i sec hsec
    simp only [List.mem_map] at hsec
    obtain ⟨p, _, rfl⟩ := hsec
    rfl

/-- Non-vacuity: two goroutines; goroutine 1 is half-way through its Set (key stored, not yet in the pile) while goroutine 0
still has a Count to make. -/
example : ∃ c : Config (Cache Nat) (Loc Nat),
    Reach (init (new 0 0) (fun _ => Loc.empty)
      (fun i => ((if i = 0 then [(env0, Op.count)] else if i = 1 then [(env0, Op.set b!"a" 1)] else []) : List (Env × Op Nat)).map
        (fun p => opSection p.1 p.2))) c ∧
    c.writer = some 1 ∧ c.shared.items.length = 1 ∧ c.shared.pile = [] ∧ (c.threads 0).todo.length = 1 := by
  refine ⟨_, .step (.step (.step .refl (.lock (i := 1) rfl rfl rfl rfl rfl)) (.access (i := 1) rfl rfl)) (.access (i := 1) rfl rfl), ?_⟩
  exact ⟨rfl, rfl, rfl, rfl⟩

end Xcore.Cache
