import Verif.Proof.V1.Cache
import Verif.Proof.V1.CacheConc

/-!
# Properties C65–C68: the cache of version 1 (root package)

The specification is the one of version 2 (`Verif/Spec/Cache.lean`: the ideal cache `Ideal`, `answer`, `after`); `Op.up` and `up` rename
the calls and the states of version 1 to those of version 2 and are the identity on what both have.
-/

namespace Xcore.V1.Cache

open Xcore.Cache (Env Out Sub Same Tracked)
open Xcore.Cache.Spec

variable {D : Type}

theorem tracked_run {c : Cache D} (h : Tracked c.up) (hist : List (Env × Op D)) : Tracked (run c hist).1.up := by
  induction hist generalizing c with
  | nil => exact h
  | cons p hist ih => obtain ⟨env, op⟩ := p; exact ih (tracked_step h env op)

/-- A sample environment: all clocks read `t`; the validator accepts what was created after `v`. -/
def atv (t v : Int) : Env := ⟨fun _ => t, fun _ => t, fun _ c => decide (v < c)⟩

/-! ## C65 -/

/-- **C65** In any history, `Get(k)` of version 1 answers what an ideal unlimited cache would answer, or the key was evicted and it
answers `nil, false`. -/
theorem C65_get_reflects_latest_set (m e : Int) (h : List (Env × Op D)) (env : Env) (k : Str) :
    (get (run (new m e) h).1 env k).2 = answer (after (Ideal.empty e) (upAll h)) env k ∨
      (get (run (new m e) h).1 env k).2 = (none, false) := by
  have hs : Sub (run (new m e : Cache D) h).1.up (after (Ideal.empty e) (upAll h)) := sub_run (by rw [up_new]; exact Sub.new m e) h
  have hg := up_get' (run (new m e : Cache D) h).1 env k
  rcases hs.answer_or_miss env k with h1 | ⟨_, h1⟩
  · rw [hg] at h1; exact Or.inl h1
  · rw [hg] at h1; exact Or.inr h1

/-- **C65** In a history in which nothing is evicted, `Get(k)` answers exactly what the ideal cache answers: an entry is missed only because
a call before it could evict. -/
theorem C65_get_exact_without_eviction (m e : Int) (h : List (Env × Op D)) (hq : Quiet (new m e) h) (env : Env) (k : Str) :
    (get (run (new m e) h).1 env k).2 = answer (after (Ideal.empty e) (upAll h)) env k := by
  have hs : Same (run (new m e : Cache D) h).1.up (after (Ideal.empty e) (upAll h)) := same_run (by rw [up_new]; exact Same.new m e) h hq
  have h1 := hs.answer env k
  rw [up_get' (run (new m e : Cache D) h).1 env k] at h1
  exact h1

/-- Non-vacuity: a limit of 10 that is not reached, a deletion, a `Verify` and a `Clean(0)`. -/
example :
    let h : List (Env × Op Nat) := [(atv 1 0, .set b!"a" 1), (atv 2 0, .set b!"b" 2), (atv 3 0, .set b!"a" 3), (atv 3 0, .set b!"c" 3),
      (atv 4 0, .del b!"b"), (atv 5 0, .verify), (atv 5 0, .clean 0), (atv 5 0, .get b!"c")]
    Quiet (new 10 0) h ∧ (get (run (new 10 0) h).1 (atv 6 0) b!"a").2 = (some 3, false) ∧ (get (run (new 10 0) h).1 (atv 6 0) b!"b").2 = (none, false) := by
  refine ⟨?_, by decide, by decide⟩
  simp only [Quiet, MayEvict]
  decide

/-- **C65** After `Verify`, exactly the entries that are neither expired nor refused are left, unchanged. -/
theorem C65_verify_keeps_exactly_valid (c : Cache D) (hc : Reachable c) (env : Env) (k : Str) (e : Entry D) :
    (verify c env).1.items.get k = some e ↔
      c.items.get k = some e ∧ ¬ (c.expire ≠ 0 ∧ e.ctime + c.expire < env.clkAt k) ∧ (c.hasValidator = true → env.valid k e.ctime = true) := by
  obtain ⟨m, ex, h, rfl⟩ := hc
  have hn : (run (new m ex : Cache D) h).1.up.items.Nodup := (sub_run (s := Ideal.empty ex) (by rw [up_new]; exact Sub.new m ex) h).nodup
  revert hn
  generalize (run (new m ex : Cache D) h).1 = c
  intro hn
  have hinj : ∀ (o : Option (Entry D)), o.map Entry.up = some e.up ↔ o = some e := by
    intro o
    cases o with
    | none => simp
    | some x => obtain ⟨_, _, _⟩ := x; obtain ⟨_, _, _⟩ := e; simp [Entry.up]
  have h1 := verify_get_iff hn env k e.up
  rw [← (up_verify c env).1] at h1
  have hu : ∀ c : Cache D, AMap.get c.up.items k = (AMap.get c.items k).map Entry.up := fun c => up_get _ _
  rw [hu, hu, hinj, hinj] at h1
  exact h1

/-- **C65** `Clean(100)` or less, `Verify` and `Set` never panic when the cache is used by one goroutine at a time. -/
theorem C65_never_panics (m e : Int) (h : List (Env × Op D)) (env : Env) (op : Op D)
    (hp : (step (run (new m e) h).1 env op).2 = .panicked) : ∃ p, op = .clean p ∧ 100 < p := by
  have ht : Tracked (run (new m e : Cache D) h).1.up := tracked_run (by rw [up_new]; exact Tracked.new m e) h
  by_cases hv : op = .verify
  · subst hv
    obtain ⟨_, a2, _⟩ := up_verify (run (new m e : Cache D) h).1 env
    have := Xcore.Cache.verify_ok (run (new m e : Cache D) h).1.up env
    rw [← a2] at this
    simp only [step] at hp
    split at hp
    · simp at hp
    · exact absurd (by assumption) this
  · have h2 := up_step (run (new m e : Cache D) h).1 env op hv
    have h3 := Xcore.Cache.step_panicked ht env op.up (by rw [h2]; exact hp)
    obtain ⟨p, h4, h5⟩ := h3
    cases op <;> simp only [Op.up, Xcore.Cache.Op.clean.injEq, reduceCtorEq] at h4
    subst h4; exact ⟨_, rfl, h5⟩

/-- Non-vacuity: an entry survives `Verify`, an expired one and a refused one do not, and the reads say so. -/
example :
    let c : Cache Nat := (run (new 0 20) [(atv 0 0, .set b!"a" 1), (atv 8 0, .set b!"b" 2), (atv 12 0, .set b!"c" 3), (atv 12 0, .setValidator true)]).1
    (get (verify c (atv 25 9)).1 (atv 25 9) b!"a").2 = (none, false) ∧ (get (verify c (atv 25 9)).1 (atv 25 9) b!"b").2 = (none, false) ∧
      (get (verify c (atv 25 9)).1 (atv 25 9) b!"c").2 = (some 3, false) ∧ (get c (atv 25 9) b!"b").2 = (none, true) := by decide

/-! ## C66 -/

/-- **C66 (part)** In a history without `Verify`, version 1 and version 2 give the same answers to all the calls. -/
theorem C66_same_answers_without_verify_partial (m e : Int) (h : List (Env × Op D)) (hv : ∀ p ∈ h, p.2 ≠ .verify) :
    (run (new m e) h).2 = (Xcore.Cache.run (Xcore.Cache.new m e) (upAll h)).2 := by
  rw [← up_new]
  generalize (new m e : Cache D) = c
  induction h generalizing c with
  | nil => rfl
  | cons p h ih =>
    obtain ⟨env, op⟩ := p
    have h1 := up_step c env op (hv _ List.mem_cons_self)
    have h2 := ih (fun p hp => hv p (List.mem_cons_of_mem _ hp)) (step c env op).1
    simp only [run, upAll, List.map_cons, Xcore.Cache.run, h1]
    rw [h2]; rfl

/-- **C66 (part)** In a history in which nothing can be evicted (no positive limit, no positive percentage), `Verify` included, version 1
and version 2 give the same answers to all the calls. -/
theorem C66_same_answers_without_eviction_partial (m e : Int) (hm : m ≤ 0) (h : List (Env × Op D)) (hf : ∀ p ∈ h, CapacityFree p.2.up) :
    (run (new m e) h).2 = (Xcore.Cache.run (Xcore.Cache.new m e) (upAll h)).2 := by
  exact sameEntries_run ⟨rfl, rfl, rfl, rfl⟩ hm h hf

/-- **C66** is false when `Verify` removes entries and entries are evicted afterwards: in version 1 the place of the removed entry is
still counted, so that `Clean(100)` keeps an entry that version 2 evicts. -/
theorem C66_verify_counterexample :
    let h : List (Env × Op Nat) := [(atv 1 0, .set b!"a" 1), (atv 2 0, .set b!"b" 2), (atv 3 0, .setValidator true), (atv 3 1, .verify),
      (atv 4 0, .clean 100), (atv 4 0, .count)]
    (run (new 0 0) h).2 = [.unit, .unit, .unit, .num 1, .num 1, .num 1] ∧
      (Xcore.Cache.run (Xcore.Cache.new 0 0) (upAll h)).2 = [.unit, .unit, .unit, .num 1, .num 1, .num 0] := by decide

/-- Non-vacuity: an eviction at a limit of 10, without `Verify`. -/
example :
    let h : List (Env × Op Nat) := (List.range 10).map fun (i : Nat) => (atv i 0, .set [UInt8.ofNat i] i)
    (∀ p ∈ h, p.2 ≠ .verify) ∧ (run (new 10 0) (h ++ [(atv 20 0, .count), (atv 20 0, .get [0]), (atv 20 0, .get [1])])).2.drop 10 =
      [.num 9, .got none false, .got (some 1) false] := by decide

/-- Non-vacuity: a `Verify` that removes an entry, nothing evicted. -/
example :
    let h : List (Env × Op Nat) := [(atv 1 0, .set b!"a" 1), (atv 2 0, .set b!"b" 2), (atv 3 0, .setValidator true), (atv 3 1, .verify), (atv 3 1, .count)]
    (∀ p ∈ h, CapacityFree p.2.up) ∧ (run (new 0 0) h).2 = [.unit, .unit, .unit, .num 1, .num 1] := by
  refine ⟨?_, by decide⟩
  intro p hp
  simp only [List.mem_cons, List.not_mem_nil, or_false] at hp
  rcases hp with rfl | rfl | rfl | rfl | rfl <;> exact trivial

end Xcore.V1.Cache

namespace Xcore.V1.CacheConc

open Xcore.Cache (Env)

variable {D : Type}

/-! ## C67 -/

/-- **C67** Whatever the interleaving of any number of goroutines, and whatever the data race on the pile does to it, a value returned by
`Get(k)` of version 1 was stored under `k` by a `Set` before the Get returned, and it is not flagged invalid. -/
theorem C67_returned_value_was_set (m e : Int) (as : List (Act D)) (st : St D) (h : runActs (init m e) as = some st)
    (pre post : List (Obs D)) (t : Nat) (k : Str) (v : D) (b : Bool) (ho : st.obs = pre ++ Obs.returned t k (some v) b :: post) :
    Obs.stored k v ∈ pre ∧ b = false :=
  ((Inv.init m e).run as h).obs pre t k v b post ho

/-- A sample environment: all clocks read `t`. -/
def at_ (t : Int) : Env := ⟨fun _ => t, fun _ => t, fun _ _ => true⟩

/-- A Get of "a" loses the key "b" that a concurrent Set adds to the pile between the Get's load and its store. -/
def losing : List (Act Nat) :=
  [.set 0 (at_ 1) b!"a" 1, .setOk 0, .getStart 1 b!"a", .checkVal 1 true, .checkExp 1 2, .writeRtime 1 2, .loadPile 1,
   .set 2 (at_ 3) b!"b" 2, .setOk 2, .storePile 1, .loadPile 1, .storePile 1]

/-- Non-vacuity of C67: the Get returns what was stored. -/
example : (runActs (init 0 0) losing).map (fun st => st.obs) =
    some [.stored b!"a" 1, .stored b!"b" 2, .returned 1 b!"a" (some 1) false] := by decide

/-! ## C68 -/

/-- **C68 (part)** In every schedule in which the unlocked changes of the pile at the end of a Get are not interleaved with anything else,
every key present stays known to the eviction order, and only a `Clean` with more than 100 percent panics. The full property is about
all schedules, and is false (below). -/
theorem C68_present_keys_are_tracked_partial (m e : Int) (as : List (Act D)) (hc : Calm as) (st : St D) (h : runActs (init m e) as = some st) :
    (∀ k id, st.sh.items.get k = some id → k ∈ st.sh.pile) ∧ ∀ p, Obs.panicked p ∈ st.obs → 100 < p :=
  ⟨((Kept.init m e).run hc h).sub, ((Kept.init m e).run hc h).panics⟩

/-- Non-vacuity: the calls of `losing` in a calm order, then a `Clean(100)`. -/
example :
    let as : List (Act Nat) := [.set 0 (at_ 1) b!"a" 1, .setOk 0, .getStart 1 b!"a", .checkVal 1 true, .checkExp 1 2, .writeRtime 1 2,
      .set 2 (at_ 3) b!"b" 2, .setOk 2, .loadPile 1, .storePile 1, .loadPile 1, .storePile 1]
    Calm as ∧ (runActs (init 0 0) (as ++ [.clean (at_ 4) 100])).map (fun st => (st.sh.pile, st.sh.items, st.obs.length)) = some ([], [], 3) ∧
      (runActs (init 0 0) as).map (fun st => st.sh.pile) = some [b!"b", b!"a"] := by
  refine ⟨?_, by decide, by decide⟩
  repeat (first | exact .nil | apply Calm.touch | (refine .other _ _ (fun _ h => by cases h) (fun _ h => by cases h) (fun _ h => by cases h) ?_))

/-- **C68** is false: one Get of a present key and one Set at the same time, without any data race worse than a lost store, and the
eviction order has lost an entry that is in the cache. -/
theorem C68_present_key_not_tracked :
    ∃ st, runActs (init 0 0) losing = some st ∧ st.sh.items.get b!"b" = some 1 ∧ b!"b" ∉ st.sh.pile := by
  refine ⟨_, rfl, by decide, by decide⟩

/-- **C68** is false: after that, `Clean(100)` panics, and the mutex stays locked. -/
theorem C68_clean_panics :
    ∃ st, runActs (init 0 0) (losing ++ [.clean (at_ 4) 100]) = some st ∧ st.obs.getLast? = some (.panicked 100) ∧ st.sh.locked = true := by
  refine ⟨_, rfl, by decide, by decide⟩

/-- **C68** And then the cache is unusable for every goroutine and every continuation: no call that needs the mutex (Set, Get, Del, Count,
Clean, Verify, Flush) can be started any more. -/
theorem C68_blocked_after_panic (st st' : St D) (hl : st.sh.locked = true) (as : List (Act D)) (h : runActs st as = some st') :
    ∀ a ∈ as, ¬ NeedsLock a :=
  locked_run hl as h

/-- Non-vacuity: before the panic the same calls are possible. -/
example : ((runActs (init 0 0) (losing ++ [.set 0 (at_ 5) b!"c" 3])).isSome = true) ∧
    (runActs (init 0 0) (losing ++ [.clean (at_ 4) 100, .set 0 (at_ 5) b!"c" 3])).isSome = false := by decide

end Xcore.V1.CacheConc
