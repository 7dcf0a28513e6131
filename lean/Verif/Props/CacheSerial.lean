import Verif.Proof.CacheSerial

/-!
# Property C81: calls on a cache that do not overlap

The specification is `Verif/Spec/CacheSerial.lean`: `Serial` says that no goroutine takes a step while another one is inside a call,
`calls` lists the calls of a schedule, `Holds` compares the shared memory with a cache of the sequential model.
-/

namespace Xcore.CacheConc

open Cache Spec

variable {D : Type}

/-- C81. Any number of goroutines use a new cache, and no call starts before the call before it has returned. Then every Get returns what it
would return if one goroutine made the same calls in the same order, with the same answers of clock and validator; the same calls panic;
and the cache holds the same entries, in the same order of recency. (`Thorough`: Verify looks at every key once.) -/
theorem C81_serial_calls_as_by_one_goroutine (m e : Int) (as : List (Act D)) (st : St D) (h : runActs (init m e) as = some st)
    (hs : Serial (init m e) as) (ht : Thorough (init m e) [] as) (hend : ∀ t, st.pcs t = .idle) :
    Holds st.sh (run (new m e) (calls as)).1 ∧ st.obs.filterMap said = (run (new m e) (calls as)).2.filter isSaid := by
  have := serial_ends hend as.length as (init m e) (new m e) [] (Nat.le_refl _) hs (fun _ => rfl)
    ⟨⟨rfl, rfl, rfl, rfl, .nil⟩, ⟨AMap.nodup_nil, by simp [init]⟩, by simp [init]⟩ ht h
  exact ⟨this.1, by simpa [init] using this.2⟩

/-- C81. In particular Get finds a key exactly if the sequential cache has an entry for it, and it is the same entry. -/
theorem C81_same_entries (m e : Int) (as : List (Act D)) (st : St D) (h : runActs (init m e) as = some st)
    (hs : Serial (init m e) as) (ht : Thorough (init m e) [] as) (hend : ∀ t, st.pcs t = .idle) (k : Str) :
    (st.sh.items.get k).bind (fun id => st.sh.heap[id]?) = (run (new m e) (calls as)).1.items.get k ∧
    st.sh.items.length = count (run (new m e) (calls as)).1 := by
  have hh := (C81_serial_calls_as_by_one_goroutine m e as st h hs ht hend).1.items
  refine ⟨?_, hh.length.symm⟩
  cases hg : st.sh.items.get k with
  | none => rw [hh.get_none hg]; rfl
  | some id =>
    obtain ⟨x, h1, h2⟩ := hh.get_some hg
    rw [h1]; exact h2

/-- A clock that stands still. -/
def still (n : Int) : Env := { clk := fun _ => n, clkAt := fun _ => n, valid := fun _ _ => true }

/-- Goroutine 1 reads a key, goroutine 2 reads one that is not there, goroutine 3 reads a key that the validator refuses, goroutine 1 verifies. -/
def turns : List (Act Nat) :=
  [.set (still 0) b!"a" 1, .set (still 1) b!"b" 2, .set (still 2) b!"c" 3, .getStart 1 b!"a", .checkTTL 1 3, .checkVal 1 true, .checkExp 1 3,
    .writeRtime 1 4, .getEnd 1, .getStart 2 b!"x", .setValidator true, .getStart 3 b!"b", .checkTTL 3 5, .checkVal 3 false, .getDrop 3,
    .verifyStart 1 (still 6), .verifyPick 1 b!"c" false, .verifyDel 1, .verifyPick 1 b!"a" true, .verifyEnd 1]

theorem turns_serial : Serial (init 0 0) turns := by
  simp [turns, Serial, apply, ranged, init, owner, set, setRaw, upd, AMap.get, AMap.set, AMap.del, past, removeFromPile, still, modify, del, mClean, evictLoop, cleanNum]
  and_intros
  all_goals
    intro u
    by_cases h1 : u = 1 <;> by_cases h3 : u = 3 <;> simp_all

theorem turns_thorough : Thorough (init 0 0) [] turns := by
  simp [turns, Thorough, apply, ranged, init, set, setRaw, upd, AMap.get, AMap.set, AMap.del, past, removeFromPile, still, modify, del, mClean, evictLoop, cleanNum]

example : (runActs (init 0 0) turns).map (fun st => (st.sh.items.keys, st.sh.pile, st.obs.filterMap said)) =
    some ([b!"a"], [b!"a"], [.got (some 1) false, .got none false, .got none true]) := by decide

example : ∃ st, runActs (init 0 0) turns = some st ∧ Serial (init 0 0) turns ∧ Thorough (init 0 0) [] turns ∧ ∀ t, st.pcs t = .idle := by
  refine ⟨(runActs (init 0 0) turns).get (by decide), by simp, turns_serial, turns_thorough, fun t => ?_⟩
  by_cases h1 : t = 1
  · subst h1; decide
  · by_cases h3 : t = 3
    · subst h3; decide
    · simp [turns, runActs, apply, ranged, init, set, setRaw, upd, AMap.get, AMap.set, AMap.del, past, removeFromPile, still, modify, del, mClean,
        evictLoop, cleanNum, h1, h3]

end Xcore.CacheConc
