import Verif.Proof.V1.CacheSerial

/-!
# Property C83: calls on a cache of version 1 that do not overlap

The specification is `Verif/Spec/V1/CacheSerial.lean`: `Serial` says that no goroutine takes a step while another one is inside a call,
`calls` lists the calls of a schedule, `Holds` compares the shared memory with a cache of the sequential model.
-/

namespace Xcore.V1.CacheConc

open Xcore.Cache (Env Out)
open Xcore.V1.Cache (Entry removeFromPile new run count)
open Spec

variable {D : Type}

/-- **C83** Any number of goroutines use a new cache of version 1, and no call starts before the call before it has returned. Then every Get
returns what it would return if one goroutine made the same calls in the same order, with the same answers of clock and validator; the same
calls panic; and the cache holds the same entries with the same pile. (`Thorough`: Verify looks at every key once.) -/
theorem C83_serial_calls_as_by_one_goroutine (m e : Int) (as : List (Act D)) (st : St D) (h : runActs (init m e) as = some st)
    (hs : Serial (init m e) as) (ht : Thorough (init m e) [] as) (hend : ∀ t, st.pcs t = .idle) :
    Holds st.sh (run (new m e) (calls as)).1 ∧ st.obs.filterMap said = (run (new m e) (calls as)).2.filter isSaid := by
  have := serial_ends hend as.length as (init m e) (new m e) [] (Nat.le_refl _) hs (fun _ => rfl)
    ⟨⟨rfl, rfl, rfl, rfl, .nil⟩, AMap.nodup_nil, by simp [init]⟩ ht h
  exact ⟨this.1, by simpa [init] using this.2⟩

/-- **C83** In particular Get finds a key exactly if the sequential cache has an entry for it, and it is the same entry. -/
theorem C83_same_entries (m e : Int) (as : List (Act D)) (st : St D) (h : runActs (init m e) as = some st)
    (hs : Serial (init m e) as) (ht : Thorough (init m e) [] as) (hend : ∀ t, st.pcs t = .idle) (k : Str) :
    (st.sh.items.get k).bind (fun id => st.sh.heap[id]?) = (run (new m e) (calls as)).1.items.get k ∧
    st.sh.items.length = count (run (new m e) (calls as)).1 := by
  have hh := (C83_serial_calls_as_by_one_goroutine m e as st h hs ht hend).1.items
  refine ⟨?_, hh.length.symm⟩
  cases hg : st.sh.items.get k with
  | none => rw [hh.get_none hg]; rfl
  | some id =>
    obtain ⟨x, h1, h2⟩ := hh.get_some hg
    rw [h1]; exact h2

/-- A clock that stands still. -/
def still (n : Int) : Env := { clk := fun _ => n, clkAt := fun _ => n, valid := fun _ _ => true }

/-- Goroutine 1 sets and reads a key, goroutine 2 reads one that is not there, goroutine 3 reads a key that the validator refuses, goroutine 1 verifies;
then the cache gets a limit and the next Set cleans it. -/
def turns : List (Act Nat) :=
  [.set 1 (still 0) b!"a" 1, .setOk 1, .set 2 (still 1) b!"b" 2, .setOk 2, .set 1 (still 2) b!"c" 3, .setOk 1,
    .getStart 1 b!"a", .checkVal 1 true, .checkExp 1 3, .writeRtime 1 4, .loadPile 1, .storePile 1, .loadPile 1, .storePile 1,
    .getStart 2 b!"x", .setValidator true, .getStart 3 b!"b", .checkVal 3 false, .getDrop 3,
    .verifyStart 1 (still 6), .verifyPick 1 b!"c" false, .verifyDel 1, .verifyPick 1 b!"a" true, .verifyEnd 1,
    .setExpire 5, .setMaxitems 2, .set 2 (still 7) b!"d" 4, .setFull 2 (still 8)]

theorem turns_serial : Serial (init 0 0) turns := by
  simp [turns, Serial, apply, ranged, init, owner, set, upd, AMap.get, AMap.set, AMap.del, removeFromPile, still, del, clean]
  and_intros
  all_goals
    intro u
    by_cases h1 : u = 1 <;> by_cases h2 : u = 2 <;> by_cases h3 : u = 3 <;> simp_all

theorem turns_thorough : Thorough (init 0 0) [] turns := by
  simp [turns, Thorough, apply, ranged, init, set, upd, AMap.get, AMap.set, AMap.del, removeFromPile, still, del, clean]

example : (runActs (init 0 0) turns).map (fun st => (st.sh.items.keys, st.sh.pile, st.obs.filterMap said)) =
    some ([b!"d"], [b!"c", b!"a", b!"d"], [.got (some 1) false, .got none false, .got none true]) := by decide

example : ∃ st, runActs (init 0 0) turns = some st ∧ Serial (init 0 0) turns ∧ Thorough (init 0 0) [] turns ∧ ∀ t, st.pcs t = .idle := by
  refine ⟨(runActs (init 0 0) turns).get (by decide), by simp, turns_serial, turns_thorough, fun t => ?_⟩
  by_cases h1 : t = 1
  · subst h1; decide
  · by_cases h2 : t = 2
    · subst h2; decide
    · by_cases h3 : t = 3
      · subst h3; decide
      · simp [turns, runActs, apply, ranged, init, set, upd, AMap.get, AMap.set, AMap.del, removeFromPile, still, del, clean, h1, h2, h3]

end Xcore.V1.CacheConc
