import Verif.Proof.CacheConcSafe

/-!
# Properties C12 and C13: one cache, many goroutines

A schedule is a list of steps of any number of goroutines (`Verif/Model/CacheConc.lean`). Quantifying over schedules covers every
interleaving, every clock and every answer of the validator.
-/

namespace Xcore.CacheConc

open Cache

variable {D : Type}

theorem runActs_append (st : St D) (as bs : List (Act D)) :
    runActs st (as ++ bs) = (runActs st as).bind (fun st' => runActs st' bs) := by
  induction as generalizing st with
  | nil => rfl
  | cons a as ih =>
    simp only [List.cons_append, runActs]
    cases apply st a with
    | none => rfl
    | some st' => exact ih st'

theorem obs_provenance {st st' : St D} (h : Inv st) (as : List (Act D)) (hr : runActs st as = some st') :
    ∃ new, st'.obs = st.obs ++ new ∧
      (∀ pre t k v b post, new = pre ++ [.returned t k (some v) b] ++ post → .stored k v ∈ st.obs ++ pre ∧ b = false) ∧
      (∀ p, .panicked p ∈ new → 100 < p) := by
  induction as generalizing st with
  | nil =>
    simp only [runActs, Option.some.injEq] at hr; subst hr
    exact ⟨[], by simp, by simp, by simp⟩
  | cons a as ih =>
    simp only [runActs] at hr
    split at hr
    · rename_i st1 h1
      obtain ⟨n1, e1, e2, e3⟩ := apply_obs h a h1
      obtain ⟨n2, f1, f2, f3⟩ := ih (h.apply a h1) hr
      refine ⟨n1 ++ n2, by rw [f1, e1, List.append_assoc], ?_, ?_⟩
      · intro pre t k v b post hn
        rw [List.append_assoc] at hn
        rcases List.append_eq_append_iff.1 hn with ⟨c, hc1, hc2⟩ | ⟨c, hc1, hc2⟩
        · -- n1 ++ c = pre
          rw [← List.append_assoc] at hc2
          have := f2 c t k v b post hc2
          rw [e1, List.append_assoc, ← hc1] at this
          exact this
        · cases c with
          | nil =>
            simp only [List.append_nil, List.nil_append] at hc1 hc2
            have := f2 [] t k v b post (by rw [← hc2]; rfl)
            rw [e1, hc1, List.append_nil] at this
            exact this
          | cons x xs =>
            simp only [List.cons_append, List.nil_append, List.cons.injEq] at hc2
            have := e2 t k v b (by rw [hc1, hc2.1]; simp)
            exact ⟨by simp [this.1], this.2⟩
      · intro p hp
        rcases List.mem_append.1 hp with h' | h'
        · exact e3 p h'
        · exact f3 p h'
    · cases hr

/-- **C12** Whatever the interleaving, a value returned by `Get(k)` was stored under `k` by a `Set` before the Get returned
(and is not flagged invalid): never a value of another key, never something nobody stored. -/
theorem C12_returned_value_was_set (m e : Int) (as : List (Act D)) (st : St D) (h : Run m e as st)
    (pre post : List (Obs D)) (t : Nat) (k : Str) (v : D) (b : Bool) (hobs : st.obs = pre ++ [.returned t k (some v) b] ++ post) :
    .stored k v ∈ pre ∧ b = false := by
  obtain ⟨new, h1, h2, _⟩ := obs_provenance (Inv.init m e) as h
  have : new = pre ++ [.returned t k (some v) b] ++ post := by
    rw [← hobs, h1]; simp [init]
  simpa [init] using h2 pre t k v b post this

/-- **C12** Whatever the interleaving, no call panics: only a `Clean` with more than 100 percent can. -/
theorem C12_never_panics (m e : Int) (as : List (Act D)) (st : St D) (h : Run m e as st) (p : Int)
    (hp : .panicked p ∈ st.obs) : 100 < p := by
  obtain ⟨new, h1, _, h3⟩ := obs_provenance (Inv.init m e) as h
  rw [h1] at hp
  simp only [init, List.nil_append] at hp
  exact h3 p hp

theorem clean_step {st st' : St D} (hi : Inv st) (env : Env) (h : apply st (.clean env 100) = some st') :
    st'.sh.items = [] ∨ st'.sh.pile.length < st.sh.pile.length := by
  simp only [apply, Option.some.injEq] at h
  subst h
  have h2 : (cleanNum (swept st.sh env).length 100).toNat = (swept st.sh env).length := by
    unfold cleanNum; rw [Int.mul_tdiv_cancel _ (by omega)]; rfl
  have h3 := swept_length st.sh env
  have h4 := hi.tracked.length_le
  rcases Nat.eq_zero_or_pos (swept st.sh env).length with h0 | h0
  · left
    dsimp only
    rw [mClean_items, List.eq_nil_of_length_eq_zero h0]
    rfl
  · right
    dsimp only
    rw [mClean_pile, h2, if_pos (by omega), List.length_drop]
    omega

/-- **C12** Whatever the interleaving, every key present stays known to the eviction order. -/
theorem C12_present_keys_are_tracked (m e : Int) (as : List (Act D)) (st : St D) (h : Run m e as st) (k : Str) (id : Nat)
    (hk : st.sh.items.get k = some id) : k ∈ st.sh.pile :=
  ((Inv.init m e).run as h).tracked.sub k ((AMap.mem_keys_iff _ _).2 ⟨id, hk⟩)

/-- **C12** Hence no entry can become impossible to evict: after any interleaving, `Clean(100)` repeated often enough empties the
cache. -/
theorem C12_nothing_escapes_eviction (m e : Int) (as : List (Act D)) (st : St D) (h : Run m e as st) (env : Env) :
    ∃ n st', runActs st (List.replicate n (.clean env 100)) = some st' ∧ st'.sh.items = [] := by
  have hi := (Inv.init m e).run as h
  clear h
  generalize hl : st.sh.pile.length = l
  induction l using Nat.strongRecOn generalizing st with
  | _ l ih =>
    have h1 : apply st (.clean env 100) = some _ := rfl
    rcases clean_step hi env h1 with h2 | h2
    · exact ⟨1, _, rfl, h2⟩
    · obtain ⟨n, st', h3, h4⟩ := ih _ (by omega) _ (hi.apply _ h1) rfl
      exact ⟨n + 1, st', by rw [List.replicate_succ]; exact h3, h4⟩

/-! ## C13 -/

/-- **C13 (part)** `Set(k,d)` completes at a moment when no goroutine is in the middle of a `Get(k)` (nor of a Verify about to
delete `k`) and does not fill the cache. Then along every schedule of concurrent Gets and other calls that may not remove the
entry of `k`, either some `Get(k)` finds that very entry invalid, or the entry is still there and every `Get(k)` that returned
in the meantime returned `d`. The full property drops the hypothesis on goroutines in the middle of `Get(k)`; that is false
(`C13_completed_set_can_be_lost`). -/
theorem C13_set_survives_partial (m e : Int) (before : List (Act D)) (st st1 st2 : St D) (h : Run m e before st)
    (env : Env) (k : Str) (d : D) (hset : apply st (.set env k d) = some st1)
    (hfree : ∀ t, ¬ Busy k (st.pcs t))
    (hroom : st.sh.maxitems ≤ 0 ∨ (countWith st k : Int) < st.sh.maxitems)
    (as : List (Act D)) (hrun : QuietRun k st1 as st2) :
    ∃ during, st2.obs = st1.obs ++ during ∧
      ((∃ t, .condemned t k st.sh.heap.length ∈ during) ∨
        ((∃ en, st2.sh.items.get k = some st.sh.heap.length ∧ st2.sh.heap[st.sh.heap.length]? = some en ∧ en.data = d) ∧
          ∀ t r b, .returned t k r b ∈ during → r = some d ∧ b = false)) := by
  have hi := (Inv.init m e).run before h
  have hi1 := hi.apply _ hset
  have hraw : CacheConc.set st.sh env k d = (setRaw st.sh env k d, true) := by
    unfold CacheConc.set
    refine if_neg ?_
    show ¬ (0 < st.sh.maxitems ∧ st.sh.maxitems ≤ _)
    have hl := length_setRaw st env k d; omega
  have hs : Safe k st.sh.heap.length d st1 := by
    simp only [apply, Option.some.injEq, hraw] at hset
    subst hset
    refine ⟨?_, ?_, ?_, ?_, ?_⟩
    · simp [setRaw, AMap.get_set]
    · exact ⟨_, List.getElem?_concat_length .., rfl⟩
    · intro t id' hh
      refine absurd ?_ (hfree t)
      dsimp only at hh
      revert hh
      cases st.pcs t <;> simp [PC.holds, Busy] <;> exact fun a _ => a
    · intro t id' hh; exact hfree t (by dsimp only at hh; rw [hh]; rfl)
    · intro t m hh; exact hfree t (by dsimp only at hh; rw [hh]; rfl)
  obtain ⟨new, h1, h2⟩ := hs.run hrun hi1
  refine ⟨new, h1, ?_⟩
  rcases h2 with h2 | ⟨hs2, hf⟩
  · exact Or.inl h2
  · right
    obtain ⟨en, h3, h4⟩ := hs2.data
    exact ⟨⟨en, hs2.present, h3, h4⟩, fun t r b ho => hf _ ho t r b rfl⟩

/-- A Get reports an entry invalid only if it is: at that moment its TTL is over, or the validator rejects it, or the expiration of
the cache is over. -/
theorem C13_condemned_only_if_invalid (st st' : St D) (a : Act D) (t : Nat) (k : Str) (id : Nat) (ha : apply st a = some st')
    (hn : .condemned t k id ∉ st.obs) (hc : .condemned t k id ∈ st'.obs) :
    (∃ now en, a = .checkTTL t now ∧ st.sh.heap[id]? = some en ∧ en.ttl ≠ 0 ∧ en.ctime + en.ttl < now) ∨
    (a = .checkVal t false ∧ st.sh.hasValidator = true) ∨
    (∃ now en, a = .checkExp t now ∧ st.sh.heap[id]? = some en ∧ st.sh.expire ≠ 0 ∧ en.ctime + st.sh.expire < now) := by
  cases a with
  | checkTTL t' now =>
    simp only [apply] at ha
    split at ha
    · split at ha
      · rename_i en he
        split at ha <;> (rename_i hcond; simp only [Option.some.injEq] at ha; subst ha)
        · simp only [List.mem_append, List.mem_singleton, Obs.condemned.injEq] at hc
          obtain ⟨rfl, rfl, rfl⟩ := hc.resolve_left hn
          exact Or.inl ⟨now, en, rfl, he, hcond.1, by simpa [past] using hcond.2⟩
        · exact absurd hc hn
      · cases ha
    · cases ha
  | checkVal t' ok =>
    simp only [apply] at ha
    split at ha
    · split at ha <;> (rename_i hcond; simp only [Option.some.injEq] at ha; subst ha)
      · simp only [List.mem_append, List.mem_singleton, Obs.condemned.injEq] at hc
        obtain ⟨rfl, rfl, rfl⟩ := hc.resolve_left hn
        have : ok = false := by simpa using hcond.2
        subst this
        exact Or.inr (Or.inl ⟨rfl, hcond.1⟩)
      · exact absurd hc hn
    · cases ha
  | checkExp t' now =>
    simp only [apply] at ha
    split at ha
    · split at ha
      · rename_i en he
        split at ha <;> (rename_i hcond; simp only [Option.some.injEq] at ha; subst ha)
        · simp only [List.mem_append, List.mem_singleton, Obs.condemned.injEq] at hc
          obtain ⟨rfl, rfl, rfl⟩ := hc.resolve_left hn
          exact Or.inr (Or.inr ⟨now, en, rfl, he, hcond.1, by simpa [past] using hcond.2⟩)
        · exact absurd hc hn
      · cases ha
    · cases ha
  | _ =>
    exfalso
    simp only [apply] at ha
    repeat' split at ha
    all_goals first
      | (cases ha; done)
      | (simp only [Option.some.injEq] at ha
         subst ha
         revert hc
         try dsimp only
         repeat' split
         all_goals simp [hn])

/-! ### Witnesses -/

/-- A clock standing at `n`. -/
def at_ (n : Int) : Env := { clk := fun _ => n, clkAt := fun _ => n, valid := fun _ _ => true }

/-- The schedule that loses a completed Set: goroutine 1 finds the old entry expired, then goroutine 0 replaces it, then goroutine 1
deletes the key. -/
def losing : List (Act Nat) :=
  [.set (at_ 0) b!"k" 1, .setTTL b!"k" 5, .getStart 1 b!"k", .checkTTL 1 10, .set (at_ 10) b!"k" 2, .getDrop 1,
   .getStart 0 b!"k"]

/-- **C13** is false as stated: after `Set(k,2)` has returned, with no TTL, no expiration, no limit, nobody deleting `k` and no later
Set of `k`, `Get(k)` misses. -/
theorem C13_completed_set_can_be_lost :
    (runActs (init 0 0) losing).map (fun st => (st.sh.items.get b!"k", st.obs)) =
      some (none, [.stored b!"k" 1, .condemned 1 b!"k" 0, .stored b!"k" 2, .returned 1 b!"k" none true,
        .returned 0 b!"k" none false]) := by decide

/-- Another schedule that loses a completed Set: a Verify by goroutine 1 goes on over the map that Flush abandoned; the validator rejects the old
entry of `k`, and goroutine 1 deletes the new one. -/
def losingFlushed : List (Act Nat) :=
  [.setValidator true, .set (at_ 0) b!"k" 1, .verifyStart 1 (at_ 1), .flush, .verifyPick 1 b!"k" false, .set (at_ 2) b!"k" 2, .verifyDel 1,
   .verifyEnd 1, .getStart 0 b!"k"]

/-- **C13** A Verify that was started before a Flush can delete what was set after it: it looks at the entries the cache had before the Flush,
but deletes from the map the cache has now. -/
theorem C13_verify_deletes_what_was_set_after_flush :
    (runActs (init 0 0) losingFlushed).map (fun st => (st.sh.items.get b!"k", st.obs)) =
      some (none, [.stored b!"k" 1, .stored b!"k" 2, .returned 0 b!"k" none false]) ∧
    (runActs (init 0 0) (losingFlushed.take 6)).map (fun st => st.sh.items.get b!"k") = some (some 1) := by decide

/-- **C13** A Verify looks only at keys that were present at some moment since its `Clean(0)`. -/
theorem C13_verify_looks_at_keys_of_its_time (m e : Int) (before during : List (Act D)) (t : Nat) (env : Env) (st : St D)
    (h : Run m e (before ++ .verifyStart t env :: during) st) (hin : Act.verifyEnd t ∉ during) (k : Str) (ok : Bool)
    (hp : (apply st (.verifyPick t k ok)).isSome = true) :
    ∃ first rest st1, during = first ++ rest ∧ Run m e (before ++ .verifyStart t env :: first) st1 ∧ (st1.sh.items.get k).isSome = true := by
  obtain ⟨st0, h0, h1⟩ := runActs_split h
  obtain ⟨s, hs, hr⟩ := runActs_cons' h1
  have hv : s.pcs t = .verifying s.left.length := by
    simp only [apply] at hs
    split at hs
    · simp only [Option.some.injEq] at hs; subst hs; simp [upd]
    · cases hs
  have hpc := verify_pc during (Or.inl hv) hin hr
  obtain ⟨first, rest, st1, h2, h3, h4⟩ := ranged_before during k hr (by
    rcases hpc with hpc | ⟨k', hpc⟩
    · simp only [apply, hpc] at hp
      by_cases hk : ranged st s.left.length k = true
      · exact hk
      · simp [hk] at hp
    · simp [apply, hpc] at hp)
  exact ⟨first, rest, st1, h2, runActs_append_of h0 (by simp [runActs, hs, h3]), h4⟩

/-- A Verify that starts after the Flush does not look at the keys the cache had before. -/
example : (runActs (init 0 0) ([.setValidator true, .set (at_ 0) b!"k" 1, .flush, .verifyStart 1 (at_ 1), .verifyPick 1 b!"k" false] :
    List (Act Nat))).isNone = true := by decide

/-- Non-vacuity: in `losingFlushed` goroutine 1 looks at `k`, which is not in the cache at that moment but was when its Verify started. -/
example : ∃ st, Run 0 0 ([.setValidator true, .set (at_ 0) b!"k" 1] ++ .verifyStart 1 (at_ 1) :: [.flush]) st ∧
    Act.verifyEnd 1 ∉ ([.flush] : List (Act Nat)) ∧ st.sh.items.get b!"k" = none ∧ (apply st (.verifyPick 1 b!"k" false)).isSome = true :=
  ⟨_, rfl, by simp, by decide, by decide⟩

/-- Non-vacuity of C12: two goroutines read while a third replaces the value; both values were stored under the key. -/
example : (runActs (init 2 0) ([.set (at_ 0) b!"k" 1, .getStart 1 b!"k", .set (at_ 1) b!"k" 2, .getStart 2 b!"k", .checkTTL 1 3,
    .checkTTL 2 3, .checkVal 1 true, .checkVal 2 true, .checkExp 2 3, .writeRtime 2 3, .getEnd 2, .checkExp 1 3, .del b!"k",
    .writeRtime 1 4, .getEnd 1] : List (Act Nat))).map (fun st => (st.sh.items, st.sh.pile, st.obs)) =
    some ([], [b!"k"], [.stored b!"k" 1, .stored b!"k" 2, .returned 2 b!"k" (some 2) false, .returned 1 b!"k" (some 1) false]) := by
  decide

/-- Non-vacuity of the panic clause: `Clean(200)` does panic. -/
example : (runActs (init 0 0) ([.set (at_ 0) b!"k" 1, .clean (at_ 0) 200] : List (Act Nat))).map (fun st => st.obs) =
    some [.stored b!"k" 1, .panicked 200] := by decide

/-- Non-vacuity of C13: after a Set of `k`, another goroutine gets `k` while other keys are set; all steps are quiet. -/
example : ∃ st1 st2 : St Nat, apply (init 0 0) (.set (at_ 0) b!"k" 7) = some st1 ∧
    QuietRun b!"k" st1 [.getStart 1 b!"k", .set (at_ 1) b!"j" 8, .checkTTL 1 2, .checkVal 1 true, .checkExp 1 2, .writeRtime 1 2, .getEnd 1] st2 ∧
    st2.obs = st1.obs ++ [.stored b!"j" 8, .returned 1 b!"k" (some 7) false] := by
  refine ⟨_, _, rfl, .cons (by trivial) rfl (.cons ?_ rfl (.cons trivial rfl (.cons trivial rfl (.cons trivial rfl (.cons trivial rfl (.cons trivial rfl .nil)))))), rfl⟩
  exact ⟨by decide, by decide⟩

end Xcore.CacheConc
