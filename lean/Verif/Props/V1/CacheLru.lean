import Verif.Proof.V1.CacheLru

/-!
# Property C99: capacity and eviction order of the cache of version 1

The specification is in `Verif/Spec/V1/CacheLru.lean`: `uses` (the keys in the order of their use), `Lost` (entries that a call drops
without regard to their use: flushed, found expired, or refused by the validator in `Verify`); `age` is that of `Verif/Spec/Cache.lean`.
-/

namespace Xcore.V1.Cache

open Xcore.Cache (Env Out Tracked Surplus Ghost)
open Xcore.Cache.Spec (deadlinePassed age)

variable {D : Type}

/-- **C99** In every history with percentages up to 100 and without change of the limit: Count stays below `max(Maxitems, 10)` plus the
number of entries that were flushed, found expired, or refused in a `Verify`. -/
theorem C99_capacity_and_lost (m e : Int) (hm : 0 < m) (h : List (Env × Op D)) (hk : ∀ p ∈ h, KeepsLimit p.2 ∧ PercOk p.2) :
    (count (run (new m e) h).1 : Int) < max m 10 + (lostTotal (new m e) h : Int) := by
  have h0 : Surplus (new m e : Cache D).up ((max m 10).toNat - 1) 0 :=
    ⟨Tracked.new m e, Nat.le_refl _, Nat.zero_le _⟩
  have h1 := surplus_run hm h rfl h0 hk
  have h2 := h1.tracked.length_le
  have h3 := h1.bound
  have h4 := count_up (run (new m e : Cache D) h).1
  simp only [Xcore.Cache.count] at h4
  omega

/-- **C99 (part)** If nothing was flushed, found expired or refused in a `Verify`, the documented limit holds for Maxitems ≥ 9. Missing:
smaller limits, and histories in which entries are lost (false, below). -/
theorem C99_documented_limit_partial (m e : Int) (hm : 9 ≤ m) (h : List (Env × Op D)) (hk : ∀ p ∈ h, KeepsLimit p.2 ∧ PercOk p.2)
    (hl : lostTotal (new m e) h = 0) : (count (run (new m e) h).1 : Int) ≤ m := by
  have := C99_capacity_and_lost m e (by omega) h hk
  omega

/-- **C99 (part)** In every history with percentages up to 100: if `Clean` evicts an entry that is not expired, and no entry of this key
was ever flushed, found expired or refused in a `Verify`, then it leaves no entry that was last used before it. Missing: keys of which an
entry was lost (false, below). -/
theorem C99_clean_evicts_lru_partial (m e : Int) (h : List (Env × Op D)) (hp : ∀ q ∈ h, PercOk q.2) (env : Env) (p : Int) (k k' : Str) :
    let c := (run (new m e) h).1
    let c' := (clean c env p).1
    let u := uses (trace (new m e) h)
    Present c k → Present c k' → age u k' < age u k → ¬ EverLost (new m e) k' h → ¬ Lost c env k' (.clean p) →
    ¬ Present c' k' → ¬ Present c' k := by
  intro c c' u hk hk' ha hd he hg
  have h1 := ghost_run h (c := (new m e : Cache D)) (Ghost.new (D := D) m e) hp
  simp only [List.nil_append, false_or] at h1
  have hup : c'.up = (Xcore.Cache.mClean c.up env p).1 := by
    have := up_clean c env p
    unfold Xcore.Cache.clean at this
    rw [this]
  rw [← present_up] at hk hk' hg ⊢
  rw [hup] at hg ⊢
  exact h1.mClean_lru env p hk hk' ha hd (fun hx => he ((expired_up c env k').1 hx)) hg

/-- **C99 (part)** The same for the eviction by a `Set` that reaches the limit: the key that is set counts as the one used last. -/
theorem C99_set_evicts_lru_partial (m e : Int) (h : List (Env × Op D)) (hp : ∀ q ∈ h, PercOk q.2) (env : Env) (k0 : Str) (d : D)
    (k k' : Str) :
    let c := (run (new m e) h).1
    let c' := (step c env (.set k0 d)).1
    let u := uses (trace (new m e) h) ++ [k0]
    (k = k0 ∨ Present c k) → (k' = k0 ∨ Present c k') → age u k' < age u k → ¬ EverLost (new m e) k' h →
    ¬ Lost c env k' (.set k0 d) → ¬ Present c' k' → ¬ Present c' k := by
  intro c c' u hk hk' ha hd he hg
  have h1 := ghost_run h (c := (new m e : Cache D)) (Ghost.new (D := D) m e) hp
  simp only [List.nil_append, false_or] at h1
  have h2 := h1.setRaw env k0 d
  have hup : c'.up = (Xcore.Cache.step c.up env (.set k0 d)).1 := by
    have := up_step c env (.set k0 d) (by simp)
    rw [show Op.up (.set k0 d) = .set k0 d from rfl] at this
    rw [this]
  rw [← present_up c] at hk hk'
  rw [← present_up c', hup] at hg ⊢
  have hl : ¬ Xcore.Cache.Spec.Drops c.up env k' (.set k0 d) := fun hx => he ((lost_up (op := .set k0 d) (by simp)).1 hx)
  simp only [Xcore.Cache.step, Xcore.Cache.set_eq] at hg ⊢
  split at hg
  · rename_i hcond
    rw [if_pos hcond]
    rw [Xcore.Cache.setRaw_length] at hcond
    refine h2.mClean_lru env 10 (Xcore.Cache.present_setRaw.2 hk) (Xcore.Cache.present_setRaw.2 hk') ha hd ?_ hg
    intro hx
    exact hl ⟨hcond, Xcore.Cache.expired_setRaw.1 hx⟩
  · exact absurd (Xcore.Cache.present_setRaw.2 hk') hg

/-- **C99 is false after `Verify`**, without expiration and without `Flush`: with Maxitems = 10 any number of entries can be reached. (In
version 2 `Verify` does not have this effect.) -/
theorem C99_unbounded_with_verify (d : D) (B : Nat) :
    ∃ h : List (Env × Op D), (∀ p ∈ h, p.2 ≠ .flush ∧ KeepsLimit p.2 ∧ PercOk p.2) ∧ count (run (new 10 0) h).1 = B := by
  refine ⟨(refusing, .setValidator true) :: refusedPrefix d (B * B) ++ ((refusing, .setValidator false) :: fill d 0 B), ?_, ?_⟩
  · have hpre : ∀ n, ∀ p ∈ refusedPrefix d n, p.2 ≠ .flush ∧ KeepsLimit p.2 ∧ PercOk p.2 := by
      intro n
      induction n with
      | zero => intro p hp; simp [refusedPrefix] at hp
      | succ n ih =>
        intro p hp
        simp only [refusedPrefix, List.mem_cons] at hp
        rcases hp with rfl | rfl | hp
        · exact ⟨by simp, trivial, trivial⟩
        · exact ⟨by simp, trivial, trivial⟩
        · exact ih p hp
    intro p hp
    simp only [List.cons_append, List.mem_cons, List.mem_append] at hp
    rcases hp with rfl | hp | rfl | hp
    · exact ⟨by simp, trivial, trivial⟩
    · exact hpre _ p hp
    · exact ⟨by simp, trivial, trivial⟩
    · obtain ⟨k, hk⟩ := mem_fill d B 0 p hp
      rw [hk]
      exact ⟨by simp, trivial, trivial⟩
  · rw [run_append]
    have h1 : (run (new 10 0 : Cache D) ((refusing, .setValidator true) :: refusedPrefix d (B * B))).1 =
        ⟨10, 0, true, [], List.replicate (B * B) []⟩ := by
      simp only [run]
      exact run_refusedPrefix d (B * B) []
    rw [h1]
    have h2 : (run (⟨10, 0, true, [], List.replicate (B * B) []⟩ : Cache D) ((refusing, .setValidator false) :: fill d 0 B)).1 =
        (run (⟨10, 0, false, [], List.replicate (B * B) []⟩ : Cache D) (fill d 0 B)).1 := rfl
    rw [h2, ← count_up, up_run _ (fun p hp => by obtain ⟨k, hk⟩ := mem_fill d B 0 p hp; rw [hk]; simp), upAll_fill]
    have := Xcore.Cache.run_fill d 0 (by omega) B 0 (B * B) [] [] rfl (by simp) (by simp) (by simp)
    simpa [Cache.up] using this

/-- A sample environment: all clocks read `t`; the validator accepts what was created after `v`. -/
def atc (t v : Int) : Env := ⟨fun _ => t, fun _ => t, fun _ c => decide (v < c)⟩

/-- **C99 is false after `Verify`**: `a` was refused by the validator and removed, then `b` and `a` were set; Clean(50) evicts `a`, the
most recently used key, and keeps `b`. Version 2 evicts `b`. -/
theorem C99_verify_counterexample :
    let h : List (Env × Op Nat) := [(atc 1 0, .setValidator true), (atc 1 0, .set b!"a" 1), (atc 2 1, .verify), (atc 3 1, .set b!"b" 2),
      (atc 4 1, .set b!"a" 3), (atc 5 1, .clean 50)]
    (run (new 0 0) h).1.items.keys = [b!"b"] ∧ (Xcore.Cache.run (Xcore.Cache.new 0 0) (upAll h)).1.items.keys = [b!"a"] := by decide

/-- **C99 is false for small limits**: with Maxitems = 3 nine entries are kept. -/
theorem C99_small_limit_counterexample : count (run (new 3 0 : Cache Nat) (fill 0 0 9)).1 = 9 := by decide

/-- Non-vacuity of the bounds: twelve sets with the limit 10 and nothing lost leave nine entries; after nine entries refused by a Verify,
twelve entries are reached with twelve sets of other keys. -/
example :
    let h : List (Env × Op Nat) := fill 0 0 12
    let h' : List (Env × Op Nat) := (refusing, .setValidator true) :: fill 0 0 9 ++ (refusing, .verify) :: (refusing, .setValidator false) :: fill 0 20 12
    lostTotal (new 10 0) h = 0 ∧ count (run (new 10 0) h).1 = 9 ∧ lostTotal (new 10 0) h' = 9 ∧ count (run (new 10 0) h').1 = 12 := by
  decide +kernel

/-- Non-vacuity of the eviction order: `x` is refused in a Verify, so its key stays in the way; `Clean(75)` with the entries a, b, c, d
then evicts a and b only, and no entry of a or b was lost. -/
example :
    let h : List (Env × Op Nat) := [(atc 1 0, .setValidator true), (atc 1 0, .set b!"x" 0), (atc 2 1, .verify), (atc 3 1, .set b!"a" 1),
      (atc 4 1, .set b!"b" 2), (atc 5 1, .set b!"c" 3), (atc 6 1, .set b!"d" 4)]
    let c := (run (new 0 0) h).1
    EverLost (new 0 0) b!"x" h ∧ ¬ EverLost (new 0 0) b!"b" h ∧ ¬ Lost c (atc 7 1) b!"b" (.clean 75) ∧
      age (uses (trace (new 0 0) h)) b!"b" < age (uses (trace (new 0 0) h)) b!"a" ∧
      (clean c (atc 7 1) 75).1.items.keys = [b!"c", b!"d"] := by
  refine ⟨Or.inr (Or.inr (Or.inl ⟨_, rfl, Or.inr (by decide)⟩)), ?_, ?_, by decide, by decide⟩
  · rintro (h | h | h | h | h | h | h | h)
    · exact h
    · exact absurd h.1.1 (by decide)
    · obtain ⟨e, h1, _⟩ := h; simp [step, set, new, AMap.get, AMap.set] at h1
    · exact absurd h.1.1 (by decide)
    · exact absurd h.1.1 (by decide)
    · exact absurd h.1.1 (by decide)
    · exact absurd h.1.1 (by decide)
    · exact h
  · rintro ⟨e, _, h2⟩
    exact absurd h2.1 (by decide)

end Xcore.V1.Cache
